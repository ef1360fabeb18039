import Verif.Lemmas.FlowSlope
import Verif.Props.NewtonRuns

/-!
# The equations of the flow solver for coefficient vectors
-/

noncomputable section

namespace Dream
open Matrix Set Filter Topology _root_.Spec

variable {n : ℕ} {γ : ℝ} {V B : Type} [Fintype V] [Fintype B] {ι κ : Type} [Fintype ι] [Fintype κ]
  {P : HdgSpaces n (n + 2) V B} {M : HdgMesh n V B} {mask : B → ℝ}

/-- The functions of coefficient vectors, as a linear map. -/
def inclL (bX : ι → P.element) (bZ : κ → P.facet) :
    Coeffs ι κ →L[ℝ] ElementFn n (n + 2) V B × (B → Fin (n + 2) → ℝ) :=
  LinearMap.toContinuousLinearMap
    ((P.element.subtype ∘ₗ Fintype.linearCombination ℝ bX).prodMap
      (P.facet.subtype ∘ₗ Fintype.linearCombination ℝ bZ))

theorem inclL_apply (bX : ι → P.element) (bZ : κ → P.facet) (x : Coeffs ι κ) :
    inclL bX bZ x = (elementOf bX x.1, facetOf bZ x.2) := rfl

theorem elementOf_sub (bX : ι → P.element) (c d : ι → ℝ) :
    elementOf bX (c - d) = elementOf bX c - elementOf bX d :=
  map_sub (P.element.subtype ∘ₗ Fintype.linearCombination ℝ bX) c d

/-- The forms for all functions of the bases, as a linear map of the data. -/
def formL (M : HdgMesh n V B) (mask : B → ℝ) (bX : ι → P.element) (bZ : κ → P.facet) :
    FluxData n V B →L[ℝ] Coeffs ι κ :=
  LinearMap.toContinuousLinearMap
    ((LinearMap.pi fun i => (spatialForm M mask).flip ((bX i : ElementFn n (n + 2) V B), 0)).prod
      (LinearMap.pi fun j => (spatialForm M mask).flip (0, (bZ j : B → Fin (n + 2) → ℝ))))

theorem formL_apply (bX : ι → P.element) (bZ : κ → P.facet) (D : FluxData n V B) :
    formL M mask bX bZ D = (fun i => spatialForm M mask D ((bX i : ElementFn n (n + 2) V B), 0),
      fun j => spatialForm M mask D (0, (bZ j : B → Fin (n + 2) → ℝ))) := rfl

theorem flowVec_eq (bX : ι → P.element) (bZ : κ → P.facet) {x : HdgState n (n + 2) V B}
    (hG : x.G = 0) (hGn : x.Gn = 0) :
    flowVec M mask bX bZ x = formL M mask bX bZ (fun v i j => x.F v i j, x.Fn, x.R, x.source) := by
  have hd : ∀ φ : HdgTest n (n + 2) V B, diffusionForm M mask x.G x.Gn φ = 0 := fun φ => by
    simp [diffusionForm, hG, hGn, frobenius]
  refine Prod.ext (funext fun i => ?_) (funext fun j => ?_)
  · show flowForm M mask x (elementTest (bX i)) = _
    rw [flowForm, hd, add_zero]
    rfl
  · show flowForm M mask x (facetTest (bZ j)) = _
    rw [flowForm, hd, add_zero]
    rfl

/-- The mass matrix. -/
def massL (M : HdgMesh n V B) (bX : ι → P.element) : (ι → ℝ) →L[ℝ] (ι → ℝ) :=
  LinearMap.toContinuousLinearMap
    (LinearMap.pi fun i => (massForm M).flip (bX i : ElementFn n (n + 2) V B) ∘ₗ
      (P.element.subtype ∘ₗ Fintype.linearCombination ℝ bX))

theorem massL_apply (bX : ι → P.element) (d : ι → ℝ) (i : ι) :
    massL M bX d i = massForm M (elementOf bX d) (bX i) := rfl

theorem flow_mass (bX : ι → P.element) (bZ : κ → P.facet)
    (st : Coeffs ι κ → HdgState n (n + 2) V B) (d : ι → ℝ) :
    (flowSystem M mask bX bZ st).mass d = (massL M bX d, 0) := by
  refine Prod.ext rfl (funext fun j => ?_)
  simp [flowSystem, timeForm, facetTest]

theorem massL_injective (hP : P.Fits M mask) (bX : Module.Basis ι ℝ P.element) :
    Function.Injective (massL M bX) := by
  rw [injective_iff_map_eq_zero]
  intro d hd
  have h1 : ∀ φ : P.element, massForm M (elementOf bX d) φ = 0 := by
    intro φ
    have h2 : (massForm M (elementOf bX d)) ∘ₗ P.element.subtype = 0 := by
      refine bX.ext fun i => ?_
      have := congrFun hd i
      rwa [massL_apply] at this
    exact congrArg (fun l : P.element →ₗ[ℝ] ℝ => l φ) h2
  have h2 : elementOf bX d = 0 := massForm_self hP (Subtype.property _) (h1 (∑ i, d i • bX i))
  have h3 : ∑ i, d i • bX i = 0 := Subtype.ext h2
  have := bX.linearIndependent
  rw [Fintype.linearIndependent_iff] at this
  exact funext (this d h3)

theorem isGas_iff (hγ : 1 < γ) {w : Fin (n + 2) → ℝ} : IsGas γ w ↔ GasVec w := by
  constructor
  · rintro ⟨S, hS, rfl⟩
    exact gasVec_of hS
  · intro h
    exact ⟨gasOf γ w, gasOf_ideal hγ h, (gasOf_vec h).symm⟩

theorem areGas_iff (hγ : 1 < γ) (bX : ι → P.element) (bZ : κ → P.facet) (x : Coeffs ι κ) :
    Coeffs.AreGas γ bX bZ x ↔ GasData (inclL bX bZ x) := by
  simp only [Coeffs.AreGas, isGas_iff hγ]
  rfl

theorem elementOf_target (bX : ι → P.element) (s : Scheme) (c p : ι → ℝ) :
    elementOf bX (s.target c p) = s.extrapolate (elementOf bX c) (elementOf bX p) := by
  cases s with
  | implicitEuler => rfl
  | bdf2 =>
    have e : Scheme.target .bdf2 c p = (4 / 3 : ℝ) • c - (1 / 3 : ℝ) • p := by
      funext i
      simp [Scheme.target]
      ring
    rw [e]
    show (P.element.subtype ∘ₗ Fintype.linearCombination ℝ bX) _ = _
    rw [map_sub, map_smul, map_smul]
    rfl

section
open Classical

variable {N : B → (Fin (n + 2) → ℝ) × (Fin (n + 2) → ℝ) → Fin (n + 2) → ℝ} {rs : Riemann} {cond : B → FacetCond n} {S : GasState n} {σ : V → ℝ} {w : Fin (n + 2) → ℝ}

/-- The equations for the coefficients are those for all test functions. -/
theorem flow_step_iff (hS : IdealGas γ S)
    (hN : ∀ b (u : Fin (n + 2) → ℝ) {uHat : Fin (n + 2) → ℝ}, GasVec uHat →
      convectiveNumericalFlux γ rs u uHat (conservativeDict (gasOf γ uHat)) (M.normal b)
        = .ok (N b (u, uHat)))
    (hP : P.Fits M mask)
    (hc : ∀ b, mask b = 0 → (cond b).Admits S (M.normal b))
    (bX : Module.Basis ι ℝ P.element) (bZ : Module.Basis κ ℝ P.facet)
    {st : Coeffs ι κ → HdgState n (n + 2) V B}
    (hst : ∀ x, Coeffs.AreGas γ bX bZ x → (st x).IsFlow γ rs M mask cond σ (conservativeDict S)
      (elementOf bX x.1) (facetOf bZ x.2)) (s : Scheme) {dt : ℝ} (hdt : 0 < dt) (t : ℚ)
    {y cur prev : Coeffs ι κ} (hy : GasData (inclL bX bZ y)) (hcur : GasData (inclL bX bZ cur))
    (hprev : GasData (inclL bX bZ prev)) :
    (flowSystem M mask bX bZ st).stepEquation (s.quotient dt) t cur prev y = 0 ↔
      hdgStep M mask P.tests (s.quotient dt) t (st y) (st cur) (st prev) := by
  have hγ := hS.gamma
  have hw := s.weight_pos
  have fy := hst y ((areGas_iff hγ bX bZ y).2 hy)
  have fc := hst cur ((areGas_iff hγ bX bZ cur).2 hcur)
  have fp := hst prev ((areGas_iff hγ bX bZ prev).2 hprev)
  rw [isFlowN_iff hγ hN hP.mask01 hc σ (a := elementOf bX y.1) (ζ := facetOf bZ y.2) hy.1 hy.2.1
    hy.2.2] at fy
  obtain ⟨D, hD⟩ : ∃ D, D = fluxDataN γ N M mask cond σ (consVec S.rho S.rho_u S.rho_E)
    (elementOf bX y.1, facetOf bZ y.2) := ⟨_, rfl⟩
  rw [← hD] at fy
  rw [fy, step_iff P M mask s hdt t _ D (st cur) (st prev) _ _ fc.values fp.values,
    step_eq _ s t (z := (s.target cur.1 prev.1, 0)) (fun _ => rfl) (flow_mass bX bZ st) rfl hdt y]
  have e1 : (flowSystem M mask bX bZ st).spatial t y = formL M mask bX bZ D := by
    show flowVec M mask bX bZ (st y) = _
    rw [fy]
    exact flowVec_eq bX bZ rfl rfl
  rw [e1, formL_apply, Prod.mk_add_mk, Prod.mk_eq_zero, add_zero, ← elementOf_target bX s,
    ← elementOf_sub]
  refine and_congr ?_ ?_
  · have hne : dt / s.weight ≠ 0 := (div_pos hdt hw).ne'
    obtain ⟨L, hL⟩ : ∃ L : P.element →ₗ[ℝ] ℝ, L = (massForm M (elementOf bX (y.1 - s.target cur.1 prev.1)))
      ∘ₗ P.element.subtype + (dt / s.weight) • ((spatialForm M mask D) ∘ₗ
        ((LinearMap.inl ℝ _ _) ∘ₗ P.element.subtype)) := ⟨_, rfl⟩
    have hLa : ∀ φ : P.element, L φ = massForm M (elementOf bX (y.1 - s.target cur.1 prev.1)) φ
        + dt / s.weight * spatialForm M mask D (φ, 0) := fun φ => by rw [hL]; rfl
    constructor
    · intro h φ hφ
      have h0 : L = 0 := by
        refine bX.ext fun i => ?_
        have h1 := congrFun h i
        simp only [Pi.add_apply, Pi.smul_apply, smul_eq_mul, massL_apply, Pi.zero_apply] at h1
        rw [hLa, LinearMap.zero_apply]
        have h2 := congrArg (fun r => dt / s.weight * r) h1
        simp only [mul_add, mul_zero] at h2
        rw [← mul_assoc, div_mul_div_cancel₀ hw.ne', div_self hdt.ne', one_mul] at h2
        linarith
      rw [← hLa ⟨φ, hφ⟩, h0]
      rfl
    · intro h
      funext i
      simp only [Pi.add_apply, Pi.smul_apply, smul_eq_mul, massL_apply, Pi.zero_apply]
      have h1 := h (bX i) (bX i).2
      have h2 := congrArg (fun r => s.weight / dt * r) h1
      simp only [mul_add, mul_zero] at h2
      rw [← mul_assoc _ (dt / s.weight), div_mul_div_cancel₀ hdt.ne', div_self hw.ne', one_mul] at h2
      linarith
  · obtain ⟨L, hL⟩ : ∃ L : P.facet →ₗ[ℝ] ℝ, L = (spatialForm M mask D) ∘ₗ
        ((LinearMap.inr ℝ _ _) ∘ₗ P.facet.subtype) := ⟨_, rfl⟩
    have hLa : ∀ ψ : P.facet, L ψ = spatialForm M mask D (0, ψ) := fun φ => by rw [hL]; rfl
    constructor
    · intro h ψ hψ
      have h0 : L = 0 := by
        refine bZ.ext fun j => ?_
        rw [hLa]
        exact congrFun h j
      rw [← hLa ⟨ψ, hψ⟩, h0]
      rfl
    · intro h
      funext j
      exact h (bZ j) (bZ j).2

end

end Dream
