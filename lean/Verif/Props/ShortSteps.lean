import Verif.Lemmas.ImplicitStep
import Verif.Lemmas.PointFlux
import Verif.Props.Dimensions
import Mathlib.Analysis.Normed.Module.FiniteDimension
import Mathlib.LinearAlgebra.Dual.Lemmas

/-!
# C94: short steps can be computed near uniform flow
-/

noncomputable section

namespace Dream
open Matrix _root_.Spec Metric

variable {n : ℕ} {γ : ℝ} {V B : Type} [Fintype V] [Fintype B]

/-! ### What the integrals see -/

/-- Fluxes, numerical fluxes, residuals of the conditions and sources. -/
abbrev FluxData (n : ℕ) (V B : Type) : Type :=
  (V → Fin (n + 2) → Fin n → ℝ) × (B → Fin (n + 2) → ℝ) × (B → Fin (n + 2) → ℝ) ×
    (V → Fin (n + 2) → ℝ)

open Classical in
/-- The data of an element function and a facet function. -/
def fluxData (γ : ℝ) (rs : Riemann) (M : HdgMesh n V B) (mask : B → ℝ) (cond : B → FacetCond n)
    (σ : V → ℝ) (w : Fin (n + 2) → ℝ)
    (z : ElementFn n (n + 2) V B × (B → Fin (n + 2) → ℝ)) : FluxData n V B :=
  (fun v => pointFlux γ (z.1.2.1 v),
    fun b => pointNumerical γ rs (M.normal b) (z.1.2.2 b, z.2 b),
    fun b => if mask b = 1 then 0 else z.2 b - (cond b).value γ (M.normal b) (z.1.2.2 b),
    fun v => σ v • (z.1.2.1 v - w))

open Classical in
/-- The data of an element function and a facet function, with the numerical flux `N` at each point of
the facets. -/
def fluxDataN (γ : ℝ) (N : B → (Fin (n + 2) → ℝ) × (Fin (n + 2) → ℝ) → Fin (n + 2) → ℝ)
    (M : HdgMesh n V B) (mask : B → ℝ) (cond : B → FacetCond n)
    (σ : V → ℝ) (w : Fin (n + 2) → ℝ)
    (z : ElementFn n (n + 2) V B × (B → Fin (n + 2) → ℝ)) : FluxData n V B :=
  (fun v => pointFlux γ (z.1.2.1 v), fun b => N b (z.1.2.2 b, z.2 b),
    fun b => if mask b = 1 then 0 else z.2 b - (cond b).value γ (M.normal b) (z.1.2.2 b),
    fun v => σ v • (z.1.2.1 v - w))

/-- What is needed of a numerical flux near the state `w`: `N` is the flux of the code, which is
strictly differentiable where trace and facet value agree, consistent with the flux of the Euler
equations, and determines the facet unknowns. -/
structure FluxFits (γ : ℝ) (rs : Riemann) (P : HdgSpaces n (n + 2) V B) (M : HdgMesh n V B)
    (mask : B → ℝ) (w : Fin (n + 2) → ℝ)
    (N : B → (Fin (n + 2) → ℝ) × (Fin (n + 2) → ℝ) → Fin (n + 2) → ℝ)
    (τ : B → (Fin (n + 2) → ℝ) →L[ℝ] (Fin (n + 2) → ℝ)) : Prop where
  eq : ∀ b (u : Fin (n + 2) → ℝ) {uHat : Fin (n + 2) → ℝ}, GasVec uHat →
    convectiveNumericalFlux γ rs u uHat (conservativeDict (gasOf γ uHat)) (M.normal b)
      = .ok (N b (u, uHat))
  strict : ∀ b, HasStrictFDerivAt (N b) ((fluxJac γ (M.normal b) w).comp
      (ContinuousLinearMap.snd ℝ _ _) + (τ b).comp
        (ContinuousLinearMap.fst ℝ (Fin (n + 2) → ℝ) (Fin (n + 2) → ℝ) -
          ContinuousLinearMap.snd ℝ _ _)) (w, w)
  same : ∀ b, N b (w, w) = eulerFluxOf γ (M.normal b) w
  inj : ∀ ζ ∈ P.facet, (∀ ψ ∈ P.facet,
    (∑ b, M.wB b * (-mask b * ((fluxJac γ (M.normal b) w (ζ b) - τ b (ζ b)) ⬝ᵥ ψ b)))
      + (∑ b, M.wB b * ((1 - mask b) * (ζ b ⬝ᵥ ψ b))) = 0) → ζ = 0

/-- The state of the data. -/
def dataState (a : ElementFn n (n + 2) V B) (D : FluxData n V B) : HdgState n (n + 2) V B where
  U := a.2.1
  F := fun v => Matrix.of (D.1 v)
  G := 0
  Fn := D.2.1
  Gn := 0
  R := D.2.2.1
  source := D.2.2.2

theorem HdgState.ext' {k : ℕ} {x y : HdgState n k V B} (h1 : x.U = y.U) (h2 : x.F = y.F)
    (h3 : x.G = y.G) (h4 : x.Fn = y.Fn) (h5 : x.Gn = y.Gn) (h6 : x.R = y.R)
    (h7 : x.source = y.source) : x = y := by
  cases x; cases y
  simp only at h1 h2 h3 h4 h5 h6 h7
  subst h1 h2 h3 h4 h5 h6 h7
  rfl

theorem isFlowN_iff (hγ : 1 < γ) {rs : Riemann} {M : HdgMesh n V B} {mask : B → ℝ}
    {N : B → (Fin (n + 2) → ℝ) × (Fin (n + 2) → ℝ) → Fin (n + 2) → ℝ}
    (hN : ∀ b (u : Fin (n + 2) → ℝ) {uHat : Fin (n + 2) → ℝ}, GasVec uHat →
      convectiveNumericalFlux γ rs u uHat (conservativeDict (gasOf γ uHat)) (M.normal b)
        = .ok (N b (u, uHat)))
    (hm : ∀ b, mask b = 0 ∨ mask b = 1) {cond : B → FacetCond n} {S : GasState n}
    (hc : ∀ b, mask b = 0 → (cond b).Admits S (M.normal b)) (σ : V → ℝ)
    {a : ElementFn n (n + 2) V B} {ζ : B → Fin (n + 2) → ℝ} (h1 : ∀ v, GasVec (a.2.1 v))
    (h2 : ∀ b, GasVec (a.2.2 b)) (h3 : ∀ b, GasVec (ζ b)) (x : HdgState n (n + 2) V B) :
    x.IsFlow γ rs M mask cond σ (conservativeDict S) a ζ ↔
      x = dataState a (fluxDataN γ N M mask cond σ (consVec S.rho S.rho_u S.rho_E) (a, ζ)) := by
  have hsp : ∀ v (w : Fin (n + 2) → ℝ), spongeResidual γ (σ v) (conservativeDict S) w
      = .ok (σ v • (w - consVec S.rho S.rho_u S.rho_E)) := fun v w => by
    simp only [spongeResidual, stateVec_dict, bind, Except.bind]
  constructor
  · intro h
    refine HdgState.ext' h.values ?_ h.euler.inviscid.1 ?_ h.euler.inviscid.2 ?_ ?_
    · funext v
      obtain ⟨U, e1, e2⟩ := h.euler.flux v
      rw [h.values, gasOf_fields hγ (h1 v)] at e1
      cases e1
      rw [pointFlux_eq hγ (h1 v)] at e2
      exact (Except.ok.inj e2).symm
    · funext b
      obtain ⟨U, e1, e2⟩ := h.euler.numerical b
      rw [gasOf_fields hγ (h3 b)] at e1
      cases e1
      rw [hN _ _ (h3 b)] at e2
      exact (Except.ok.inj e2).symm
    · funext b
      rcases hm b with hb | hb
      · obtain ⟨U, e1, e2⟩ := h.conditions b hb
        rw [gasOf_fields hγ (h2 b)] at e1
        cases e1
        rw [residual_eq hγ (hc b hb) (h2 b)] at e2
        simp only [dataState, fluxDataN, hb, zero_ne_one, if_false]
        exact (Except.ok.inj e2).symm
      · rw [h.inside b hb]
        simp [dataState, fluxDataN, hb]
    · funext v
      have := h.sponge v
      rw [hsp, h.values] at this
      exact (Except.ok.inj this).symm
  · rintro rfl
    refine ⟨rfl, ⟨fun v => ⟨_, gasOf_fields hγ (h1 v), pointFlux_eq hγ (h1 v)⟩,
      fun b => ⟨_, gasOf_fields hγ (h3 b), hN _ _ (h3 b)⟩, rfl, rfl⟩, ?_, ?_, ?_⟩
    · intro b hb
      simp [dataState, fluxDataN, hb]
    · intro b hb
      refine ⟨_, gasOf_fields hγ (h2 b), ?_⟩
      rw [residual_eq hγ (hc b hb) (h2 b)]
      simp [dataState, fluxDataN, hb]
    · intro v
      exact hsp v _

theorem isFlow_iff (hγ : 1 < γ) {rs : Riemann} (hrs : rs.AnyDim) {M : HdgMesh n V B} {mask : B → ℝ}
    (hm : ∀ b, mask b = 0 ∨ mask b = 1) {cond : B → FacetCond n} {S : GasState n}
    (hc : ∀ b, mask b = 0 → (cond b).Admits S (M.normal b)) (σ : V → ℝ)
    {a : ElementFn n (n + 2) V B} {ζ : B → Fin (n + 2) → ℝ} (h1 : ∀ v, GasVec (a.2.1 v))
    (h2 : ∀ b, GasVec (a.2.2 b)) (h3 : ∀ b, GasVec (ζ b)) (x : HdgState n (n + 2) V B) :
    x.IsFlow γ rs M mask cond σ (conservativeDict S) a ζ ↔
      x = dataState a (fluxData γ rs M mask cond σ (consVec S.rho S.rho_u S.rho_E) (a, ζ)) :=
  isFlowN_iff hγ (fun b u _ h => pointNumerical_eq hγ hrs (M.normal b) u h) hm hc σ h1 h2 h3 x

/-! ### The derivative at the uniform flow -/

theorem pointFlux_contDiffAt (γ : ℝ) {w : Fin (n + 2) → ℝ} (h0 : w 0 ≠ 0) :
    ContDiffAt ℝ 1 (pointFlux γ) w := by
  rw [contDiffAt_pi]
  intro i
  rw [contDiffAt_pi]
  intro j
  exact contDiffAt_pi.1 (flux_contDiffAt γ (Pi.single j 1) h0) i

open Classical in
/-- The derivative of the data at uniform flow. -/
def slopeData (γ : ℝ) (M : HdgMesh n V B) (mask : B → ℝ) (cond : B → FacetCond n) (σ : V → ℝ)
    (w : Fin (n + 2) → ℝ) (τ : B → (Fin (n + 2) → ℝ) →L[ℝ] (Fin (n + 2) → ℝ))
    (z : ElementFn n (n + 2) V B × (B → Fin (n + 2) → ℝ)) : FluxData n V B :=
  (fun v => fderiv ℝ (pointFlux γ) w (z.1.2.1 v),
    fun b => fluxJac γ (M.normal b) w (z.2 b) + τ b (z.1.2.2 b - z.2 b),
    fun b => if mask b = 1 then 0 else
      z.2 b - fderiv ℝ (fun w => (cond b).value γ (M.normal b) w) w (z.1.2.2 b),
    fun v => σ v • z.1.2.1 v)

open Classical in
theorem fluxDataN_strict (M : HdgMesh n V B) (mask : B → ℝ)
    (cond : B → FacetCond n) (σ : V → ℝ) {w : Fin (n + 2) → ℝ} (hw : GasVec w)
    {N : B → (Fin (n + 2) → ℝ) × (Fin (n + 2) → ℝ) → Fin (n + 2) → ℝ}
    {τ : B → (Fin (n + 2) → ℝ) →L[ℝ] (Fin (n + 2) → ℝ)}
    (hN : ∀ b, HasStrictFDerivAt (N b) ((fluxJac γ (M.normal b) w).comp
      (ContinuousLinearMap.snd ℝ _ _) + (τ b).comp
        (ContinuousLinearMap.fst ℝ (Fin (n + 2) → ℝ) (Fin (n + 2) → ℝ) -
          ContinuousLinearMap.snd ℝ _ _)) (w, w)) :
    ∃ D' : (ElementFn n (n + 2) V B × (B → Fin (n + 2) → ℝ)) →L[ℝ] FluxData n V B,
      HasStrictFDerivAt (fluxDataN γ N M mask cond σ w) D'
        (((0, fun _ => w, fun _ => w) : ElementFn n (n + 2) V B), fun _ => w) ∧
      (∀ ζ b, (D' (0, ζ)).2.1 b = fluxJac γ (M.normal b) w (ζ b)
        - τ b (ζ b)) ∧
      (∀ ζ b, (D' (0, ζ)).2.2.1 b = if mask b = 1 then 0 else ζ b) ∧
      ∀ z, D' z = slopeData γ M mask cond σ w τ z := by
  let A := ElementFn n (n + 2) V B × (B → Fin (n + 2) → ℝ)
  let valL : V → A →L[ℝ] (Fin (n + 2) → ℝ) := fun v =>
    (ContinuousLinearMap.proj v).comp ((ContinuousLinearMap.fst ℝ _ _).comp
      ((ContinuousLinearMap.snd ℝ _ _).comp (ContinuousLinearMap.fst ℝ _ _)))
  let trL : B → A →L[ℝ] (Fin (n + 2) → ℝ) := fun b =>
    (ContinuousLinearMap.proj b).comp ((ContinuousLinearMap.snd ℝ _ _).comp
      ((ContinuousLinearMap.snd ℝ _ _).comp (ContinuousLinearMap.fst ℝ _ _)))
  let hatL : B → A →L[ℝ] (Fin (n + 2) → ℝ) := fun b =>
    (ContinuousLinearMap.proj b).comp (ContinuousLinearMap.snd ℝ _ _)
  let z0 : A := (((0, fun _ => w, fun _ => w) : ElementFn n (n + 2) V B), fun _ => w)
  let D1 : V → A →L[ℝ] (Fin (n + 2) → Fin n → ℝ) := fun v =>
    (fderiv ℝ (pointFlux γ) w).comp (valL v)
  have h1 : ∀ v, HasStrictFDerivAt (fun z : A => pointFlux γ (z.1.2.1 v)) (D1 v) z0 := fun v =>
    HasStrictFDerivAt.comp (g := pointFlux γ) z0
      ((pointFlux_contDiffAt γ hw.1.ne').hasStrictFDerivAt one_ne_zero) (valL v).hasStrictFDerivAt
  let D2 : B → A →L[ℝ] (Fin (n + 2) → ℝ) := fun b =>
    ((fluxJac γ (M.normal b) w).comp (ContinuousLinearMap.snd ℝ _ _) +
        (τ b).comp
          (ContinuousLinearMap.fst ℝ (Fin (n + 2) → ℝ) (Fin (n + 2) → ℝ) -
            ContinuousLinearMap.snd ℝ _ _)).comp ((trL b).prod (hatL b))
  have h2 : ∀ b, HasStrictFDerivAt
      (fun z : A => N b (z.1.2.2 b, z.2 b)) (D2 b) z0 := fun b =>
    HasStrictFDerivAt.comp (g := N b) z0
      (hN b) ((trL b).prod (hatL b)).hasStrictFDerivAt
  let D3 : B → A →L[ℝ] (Fin (n + 2) → ℝ) := fun b =>
    if mask b = 1 then 0 else hatL b -
      (fderiv ℝ (fun w => (cond b).value γ (M.normal b) w) w).comp (trL b)
  have h3 : ∀ b, HasStrictFDerivAt
      (fun z : A => if mask b = 1 then 0 else z.2 b - (cond b).value γ (M.normal b) (z.1.2.2 b))
      (D3 b) z0 := by
    intro b
    by_cases hb : mask b = 1
    · simp only [D3, hb, if_true]
      exact hasStrictFDerivAt_const _ _
    · simp only [D3, hb, if_false]
      exact (hatL b).hasStrictFDerivAt.sub
        (HasStrictFDerivAt.comp (g := fun w => (cond b).value γ (M.normal b) w) z0
          ((value_contDiffAt (cond b) γ (M.normal b) hw.1.ne').hasStrictFDerivAt one_ne_zero)
          (trL b).hasStrictFDerivAt)
  let D4 : V → A →L[ℝ] (Fin (n + 2) → ℝ) := fun v => σ v • valL v
  have h4 : ∀ v, HasStrictFDerivAt (fun z : A => σ v • (z.1.2.1 v - w)) (D4 v) z0 := fun v =>
    ((valL v).hasStrictFDerivAt.sub_const w).const_smul (σ v)
  refine ⟨(ContinuousLinearMap.pi D1).prod ((ContinuousLinearMap.pi D2).prod
    ((ContinuousLinearMap.pi D3).prod (ContinuousLinearMap.pi D4))), ?_, ?_, ?_, ?_⟩
  · exact (hasStrictFDerivAt_pi.2 h1).prodMk ((hasStrictFDerivAt_pi.2 h2).prodMk
      ((hasStrictFDerivAt_pi.2 h3).prodMk (hasStrictFDerivAt_pi.2 h4)))
  · intro ζ b
    show D2 b (0, ζ) = _
    have e : trL b ((0, ζ) : A) = 0 := rfl
    have e' : hatL b ((0, ζ) : A) = ζ b := rfl
    simp only [D2, ContinuousLinearMap.comp_apply, ContinuousLinearMap.prod_apply, e, e',
      ContinuousLinearMap.add_apply, ContinuousLinearMap.sub_apply,
      ContinuousLinearMap.coe_fst', ContinuousLinearMap.coe_snd', zero_sub, map_neg]
    abel
  · intro ζ b
    show D3 b (0, ζ) = _
    by_cases hb : mask b = 1
    · simp [D3, hb]
    · have e : trL b ((0, ζ) : A) = 0 := rfl
      have e' : hatL b ((0, ζ) : A) = ζ b := rfl
      simp [D3, hb, e, e']
  · intro z
    refine Prod.ext rfl (Prod.ext rfl (Prod.ext ?_ rfl))
    funext b
    show D3 b z = _
    by_cases hb : mask b = 1
    · simp [D3, hb, slopeData]
    · simp only [D3, hb, slopeData, if_false]
      rfl

open Classical in
theorem fluxData_strict (hγ : 1 < γ) (rs : Riemann) (M : HdgMesh n V B) (mask : B → ℝ)
    (cond : B → FacetCond n) (σ : V → ℝ) {w : Fin (n + 2) → ℝ} (hw : GasVec w) :
    ∃ D' : (ElementFn n (n + 2) V B × (B → Fin (n + 2) → ℝ)) →L[ℝ] FluxData n V B,
      HasStrictFDerivAt (fluxData γ rs M mask cond σ w) D'
        (((0, fun _ => w, fun _ => w) : ElementFn n (n + 2) V B), fun _ => w) ∧
      (∀ ζ b, (D' (0, ζ)).2.1 b = fluxJac γ (M.normal b) w (ζ b)
        - rs.speed (normalOf (M.normal b) w) (soundOf γ w) • ζ b) ∧
      ∀ ζ b, (D' (0, ζ)).2.2.1 b = if mask b = 1 then 0 else ζ b := by
  obtain ⟨D', h1, h2, h3, -⟩ := fluxDataN_strict (γ := γ) M mask cond σ hw
    (N := fun b => pointNumerical γ rs (M.normal b))
    (τ := fun b => rs.speed (normalOf (M.normal b) w) (soundOf γ w) • ContinuousLinearMap.id ℝ _)
    (fun b => by
      rw [ContinuousLinearMap.smul_comp, ContinuousLinearMap.id_comp]
      exact pointNumerical_strict hγ rs (M.normal b) hw)
  exact ⟨D', h1, h2, h3⟩

/-! ### The forms -/

/-- The spatial terms, linear in data and test function. -/
def spatialForm (M : HdgMesh n V B) (mask : B → ℝ) :
    FluxData n V B →ₗ[ℝ] (ElementFn n (n + 2) V B × (B → Fin (n + 2) → ℝ)) →ₗ[ℝ] ℝ :=
  LinearMap.mk₂ ℝ (fun D φ =>
      (∑ v, M.wV v * -(∑ i, ∑ j, D.1 v i j * φ.1.1 v i j))
      + (∑ b, M.wB b * (D.2.1 b ⬝ᵥ φ.1.2.2 b))
      + (∑ b, M.wB b * (-mask b * (D.2.1 b ⬝ᵥ φ.2 b)))
      + (∑ b, M.wB b * (D.2.2.1 b ⬝ᵥ φ.2 b)) + ∑ v, M.wV v * (D.2.2.2 v ⬝ᵥ φ.1.2.1 v))
    (fun D D' φ => by
      simp only [Prod.fst_add, Prod.snd_add, Pi.add_apply, add_mul, Finset.sum_add_distrib,
        add_dotProduct, mul_add, neg_add]
      ring)
    (fun c D φ => by
      simp only [Prod.smul_fst, Prod.smul_snd, Pi.smul_apply, smul_eq_mul, smul_dotProduct, mul_assoc,
        ← Finset.mul_sum, ← mul_neg, mul_left_comm _ c, ← mul_add])
    (fun D φ φ' => by
      simp only [Prod.fst_add, Prod.snd_add, Pi.add_apply, Finset.sum_add_distrib,
        dotProduct_add, mul_add, neg_add]
      ring)
    (fun c D φ => by
      simp only [Prod.smul_fst, Prod.smul_snd, Pi.smul_apply, smul_eq_mul, dotProduct_smul,
        ← Finset.mul_sum, ← mul_neg, mul_left_comm _ c, ← mul_add])

/-- The mass matrix. -/
def massForm (M : HdgMesh n V B) :
    ElementFn n (n + 2) V B →ₗ[ℝ] ElementFn n (n + 2) V B →ₗ[ℝ] ℝ :=
  LinearMap.mk₂ ℝ (fun a φ => ∑ v, M.wV v * (a.2.1 v ⬝ᵥ φ.2.1 v))
    (fun D D' φ => by
      simp only [Prod.fst_add, Prod.snd_add, Pi.add_apply, Finset.sum_add_distrib,
        add_dotProduct, mul_add])
    (fun c D φ => by
      simp only [Prod.smul_fst, Prod.smul_snd, Pi.smul_apply, smul_eq_mul, smul_dotProduct,
        ← Finset.mul_sum, mul_left_comm _ c])
    (fun D φ φ' => by
      simp only [Prod.fst_add, Prod.snd_add, Pi.add_apply, Finset.sum_add_distrib,
        dotProduct_add, mul_add])
    (fun c D φ => by
      simp only [Prod.smul_fst, Prod.smul_snd, Pi.smul_apply, smul_eq_mul, dotProduct_smul,
        ← Finset.mul_sum, mul_left_comm _ c])

/-- The test function of an element function and a facet function. -/
def mkTest (a : ElementFn n (n + 2) V B) (ζ : B → Fin (n + 2) → ℝ) : HdgTest n (n + 2) V B where
  grad := fun v => Matrix.of (a.1 v)
  val := a.2.1
  trace := a.2.2
  hat := ζ

theorem step_iff (P : HdgSpaces n (n + 2) V B) (M : HdgMesh n V B) (mask : B → ℝ) (s : Scheme)
    {dt : ℝ} (hdt : 0 < dt) (t : ℚ) (a : ElementFn n (n + 2) V B) (D : FluxData n V B)
    (cur prev : HdgState n (n + 2) V B) (c p : ElementFn n (n + 2) V B) (hc : cur.U = c.2.1)
    (hp : prev.U = p.2.1) :
    hdgStep M mask P.tests (s.quotient dt) t (dataState a D) cur prev ↔
      (∀ φ ∈ P.element, massForm M (a - s.extrapolate c p) φ
        + (dt / s.weight) * spatialForm M mask D (φ, 0) = 0) ∧
      ∀ ψ ∈ P.facet, spatialForm M mask D (0, ψ) = 0 := by
  have hw := s.weight_pos
  have hq : ∀ v i, s.quotient dt (a.2.1 v i) (cur.U v i) (prev.U v i)
      = (dt / s.weight)⁻¹ * (a - s.extrapolate c p).2.1 v i := by
    intro v i
    rw [hc, hp]
    cases s <;> simp [Scheme.quotient, Scheme.extrapolate, Scheme.weight, backwardEuler, backward2] <;>
      field_simp <;> ring
  have hform : ∀ φ : HdgTest n (n + 2) V B, timeForm M
      (fun v i => s.quotient dt ((dataState a D).U v i) (cur.U v i) (prev.U v i)) φ
      + convectionForm M mask (dataState a D).F (dataState a D).Fn φ
      + diffusionForm M mask (dataState a D).G (dataState a D).Gn φ
      + boundaryForm M (dataState a D).R φ + timeForm M (dataState a D).source φ
      = (dt / s.weight)⁻¹ * massForm M (a - s.extrapolate c p)
          (fun v i j => φ.grad v i j, φ.val, φ.trace)
        + spatialForm M mask D ((fun v i j => φ.grad v i j, φ.val, φ.trace), φ.hat) := by
    intro φ
    have e1 : timeForm M
        (fun v i => s.quotient dt ((dataState a D).U v i) (cur.U v i) (prev.U v i)) φ
        = (dt / s.weight)⁻¹ * massForm M (a - s.extrapolate c p)
          (fun v i j => φ.grad v i j, φ.val, φ.trace) := by
      show ∑ v, M.wV v * ((fun i => s.quotient dt (a.2.1 v i) (cur.U v i) (prev.U v i)) ⬝ᵥ φ.val v)
        = (dt / s.weight)⁻¹ * ∑ v, M.wV v * ((a - s.extrapolate c p).2.1 v ⬝ᵥ φ.val v)
      rw [Finset.mul_sum]
      refine Finset.sum_congr rfl fun v _ => ?_
      rw [show (fun i => s.quotient dt (a.2.1 v i) (cur.U v i) (prev.U v i))
        = (dt / s.weight)⁻¹ • (a - s.extrapolate c p).2.1 v from funext fun i => hq v i,
        smul_dotProduct, smul_eq_mul]
      ring
    have e2 : diffusionForm M mask (dataState a D).G (dataState a D).Gn φ = 0 := by
      simp [diffusionForm, dataState, frobenius]
    have e3 : convectionForm M mask (dataState a D).F (dataState a D).Fn φ
        + boundaryForm M (dataState a D).R φ + timeForm M (dataState a D).source φ
        = spatialForm M mask D ((fun v i j => φ.grad v i j, φ.val, φ.trace), φ.hat) := rfl
    rw [e1, e2, ← e3]
    ring
  have hne : dt / s.weight ≠ 0 := (div_pos hdt hw).ne'
  have hz : spatialForm M mask D 0 = 0 := map_zero _
  constructor
  · intro h
    constructor
    · intro φ hφ
      have := h (mkTest φ 0) ⟨hφ, P.facet.zero_mem⟩
      rw [hform] at this
      have h2 : (dt / s.weight)⁻¹ * massForm M (a - s.extrapolate c p) φ
        + spatialForm M mask D (φ, 0) = 0 := this
      have h3 := congrArg (fun y => (dt / s.weight) * y) h2
      simp only [mul_add, mul_zero, ← mul_assoc, mul_inv_cancel₀ hne, one_mul] at h3
      exact h3
    · intro ψ hψ
      have := h (mkTest 0 ψ) ⟨P.element.zero_mem, hψ⟩
      rw [hform] at this
      have h2 : (dt / s.weight)⁻¹ * massForm M (a - s.extrapolate c p) 0
        + spatialForm M mask D (0, ψ) = 0 := this
      rw [map_zero, mul_zero, zero_add] at h2
      exact h2
  · rintro ⟨h1, h2⟩ φ ⟨hφ, hψ⟩
    rw [hform]
    have e1 := h1 _ hφ
    have e2 := h2 _ hψ
    have e3 : spatialForm M mask D ((fun v i j => φ.grad v i j, φ.val, φ.trace), φ.hat)
        = spatialForm M mask D ((fun v i j => φ.grad v i j, φ.val, φ.trace), 0)
          + spatialForm M mask D (0, φ.hat) := by
      rw [← map_add]
      simp
    rw [e3, e2, add_zero]
    have h3 := congrArg (fun y => (dt / s.weight)⁻¹ * y) e1
    simp only [mul_add, mul_zero, ← mul_assoc, inv_mul_cancel₀ hne, one_mul] at h3
    exact h3

/-! ### Interior facets -/

/-- Sums over interior facets of quantities that are opposite on the two sides vanish. -/
theorem partner_sum {k : ℕ} {P : HdgSpaces n k V B} {M : HdgMesh n V B} {mask : B → ℝ}
    (hP : P.Fits M mask) {q : (Fin n → ℝ) → (Fin k → ℝ) → ℝ} (hq : ∀ d w, q (-d) w = -q d w)
    {ζ : B → Fin k → ℝ} (hζ : ζ ∈ P.facet) :
    ∑ b, M.wB b * (mask b * q (M.normal b) (ζ b)) = 0 := by
  classical
  obtain ⟨σ, hσ⟩ := hP.partner
  have e : ∑ b, M.wB b * (mask b * q (M.normal b) (ζ b))
      = ∑ b ∈ Finset.univ.filter (fun b => mask b = 1), M.wB b * q (M.normal b) (ζ b) := by
    rw [Finset.sum_filter]
    refine Finset.sum_congr rfl fun b _ => ?_
    rcases hP.mask01 b with h | h <;> simp [h]
  rw [e]
  have e2 : ∑ b ∈ Finset.univ.filter (fun b => mask b = 1), M.wB b * q (M.normal b) (ζ b)
      = ∑ b ∈ Finset.univ.filter (fun b => mask b = 1), -(M.wB b * q (M.normal b) (ζ b)) := by
    refine Finset.sum_nbij' σ σ ?_ ?_ ?_ ?_ ?_
    · intro b hb
      simp only [Finset.mem_filter, Finset.mem_univ, true_and] at hb ⊢
      exact (hσ b hb).1
    · intro b hb
      simp only [Finset.mem_filter, Finset.mem_univ, true_and] at hb ⊢
      exact (hσ b hb).1
    · intro b hb
      simp only [Finset.mem_filter, Finset.mem_univ, true_and] at hb
      exact (hσ b hb).2.1
    · intro b hb
      simp only [Finset.mem_filter, Finset.mem_univ, true_and] at hb
      exact (hσ b hb).2.1
    · intro b hb
      simp only [Finset.mem_filter, Finset.mem_univ, true_and] at hb
      obtain ⟨-, -, h3, h4, h5⟩ := hσ b hb
      rw [h3, h4, h5 ζ hζ, hq]
      ring
  rw [Finset.sum_neg_distrib] at e2
  linarith

theorem HdgSpaces.Fits.gauss {k : ℕ} {P : HdgSpaces n k V B} {M : HdgMesh n V B} {mask : B → ℝ}
    (hP : P.Fits M mask) : Gauss M mask P.tests where
  divergence := fun _ hφ i j => hP.divergence _ hφ.1 i j
  cancel := fun φ hφ i j => partner_sum hP (q := fun d w => w i * d j)
    (fun d w => by simp) hφ.2

theorem speed_nonneg {rs : Riemann} (hrs : rs.AnyDim) {un c : ℝ} (hc : 0 < c) :
    0 ≤ rs.speed un c ∧ 0 < rs.speed un c + rs.speed (-un) c := by
  rcases hrs with rfl | rfl
  · simp only [Riemann.speed, abs_neg]
    have := abs_nonneg un
    constructor <;> linarith
  · simp only [Riemann.speed]
    refine ⟨le_max_right _ _, ?_⟩
    have h1 := le_max_left (un + c) 0
    have h2 := le_max_left (-un + c) 0
    linarith

/-- The facet equations determine the facet unknowns: the linearised equations have no other
solution than zero. -/
theorem facet_coercive {rs : Riemann} (hrs : rs.AnyDim) {P : HdgSpaces n (n + 2) V B}
    {M : HdgMesh n V B} {mask : B → ℝ} (hP : P.Fits M mask) {w : Fin (n + 2) → ℝ} (hγ : 1 < γ)
    (hw : GasVec w) {ζ : B → Fin (n + 2) → ℝ} (hζ : ζ ∈ P.facet)
    (h : (∑ b, M.wB b * (-mask b * ((fluxJac γ (M.normal b) w (ζ b)
        - rs.speed (normalOf (M.normal b) w) (soundOf γ w) • ζ b) ⬝ᵥ ζ b)))
      + (∑ b, M.wB b * ((1 - mask b) * (ζ b ⬝ᵥ ζ b))) = 0) : ζ = 0 := by
  have hA := partner_sum hP (q := fun d x => fluxJac γ d w x ⬝ᵥ x)
    (fun d x => by rw [fluxJac_neg]; simp) hζ
  have hc : 0 < soundOf γ w := Real.sqrt_pos.2
    (mul_pos (mul_pos (by linarith) (by linarith)) hw.2)
  have hsum : ∑ b, M.wB b * ((mask b * rs.speed (normalOf (M.normal b) w) (soundOf γ w)
      + (1 - mask b)) * (ζ b ⬝ᵥ ζ b)) = 0 := by
    rw [← h, ← add_zero (∑ b, _ + ∑ b, _), ← hA, ← Finset.sum_add_distrib, ← Finset.sum_add_distrib]
    refine Finset.sum_congr rfl fun b _ => ?_
    rw [sub_dotProduct, smul_dotProduct, smul_eq_mul]
    ring
  have hdot : ∀ b, 0 ≤ ζ b ⬝ᵥ ζ b := fun b => by
    simp only [dotProduct]
    exact Finset.sum_nonneg fun i _ => mul_self_nonneg _
  have hterm : ∀ b, (mask b * rs.speed (normalOf (M.normal b) w) (soundOf γ w)
      + (1 - mask b)) * (ζ b ⬝ᵥ ζ b) = 0 := by
    have hnn : ∀ b ∈ Finset.univ, 0 ≤ M.wB b * ((mask b *
        rs.speed (normalOf (M.normal b) w) (soundOf γ w) + (1 - mask b)) * (ζ b ⬝ᵥ ζ b)) := by
      intro b _
      have h1 := (speed_nonneg hrs (un := normalOf (M.normal b) w) hc).1
      refine mul_nonneg (hP.boundary b).le (mul_nonneg ?_ (hdot b))
      rcases hP.mask01 b with e | e <;> rw [e] <;> linarith
    intro b
    have := (Finset.sum_eq_zero_iff_of_nonneg hnn).1 hsum b (Finset.mem_univ b)
    exact (mul_eq_zero.1 this).resolve_left (hP.boundary b).ne'
  have hzero : ∀ b, ζ b ⬝ᵥ ζ b = 0 := by
    intro b
    rcases hP.mask01 b with e | e
    · have := hterm b
      rw [e] at this
      simpa using this
    · obtain ⟨σ, hσ⟩ := hP.partner
      obtain ⟨e1, -, -, e4, e5⟩ := hσ b e
      have t1 := hterm b
      have t2 := hterm (σ b)
      rw [e] at t1
      rw [e1, e4, e5 ζ hζ] at t2
      have en : normalOf (-M.normal b) w = -normalOf (M.normal b) w := by
        simp [normalOf, neg_div]
      rw [en] at t2
      have hp := (speed_nonneg hrs (un := normalOf (M.normal b) w) hc).2
      have : (rs.speed (normalOf (M.normal b) w) (soundOf γ w)
        + rs.speed (-normalOf (M.normal b) w) (soundOf γ w)) * (ζ b ⬝ᵥ ζ b) = 0 := by linarith
      exact (mul_eq_zero.1 this).resolve_left hp.ne'
  funext b
  exact dotProduct_self_eq_zero.1 (hzero b)

theorem massForm_self {P : HdgSpaces n (n + 2) V B} {M : HdgMesh n V B} {mask : B → ℝ}
    (hP : P.Fits M mask) {a : ElementFn n (n + 2) V B} (ha : a ∈ P.element)
    (h : massForm M a a = 0) : a = 0 := by
  refine hP.determined a ha ?_
  have h' : ∑ v, M.wV v * (a.2.1 v ⬝ᵥ a.2.1 v) = 0 := h
  have hdot : ∀ v, 0 ≤ a.2.1 v ⬝ᵥ a.2.1 v := fun v => by
    simp only [dotProduct]
    exact Finset.sum_nonneg fun i _ => mul_self_nonneg _
  have := (Finset.sum_eq_zero_iff_of_nonneg
    fun v _ => mul_nonneg (hP.volume v).le (hdot v)).1 h'
  funext v
  exact dotProduct_self_eq_zero.1
    ((mul_eq_zero.1 (this v (Finset.mem_univ v))).resolve_left (hP.volume v).ne')

theorem pointFlux_mulVec (hγ : 1 < γ) {w : Fin (n + 2) → ℝ} (hw : GasVec w) (d : Fin n → ℝ) :
    Matrix.of (pointFlux γ w) *ᵥ d = eulerFluxOf γ d w := by
  obtain ⟨F, hF, h⟩ := C26_flux_conservative (gasOf_ideal hγ hw) d
  rw [pointFlux_eq hγ hw] at hF
  rw [Except.ok.inj hF, h]
  have hv := gasOf_vec (γ := γ) hw
  simp only [eulerFluxOf]
  conv_rhs => rw [← hv]
  simp

open Classical in
/-- The spatial terms vanish for uniform flow. -/
theorem spatialN_uniform {S : GasState n} (hS : IdealGas γ S)
    {P : HdgSpaces n (n + 2) V B} {M : HdgMesh n V B} {mask : B → ℝ} (hP : P.Fits M mask)
    {cond : B → FacetCond n} (hc : ∀ b, mask b = 0 → (cond b).Admits S (M.normal b)) (σ : V → ℝ)
    {w : Fin (n + 2) → ℝ} (hw : w = consVec S.rho S.rho_u S.rho_E)
    {N : B → (Fin (n + 2) → ℝ) × (Fin (n + 2) → ℝ) → Fin (n + 2) → ℝ}
    (hN : ∀ b, N b (w, w) = eulerFluxOf γ (M.normal b) w)
    {φ : ElementFn n (n + 2) V B} {ψ : B → Fin (n + 2) → ℝ} (hφ : φ ∈ P.element) (hψ : ψ ∈ P.facet) :
    spatialForm M mask (fluxDataN γ N M mask cond σ w ((0, fun _ => w, fun _ => w), fun _ => w))
      (φ, ψ) = 0 := by
  have hg : GasVec w := hw ▸ gasVec_of hS
  have e1 : fluxDataN γ N M mask cond σ w ((0, fun _ => w, fun _ => w), fun _ => w)
      = (fun _ => pointFlux γ w, fun b => eulerFluxOf γ (M.normal b) w, 0, 0) := by
    simp only [fluxDataN, hN, sub_self, smul_zero]
    congr 2
    refine Prod.ext ?_ rfl
    funext b
    rcases hP.mask01 b with hb | hb
    · simp only [hb, zero_ne_one, if_false]
      rw [hw, value_uniform hS (hc b hb), sub_self]
      rfl
    · simp [hb]
  have e2 : spatialForm M mask (fun _ => pointFlux γ w, fun b => eulerFluxOf γ (M.normal b) w, 0, 0)
      (φ, ψ) = convectionForm M mask (fun _ => Matrix.of (pointFlux γ w))
        (fun b => Matrix.of (pointFlux γ w) *ᵥ M.normal b) (mkTest φ ψ) := by
    simp only [pointFlux_mulVec hS.gamma hg]
    simp [spatialForm, convectionForm, mkTest, frobenius]
  rw [e1, e2]
  exact convection_uniform hP.gauss _ ⟨hφ, hψ⟩

open Classical in
theorem spatial_uniform {rs : Riemann} {S : GasState n} (hS : IdealGas γ S)
    {P : HdgSpaces n (n + 2) V B} {M : HdgMesh n V B} {mask : B → ℝ} (hP : P.Fits M mask)
    {cond : B → FacetCond n} (hc : ∀ b, mask b = 0 → (cond b).Admits S (M.normal b)) (σ : V → ℝ)
    {w : Fin (n + 2) → ℝ} (hw : w = consVec S.rho S.rho_u S.rho_E)
    {φ : ElementFn n (n + 2) V B} {ψ : B → Fin (n + 2) → ℝ} (hφ : φ ∈ P.element) (hψ : ψ ∈ P.facet) :
    spatialForm M mask (fluxData γ rs M mask cond σ w ((0, fun _ => w, fun _ => w), fun _ => w))
      (φ, ψ) = 0 :=
  spatialN_uniform hS hP hc σ hw (N := fun b => pointNumerical γ rs (M.normal b))
    (fun b => by simp only [pointNumerical, sub_self, smul_zero, add_zero]) hφ hψ

/-- Lax-Friedrichs and HLL determine the facet unknowns. -/
theorem fits_of_anyDim {rs : Riemann} (hrs : rs.AnyDim) {P : HdgSpaces n (n + 2) V B}
    {M : HdgMesh n V B} {mask : B → ℝ} (hP : P.Fits M mask) {w : Fin (n + 2) → ℝ} (hγ : 1 < γ)
    (hw : GasVec w) : FluxFits γ rs P M mask w (fun b => pointNumerical γ rs (M.normal b))
      (fun b => rs.speed (normalOf (M.normal b) w) (soundOf γ w) • ContinuousLinearMap.id ℝ _) where
  eq := fun b u _ h => pointNumerical_eq hγ hrs (M.normal b) u h
  strict := fun b => by
    rw [ContinuousLinearMap.smul_comp, ContinuousLinearMap.id_comp]
    exact pointNumerical_strict hγ rs (M.normal b) hw
  same := fun b => by simp only [pointNumerical, sub_self, smul_zero, add_zero]
  inj := fun ζ hζ h => facet_coercive hrs hP hγ hw hζ (h ζ hζ)

/-! ### The theorem -/

/-- The difference to the uniform state. -/
theorem near_iff {k : ℕ} {I : Type} [Fintype I] {f : I → Fin k → ℝ} {w : Fin k → ℝ} {η : ℝ}
    (hη : 0 ≤ η) : (∀ v i, |f v i - w i| ≤ η) ↔ ‖f - fun _ => w‖ ≤ η := by
  rw [pi_norm_le_iff_of_nonneg hη]
  refine forall_congr' fun v => ?_
  rw [pi_norm_le_iff_of_nonneg hη]
  rfl

open Classical in
set_option maxHeartbeats 1000000 in
/-- Near uniform flow the equations of a step amount to those of an ordinary differential equation for
the element functions. -/
theorem flow_reduction {rs : Riemann} {S : GasState n} (hS : IdealGas γ S)
    {P : HdgSpaces n (n + 2) V B} {M : HdgMesh n V B} {mask : B → ℝ} (hP : P.Fits M mask)
    {cond : B → FacetCond n} (hc : ∀ b, mask b = 0 → (cond b).Admits S (M.normal b)) (σ : V → ℝ)
    {w : Fin (n + 2) → ℝ} (hw : w = consVec S.rho S.rho_u S.rho_E)
    {N : B → (Fin (n + 2) → ℝ) × (Fin (n + 2) → ℝ) → Fin (n + 2) → ℝ}
    {τ : B → (Fin (n + 2) → ℝ) →L[ℝ] (Fin (n + 2) → ℝ)} (hN : FluxFits γ rs P M mask w N τ)
    {x0 : P.element} (hx0 : x0 = ⟨(0, fun _ => w, fun _ => w), hP.constant w⟩)
    {ζ0 : P.facet} (hζ0 : ζ0 = ⟨fun _ => w, hP.constantHat w⟩) :
    ∃ r > 0, ∃ ρ > 0, ∃ (K L Kv : NNReal) (h : P.element → P.facet) (Ψ : P.element → P.element)
      (st : P.element → P.facet → HdgState n (n + 2) V B), 0 < Kv ∧
      LipschitzOnWith K h (closedBall x0 r) ∧ h x0 = ζ0 ∧
      LipschitzOnWith L Ψ (closedBall x0 r) ∧ Ψ x0 = 0 ∧ (∀ x, ‖x - x0‖ ≤ r → ‖h x - ζ0‖ ≤ ρ) ∧
      (∀ a : P.element, ‖a - x0‖ ≤ Kv * ‖a.1.2.1 - fun _ => w‖) ∧
      (∀ a : P.element, ‖a.1.2.1 - fun _ => w‖ ≤ ‖a - x0‖) ∧
      (∀ a ζ, (st a ζ).U = a.1.2.1) ∧
      (∀ (a : P.element) (ζ : P.facet), ‖a - x0‖ ≤ r → ‖ζ - ζ0‖ ≤ ρ → ∀ x : HdgState n (n + 2) V B,
        x.IsFlow γ rs M mask cond σ (conservativeDict S) a.1 ζ.1 ↔ x = st a ζ) ∧
      (∀ (s : Scheme) (dt : ℝ), 0 < dt → ∀ (t : ℚ) (a : P.element) (ζ : P.facet), ‖a - x0‖ ≤ r →
        ‖ζ - ζ0‖ ≤ ρ → ∀ (cur prev : HdgState n (n + 2) V B) (c p : P.element), cur.U = c.1.2.1 →
        prev.U = p.1.2.1 → (hdgStep M mask P.tests (s.quotient dt) t (st a ζ) cur prev ↔
          implicitStep Ψ s dt t a c p ∧ ζ = h a)) ∧
      ∃ Ψ' : P.element →L[ℝ] P.element, HasStrictFDerivAt Ψ Ψ' x0 ∧ ∀ a : P.element, ∃ ζ : P.facet,
        (∀ φ : P.element, massForm M (Ψ' a) φ
          + spatialForm M mask (slopeData γ M mask cond σ w τ (a.1, ζ.1)) (φ.1, 0) = 0) ∧
        ∀ ψ : P.facet, spatialForm M mask (slopeData γ M mask cond σ w τ (a.1, ζ.1)) (0, ψ.1) = 0 := by
  have hγ := hS.gamma
  have hg : GasVec w := hw ▸ gasVec_of hS
  let X := P.element
  let Z := P.facet
  subst hx0 hζ0
  let x0 : X := ⟨(0, fun _ => w, fun _ => w), hP.constant w⟩
  let ζ0 : Z := ⟨fun _ => w, hP.constantHat w⟩
  -- the forms as maps into the dual spaces
  let incl : X × Z →L[ℝ] ElementFn n (n + 2) V B × (B → Fin (n + 2) → ℝ) :=
    P.element.subtypeL.prodMap P.facet.subtypeL
  let inX : X →ₗ[ℝ] ElementFn n (n + 2) V B × (B → Fin (n + 2) → ℝ) :=
    (LinearMap.inl ℝ _ _) ∘ₗ P.element.subtype
  let inZ : Z →ₗ[ℝ] ElementFn n (n + 2) V B × (B → Fin (n + 2) → ℝ) :=
    (LinearMap.inr ℝ _ _) ∘ₗ P.facet.subtype
  let Lx : FluxData n V B →ₗ[ℝ] (X →L[ℝ] ℝ) :=
    (LinearMap.toContinuousLinearMap : (X →ₗ[ℝ] ℝ) ≃ₗ[ℝ] (X →L[ℝ] ℝ)).toLinearMap ∘ₗ
      (LinearMap.lcomp ℝ ℝ inX) ∘ₗ spatialForm M mask
  let Lz : FluxData n V B →ₗ[ℝ] (Z →L[ℝ] ℝ) :=
    (LinearMap.toContinuousLinearMap : (Z →ₗ[ℝ] ℝ) ≃ₗ[ℝ] (Z →L[ℝ] ℝ)).toLinearMap ∘ₗ
      (LinearMap.lcomp ℝ ℝ inZ) ∘ₗ spatialForm M mask
  have hLx : ∀ D (φ : X), Lx D φ = spatialForm M mask D (φ, 0) := fun D φ => rfl
  have hLz : ∀ D (ψ : Z), Lz D ψ = spatialForm M mask D (0, ψ) := fun D ψ => rfl
  have hdX : Module.finrank ℝ (X →L[ℝ] ℝ) = Module.finrank ℝ X := by
    rw [← (LinearMap.toContinuousLinearMap : (X →ₗ[ℝ] ℝ) ≃ₗ[ℝ] (X →L[ℝ] ℝ)).finrank_eq]
    exact Subspace.dual_finrank_eq
  have hdZ : Module.finrank ℝ (Z →L[ℝ] ℝ) = Module.finrank ℝ Z := by
    rw [← (LinearMap.toContinuousLinearMap : (Z →ₗ[ℝ] ℝ) ≃ₗ[ℝ] (Z →L[ℝ] ℝ)).finrank_eq]
    exact Subspace.dual_finrank_eq
  haveI : FiniteDimensional ℝ (X →L[ℝ] ℝ) :=
    (LinearMap.toContinuousLinearMap : (X →ₗ[ℝ] ℝ) ≃ₗ[ℝ] (X →L[ℝ] ℝ)).finiteDimensional
  haveI : FiniteDimensional ℝ (Z →L[ℝ] ℝ) :=
    (LinearMap.toContinuousLinearMap : (Z →ₗ[ℝ] ℝ) ≃ₗ[ℝ] (Z →L[ℝ] ℝ)).finiteDimensional
  haveI : CompleteSpace X := FiniteDimensional.complete ℝ X
  let m0 : X →ₗ[ℝ] (X →L[ℝ] ℝ) :=
    (LinearMap.toContinuousLinearMap : (X →ₗ[ℝ] ℝ) ≃ₗ[ℝ] (X →L[ℝ] ℝ)).toLinearMap ∘ₗ
      (LinearMap.lcomp ℝ ℝ P.element.subtype) ∘ₗ massForm M ∘ₗ P.element.subtype
  have hm0 : ∀ a φ : X, m0 a φ = massForm M a φ := fun a φ => rfl
  have hmi : Function.Injective m0 := (injective_iff_map_eq_zero _).2 fun a ha => by
    have h1 : massForm M a a = 0 := by rw [← hm0, ha]; rfl
    exact Subtype.ext (massForm_self hP a.2 h1)
  obtain ⟨m, hm'⟩ := exists_clEquiv (X := X) (Z := X →L[ℝ] ℝ) m0 hmi hdX.symm
  have hm : ∀ a φ : X, m a φ = massForm M a φ := fun a φ => by rw [hm', hm0]
  -- the derivative at the uniform flow
  obtain ⟨D', hD, hD1, hD2, hD3⟩ := fluxDataN_strict (γ := γ) M mask cond σ hg hN.strict
  have hDi : HasStrictFDerivAt (fun z : X × Z => fluxDataN γ N M mask cond σ w (incl z))
      (D'.comp incl) (x0, ζ0) :=
    HasStrictFDerivAt.comp (g := fluxDataN γ N M mask cond σ w) (x0, ζ0) hD incl.hasStrictFDerivAt
  obtain ⟨lx, hlx⟩ := exists_clm (A := FluxData n V B) (F := X →L[ℝ] ℝ) Lx
  obtain ⟨lz, hlz⟩ := exists_clm (A := FluxData n V B) (F := Z →L[ℝ] ℝ) Lz
  have hf : HasStrictFDerivAt (fun z : X × Z => lx (fluxDataN γ N M mask cond σ w (incl z)))
      (lx.comp (D'.comp incl)) (x0, ζ0) := lx.hasStrictFDerivAt.comp (x0, ζ0) hDi
  have hg' : HasStrictFDerivAt (fun z : X × Z => lz (fluxDataN γ N M mask cond σ w (incl z)))
      (lz.comp (D'.comp incl)) (x0, ζ0) := lz.hasStrictFDerivAt.comp (x0, ζ0) hDi
  have f0 : lx (fluxDataN γ N M mask cond σ w (incl (x0, ζ0))) = 0 := by
    ext φ
    rw [hlx, hLx]
    exact spatialN_uniform hS hP hc σ hw hN.same φ.2 P.facet.zero_mem
  have g0 : lz (fluxDataN γ N M mask cond σ w (incl (x0, ζ0))) = 0 := by
    ext ψ
    rw [hlz, hLz]
    exact spatialN_uniform hS hP hc σ hw hN.same P.element.zero_mem ψ.2
  have hinj : ∀ ζ : Z, (lz.comp (D'.comp incl)) (0, ζ) = 0 → ζ = 0 := by
    intro ζ hζ
    refine Subtype.ext (hN.inj _ ζ.2 fun ψ hψ => ?_)
    have h1 : Lz (D' (0, ζ.1)) ⟨ψ, hψ⟩ = 0 := by
      have : (incl (0, ζ) : ElementFn n (n + 2) V B × (B → Fin (n + 2) → ℝ)) = (0, ζ.1) := rfl
      have h2 := congrArg (fun l : Z →L[ℝ] ℝ => l ⟨ψ, hψ⟩) hζ
      simp only [ContinuousLinearMap.comp_apply, this, hlz] at h2
      exact h2
    rw [hLz] at h1
    have h2 : (∑ v, M.wV v * -(∑ i, ∑ j, (D' (0, ζ.1)).1 v i j * 0))
      + (∑ b, M.wB b * ((D' (0, ζ.1)).2.1 b ⬝ᵥ 0))
      + (∑ b, M.wB b * (-mask b * ((D' (0, ζ.1)).2.1 b ⬝ᵥ ψ b)))
      + (∑ b, M.wB b * ((D' (0, ζ.1)).2.2.1 b ⬝ᵥ ψ b))
      + ∑ v, M.wV v * ((D' (0, ζ.1)).2.2.2 v ⬝ᵥ 0) = 0 := h1
    simp only [mul_zero, Finset.sum_const_zero, neg_zero, dotProduct_zero, zero_add, add_zero, hD1,
      hD2] at h2
    rw [← h2]
    congr 1
    refine Finset.sum_congr rfl fun b _ => ?_
    rcases hP.mask01 b with e | e <;> simp [e]
  -- closeness to the uniform state keeps a gas a gas
  obtain ⟨ε, hε, hgas⟩ := Metric.eventually_nhds_iff_ball.1 (gasVec_nhds hg)
  have hgas' : ∀ y : Fin (n + 2) → ℝ, ‖y - w‖ ≤ ε / 2 → GasVec y := fun y hy =>
    hgas y (by rw [mem_ball, dist_eq_norm]; linarith)
  obtain ⟨r, hr, hrε, ρ, hρ, hρε, K, L, h, Ψ, hK, h0, hL, hΨ0, hhρ, hiff, Ψ', hΨ', hΨs⟩ :=
    reduced_equation m hf f0 hg' g0 hinj hdZ (half_pos hε)
  -- values and norms
  let valL : X →ₗ[ℝ] (V → Fin (n + 2) → ℝ) :=
    (LinearMap.fst ℝ _ _) ∘ₗ (LinearMap.snd ℝ _ _) ∘ₗ P.element.subtype
  have hvi : LinearMap.ker valL = ⊥ := LinearMap.ker_eq_bot'.2 fun a ha =>
    Subtype.ext (hP.determined _ a.2 ha)
  obtain ⟨Kv, hKv, hanti⟩ := valL.exists_antilipschitzWith hvi
  have hv1 : ∀ a : X, ‖a - x0‖ ≤ Kv * ‖a.1.2.1 - fun _ => w‖ := fun a => by
    have := hanti.le_mul_dist a x0
    rw [dist_eq_norm, dist_eq_norm] at this
    exact this
  have hv2 : ∀ a : X, ‖a.1.2.1 - fun _ => w‖ ≤ ‖a - x0‖ := fun a => by
    show ‖(a - x0).1.2.1‖ ≤ ‖(a - x0).1‖
    exact (norm_fst_le _).trans (norm_snd_le _)
  have hv3 : ∀ a : X, ‖a.1.2.2 - fun _ => w‖ ≤ ‖a - x0‖ := fun a => by
    show ‖(a - x0).1.2.2‖ ≤ ‖(a - x0).1‖
    exact (norm_snd_le _).trans (norm_snd_le _)
  have hpt : ∀ {I : Type} [Fintype I] (f : I → Fin (n + 2) → ℝ) (b : I),
      ‖f b - w‖ ≤ ‖f - fun _ => w‖ := fun f b => norm_le_pi_norm (f - fun _ => w) b
  -- the state of an element function and a facet function
  let st : X → Z → HdgState n (n + 2) V B := fun a ζ =>
    dataState a.1 (fluxDataN γ N M mask cond σ w (a.1, ζ.1))
  have hst : ∀ (a : X) (ζ : Z), ‖a - x0‖ ≤ r → ‖ζ - ζ0‖ ≤ ρ → ∀ x : HdgState n (n + 2) V B,
      x.IsFlow γ rs M mask cond σ (conservativeDict S) a.1 ζ.1 ↔ x = st a ζ := by
    intro a ζ ha hζ x
    simp only [st, hw]
    refine isFlowN_iff hγ hN.eq hP.mask01 hc σ (fun v => hgas' _ ?_) (fun b => hgas' _ ?_)
      (fun b => hgas' _ ?_) x
    · exact (hpt _ v).trans ((hv2 a).trans (ha.trans hrε))
    · exact (hpt _ b).trans ((hv3 a).trans (ha.trans hrε))
    · exact (hpt _ b).trans (hζ.trans hρε)
  have hstep : ∀ (s : Scheme) (dt : ℝ), 0 < dt → ∀ (t : ℚ) (a : X) (ζ : Z), ‖a - x0‖ ≤ r →
      ‖ζ - ζ0‖ ≤ ρ → ∀ (cur prev : HdgState n (n + 2) V B) (c p : X), cur.U = c.1.2.1 →
      prev.U = p.1.2.1 → (hdgStep M mask P.tests (s.quotient dt) t (st a ζ) cur prev ↔
        implicitStep Ψ s dt t a c p ∧ ζ = h a) := by
    intro s dt hdt t a ζ ha hζ cur prev c p hcu hpu
    have hex : ((s.extrapolate c p : X) : ElementFn n (n + 2) V B)
        = s.extrapolate (c : ElementFn n (n + 2) V B) p := by
      cases s <;> rfl
    rw [step_iff P M mask s hdt t a.1 _ cur prev c.1 p.1 hcu hpu]
    rw [implicitStep, ← hiff a ζ ha hζ]
    constructor
    · rintro ⟨h1, h2⟩
      constructor
      · ext φ
        have := h1 φ.1 φ.2
        rw [← hex] at this
        rw [ContinuousLinearMap.add_apply, hm, hlx]
        exact this
      · ext ψ
        rw [hlz]
        exact h2 ψ.1 ψ.2
    · rintro ⟨h1, h2⟩
      constructor
      · intro φ hφ
        have := congrArg (fun l : X →L[ℝ] ℝ => l ⟨φ, hφ⟩) h1
        simp only [ContinuousLinearMap.add_apply, hm, hlx] at this
        rw [← hex]
        exact this
      · intro ψ hψ
        rw [hlz] at h2
        exact congrArg (fun l : Z →L[ℝ] ℝ => l ⟨ψ, hψ⟩) h2
  refine ⟨r, hr, ρ, hρ, K, L, Kv, h, Ψ, st, hKv, hK, h0, hL, hΨ0, hhρ, hv1, hv2, fun _ _ => rfl, hst,
    hstep, Ψ', hΨ', fun a => ?_⟩
  obtain ⟨ζ, e1, e2⟩ := hΨs a
  refine ⟨ζ, fun φ => ?_, fun ψ => ?_⟩
  · have h2 : m (Ψ' a) φ + lx (D' (incl (a, ζ))) φ = 0 := DFunLike.congr_fun e1 φ
    rw [hm, hlx, hLx, hD3] at h2
    exact h2
  · have h2 : lz (D' (incl (a, ζ))) ψ = 0 := DFunLike.congr_fun e2 ψ
    rw [hlz, hLz, hD3] at h2
    exact h2

/-- Runs near uniform flow, for every numerical flux that fits. -/
theorem runs_of_fits {rs : Riemann} {S : GasState n} (hS : IdealGas γ S)
    {P : HdgSpaces n (n + 2) V B} {M : HdgMesh n V B} {mask : B → ℝ} (hP : P.Fits M mask)
    {cond : B → FacetCond n} (hc : ∀ b, mask b = 0 → (cond b).Admits S (M.normal b)) (σ : V → ℝ)
    {N : B → (Fin (n + 2) → ℝ) × (Fin (n + 2) → ℝ) → Fin (n + 2) → ℝ}
    {τ : B → (Fin (n + 2) → ℝ) →L[ℝ] (Fin (n + 2) → ℝ)}
    (hN : FluxFits γ rs P M mask (consVec S.rho S.rho_u S.rho_E) N τ) (T : ℝ) :
    ∃ dt₀ > 0, ∃ δ > 0, ∃ C, ∃ r > 0, C * δ ≤ r ∧ ∀ (s : Scheme) (dt : ℝ), 0 < dt → dt ≤ dt₀ →
      ∀ ts : List ℚ, dt * ts.length ≤ T → ∀ η, 0 ≤ η → η ≤ δ →
      ∀ prev cur : HdgState n (n + 2) V B, (∃ a ∈ P.element, prev.U = a.2.1) →
      (∃ a ∈ P.element, cur.U = a.2.1) →
      (∀ v i, |prev.U v i - consVec S.rho S.rho_u S.rho_E i| ≤ η) →
      (∀ v i, |cur.U v i - consVec S.rho S.rho_u S.rho_E i| ≤ η) →
      ∃ xs, Satisfies (hdgStep M mask P.tests (s.quotient dt)) prev cur ts xs ∧
        (∀ x ∈ xs, x.NearFlow γ rs P M mask cond σ (conservativeDict S)
          (consVec S.rho S.rho_u S.rho_E) (C * η)) ∧
        ∀ ys, Satisfies (hdgStep M mask P.tests (s.quotient dt)) prev cur ts ys →
          (∀ y ∈ ys, y.NearFlow γ rs P M mask cond σ (conservativeDict S)
            (consVec S.rho S.rho_u S.rho_E) r) → ys = xs := by
  obtain ⟨w, hw⟩ : ∃ w, w = consVec S.rho S.rho_u S.rho_E := ⟨_, rfl⟩
  rw [← hw] at hN ⊢
  let X := P.element
  let Z := P.facet
  obtain ⟨x0, hx0⟩ : ∃ x0 : X, x0 = ⟨(0, fun _ => w, fun _ => w), hP.constant w⟩ := ⟨_, rfl⟩
  obtain ⟨ζ0, hζ0⟩ : ∃ ζ0 : Z, ζ0 = ⟨fun _ => w, hP.constantHat w⟩ := ⟨_, rfl⟩
  haveI : CompleteSpace X := FiniteDimensional.complete ℝ X
  obtain ⟨r, hr, ρ, hρ, K, L, Kv, h, Ψ, st, hKv, hK, h0, hL, hΨ0, hhρ, hv1, hv2, hstU, hst, hstep, -⟩ :=
    flow_reduction (rs := rs) hS hP hc σ hw hN hx0 hζ0
  have hz1 : ∀ ζ : Z, ‖ζ.1 - fun _ => w‖ = ‖ζ - ζ0‖ := fun ζ => by rw [hζ0]; rfl
  -- the constants
  have hL0 : (0 : ℝ) ≤ L := L.2
  have hKv0 : (0 : ℝ) < Kv := hKv
  have hK0 : (0 : ℝ) ≤ K := K.2
  obtain ⟨Q, hQ⟩ : ∃ Q, Q = Real.exp (4 * L * |T|) := ⟨_, rfl⟩
  have hQ0 : 0 < Q := hQ ▸ Real.exp_pos _
  obtain ⟨C, hC⟩ : ∃ C, C = (1 + K) * (2 * Kv * Q) := ⟨_, rfl⟩
  have hC0 : 0 < C := by rw [hC]; positivity
  obtain ⟨R, hR⟩ : ∃ R, R = min (r / Kv) ρ := ⟨_, rfl⟩
  have hR0 : 0 < R := hR ▸ lt_min (div_pos hr hKv0) hρ
  obtain ⟨δ, hδ⟩ : ∃ δ, δ = min (r / 2 / (2 * Kv * Q)) (R / C) := ⟨_, rfl⟩
  have hδ0 : 0 < δ := hδ ▸ lt_min (by positivity) (by positivity)
  have hδ1 : 2 * Kv * Q * δ ≤ r / 2 := by
    have : δ ≤ r / 2 / (2 * Kv * Q) := hδ ▸ min_le_left _ _
    rwa [le_div_iff₀ (by positivity), mul_comm] at this
  have hδ2 : C * δ ≤ R := by
    have : δ ≤ R / C := hδ ▸ min_le_right _ _
    rwa [le_div_iff₀ hC0, mul_comm] at this
  refine ⟨1 / (4 * (L + 1)), by positivity, δ, hδ0, C, R, hR0, hδ2, ?_⟩
  intro s dt hdt hdt0 ts hT η hη hηδ prev cur ⟨p, hp, hpU⟩ ⟨c, hcm, hcU⟩ hpn hcn
  have hdtL : dt * L ≤ 1 / 4 := by
    rw [le_div_iff₀ (by positivity)] at hdt0
    nlinarith
  rw [near_iff hη] at hpn hcn
  rw [hpU] at hpn
  rw [hcU] at hcn
  have hpx := (hv1 ⟨p, hp⟩).trans (mul_le_mul_of_nonneg_left hpn hKv0.le)
  have hcx := (hv1 ⟨c, hcm⟩).trans (mul_le_mul_of_nonneg_left hcn hKv0.le)
  have hcp : ‖(⟨c, hcm⟩ : X) - ⟨p, hp⟩‖ ≤ 2 * (Kv * η) := by
    calc ‖(⟨c, hcm⟩ : X) - ⟨p, hp⟩‖ = ‖((⟨c, hcm⟩ : X) - x0) - (⟨p, hp⟩ - x0)‖ := by
          rw [sub_sub_sub_cancel_right]
      _ ≤ _ := norm_sub_le _ _
      _ ≤ _ := by linarith
  have hE : ‖(⟨c, hcm⟩ : X) - x0‖ + 1 / 2 * ‖(⟨c, hcm⟩ : X) - ⟨p, hp⟩‖ ≤ 2 * Kv * η := by linarith
  have hexp : Real.exp (4 * L * dt * ts.length) ≤ Q := by
    rw [hQ]
    refine Real.exp_le_exp.2 ?_
    calc 4 * (L : ℝ) * dt * ts.length = 4 * L * (dt * ts.length) := by ring
      _ ≤ 4 * L * |T| := mul_le_mul_of_nonneg_left (hT.trans (le_abs_self T)) (by positivity)
  have hbd : (‖(⟨c, hcm⟩ : X) - x0‖ + 1 / 2 * ‖(⟨c, hcm⟩ : X) - ⟨p, hp⟩‖)
      * Real.exp (4 * L * dt * ts.length) ≤ 2 * Kv * Q * η := by
    calc _ ≤ (2 * Kv * η) * Q := mul_le_mul hE hexp (Real.exp_pos _).le (by positivity)
      _ = _ := by ring
  obtain ⟨as, hsat, hnear, huniq⟩ := steps_solution hL hΨ0 s hdt.le hdtL ts ⟨c, hcm⟩ ⟨p, hp⟩
    (hbd.trans ((mul_le_mul_of_nonneg_left hηδ (by positivity)).trans hδ1))
  have hnear' : ∀ a ∈ as, ‖a - x0‖ ≤ 2 * Kv * Q * η := fun a ha => (hnear a ha).trans hbd
  have hnr : ∀ a ∈ as, ‖a - x0‖ ≤ r := fun a ha =>
    (hnear' a ha).trans (((mul_le_mul_of_nonneg_left hηδ (by positivity)).trans hδ1).trans
      (by linarith))
  -- from element functions to states and back
  have fwd : ∀ (ts : List ℚ) (as : List X) (cu pr : HdgState n (n + 2) V B) (c p : X),
      cu.U = c.1.2.1 → pr.U = p.1.2.1 → (∀ a ∈ as, ‖a - x0‖ ≤ r) →
      Satisfies (implicitStep Ψ s dt) p c ts as →
      Satisfies (hdgStep M mask P.tests (s.quotient dt)) pr cu ts (as.map fun a => st a (h a)) := by
    intro ts
    induction ts with
    | nil =>
      intro as cu pr c p _ _ _ hs
      cases as with
      | nil => trivial
      | cons a as => exact absurd hs (by simp [Satisfies])
    | cons t ts ih =>
      intro as cu pr c p e1 e2 hn hs
      cases as with
      | nil => exact absurd hs (by simp [Satisfies])
      | cons a as =>
        obtain ⟨s1, s2⟩ := hs
        have ha := hn a (by simp)
        exact ⟨(hstep s dt hdt t a (h a) ha (hhρ a ha) cu pr c p e1 e2).2 ⟨s1, rfl⟩,
          ih as (st a (h a)) cu a c (hstU _ _) e1 (fun b hb => hn b (by simp [hb])) s2⟩
  have bwd : ∀ (ts : List ℚ) (ys : List (HdgState n (n + 2) V B)) (cu pr : HdgState n (n + 2) V B)
      (c p : X), cu.U = c.1.2.1 → pr.U = p.1.2.1 →
      (∀ y ∈ ys, y.NearFlow γ rs P M mask cond σ (conservativeDict S) w R) →
      Satisfies (hdgStep M mask P.tests (s.quotient dt)) pr cu ts ys →
      ∃ bs : List X, ys = bs.map (fun a => st a (h a)) ∧ (∀ b ∈ bs, ‖b - x0‖ ≤ r) ∧
        Satisfies (implicitStep Ψ s dt) p c ts bs := by
    intro ts
    induction ts with
    | nil =>
      intro ys cu pr c p _ _ _ hs
      cases ys with
      | nil => exact ⟨[], rfl, by simp, trivial⟩
      | cons a as => exact absurd hs (by simp [Satisfies])
    | cons t ts ih =>
      intro ys cu pr c p e1 e2 hn hs
      cases ys with
      | nil => exact absurd hs (by simp [Satisfies])
      | cons y ys =>
        obtain ⟨s1, s2⟩ := hs
        obtain ⟨a, ha, ζ, hζ, hfl, hva, hvz⟩ := hn y (by simp)
        rw [near_iff hR0.le] at hva hvz
        rw [hfl.values] at hva
        have har : ‖(⟨a, ha⟩ : X) - x0‖ ≤ r := by
          refine (hv1 ⟨a, ha⟩).trans ?_
          calc (Kv : ℝ) * ‖a.2.1 - fun _ => w‖ ≤ Kv * (r / Kv) :=
                mul_le_mul_of_nonneg_left (hva.trans (hR ▸ min_le_left _ _)) hKv0.le
            _ = r := mul_div_cancel₀ r hKv0.ne'
        have hzr : ‖(⟨ζ, hζ⟩ : Z) - ζ0‖ ≤ ρ := by
          rw [← hz1]
          exact hvz.trans (hR ▸ min_le_right _ _)
        have hy : y = st ⟨a, ha⟩ ⟨ζ, hζ⟩ := (hst ⟨a, ha⟩ ⟨ζ, hζ⟩ har hzr y).1 hfl
        rw [hy] at s1
        obtain ⟨i1, i2⟩ := (hstep s dt hdt t ⟨a, ha⟩ ⟨ζ, hζ⟩ har hzr cu pr c p e1 e2).1 s1
        rw [i2] at hy
        obtain ⟨bs, b1, b2, b3⟩ := ih ys y cu ⟨a, ha⟩ c hfl.values e1
          (fun b hb => hn b (by simp [hb])) s2
        refine ⟨⟨a, ha⟩ :: bs, by rw [hy, b1]; rfl, ?_, ⟨i1, b3⟩⟩
        intro b hb
        rcases List.mem_cons.1 hb with rfl | hb
        · exact har
        · exact b2 b hb
  refine ⟨as.map fun a => st a (h a), fwd ts as cur prev ⟨c, hcm⟩ ⟨p, hp⟩ hcU hpU hnr hsat, ?_, ?_⟩
  · intro x hx
    obtain ⟨a, ha, rfl⟩ := List.mem_map.1 hx
    have har := hnr a ha
    have hb := hnear' a ha
    have hCη : 0 ≤ C * η := mul_nonneg hC0.le hη
    have hCe : C * η = 2 * Kv * Q * η + K * (2 * Kv * Q * η) := by rw [hC]; ring
    have hb0 : 0 ≤ 2 * Kv * Q * η := (norm_nonneg _).trans hb
    have hza : ‖h a - ζ0‖ ≤ K * ‖a - x0‖ := by
      have := hK.dist_le_mul a (by rwa [mem_closedBall, dist_eq_norm]) x0
        (mem_closedBall_self hr.le)
      rwa [h0, dist_eq_norm, dist_eq_norm] at this
    refine ⟨a.1, a.2, (h a).1, (h a).2, (hst a (h a) har (hhρ a har) _).2 rfl, ?_, ?_⟩
    · rw [near_iff hCη, hstU]
      refine (hv2 a).trans (hb.trans ?_)
      rw [hCe]
      exact le_add_of_nonneg_right (mul_nonneg hK0 hb0)
    · refine (near_iff hCη).2 (le_trans ?_ (hza.trans ((mul_le_mul_of_nonneg_left hb hK0).trans ?_)))
      · exact (hz1 (h a)).le
      · rw [hCe]
        exact le_add_of_nonneg_left hb0
  · intro ys hys hn
    obtain ⟨bs, b1, b2, b3⟩ := bwd ts ys cur prev ⟨c, hcm⟩ ⟨p, hp⟩ hcU hpU hn hys
    rw [b1, huniq bs b2 b3]

/-- **C94** Near every uniform flow, short steps can be computed, and so can runs of any length: with
Lax–Friedrichs or HLL, in every dimension, with walls, symmetry planes, isothermal walls and
outflows that admit the flow, and sponge layers that relax to it. To every final time `T` there are
a longest step `dt₀`, a distance `δ`, a factor `C` and a radius `r` such that for both schemes, every
shorter step, every number of steps up to `T` and all initial states (the states at the last two
times, which are the same at the beginning) that differ from the uniform flow by `η ≤ δ`, the
discrete equations of all steps have solutions that differ from it by at most `C η`; and there is no
other sequence of solutions within the radius `r`. Neither `C` nor `r` depends on the step. -/
theorem C94_runs {rs : Riemann} (hrs : rs.AnyDim) {S : GasState n} (hS : IdealGas γ S)
    {P : HdgSpaces n (n + 2) V B} {M : HdgMesh n V B} {mask : B → ℝ} (hP : P.Fits M mask)
    {cond : B → FacetCond n} (hc : ∀ b, mask b = 0 → (cond b).Admits S (M.normal b)) (σ : V → ℝ)
    (T : ℝ) :
    ∃ dt₀ > 0, ∃ δ > 0, ∃ C, ∃ r > 0, C * δ ≤ r ∧ ∀ (s : Scheme) (dt : ℝ), 0 < dt → dt ≤ dt₀ →
      ∀ ts : List ℚ, dt * ts.length ≤ T → ∀ η, 0 ≤ η → η ≤ δ →
      ∀ prev cur : HdgState n (n + 2) V B, (∃ a ∈ P.element, prev.U = a.2.1) →
      (∃ a ∈ P.element, cur.U = a.2.1) →
      (∀ v i, |prev.U v i - consVec S.rho S.rho_u S.rho_E i| ≤ η) →
      (∀ v i, |cur.U v i - consVec S.rho S.rho_u S.rho_E i| ≤ η) →
      ∃ xs, Satisfies (hdgStep M mask P.tests (s.quotient dt)) prev cur ts xs ∧
        (∀ x ∈ xs, x.NearFlow γ rs P M mask cond σ (conservativeDict S)
          (consVec S.rho S.rho_u S.rho_E) (C * η)) ∧
        ∀ ys, Satisfies (hdgStep M mask P.tests (s.quotient dt)) prev cur ts ys →
          (∀ y ∈ ys, y.NearFlow γ rs P M mask cond σ (conservativeDict S)
            (consVec S.rho S.rho_u S.rho_E) r) → ys = xs :=
  runs_of_fits hS hP hc σ (fits_of_anyDim hrs hP hS.gamma (gasVec_of hS)) T

/-- **C94** In particular a single step: it has exactly one solution near the uniform flow. -/
theorem C94_step {rs : Riemann} (hrs : rs.AnyDim) {S : GasState n} (hS : IdealGas γ S)
    {P : HdgSpaces n (n + 2) V B} {M : HdgMesh n V B} {mask : B → ℝ} (hP : P.Fits M mask)
    {cond : B → FacetCond n} (hc : ∀ b, mask b = 0 → (cond b).Admits S (M.normal b)) (σ : V → ℝ) :
    ∃ dt₀ > 0, ∃ δ > 0, ∃ r > 0, ∀ (s : Scheme) (dt : ℝ), 0 < dt → dt ≤ dt₀ → ∀ t : ℚ,
      ∀ prev cur : HdgState n (n + 2) V B, (∃ a ∈ P.element, prev.U = a.2.1) →
      (∃ a ∈ P.element, cur.U = a.2.1) →
      (∀ v i, |prev.U v i - consVec S.rho S.rho_u S.rho_E i| ≤ δ) →
      (∀ v i, |cur.U v i - consVec S.rho S.rho_u S.rho_E i| ≤ δ) →
      ∃! x, hdgStep M mask P.tests (s.quotient dt) t x cur prev ∧
        x.NearFlow γ rs P M mask cond σ (conservativeDict S) (consVec S.rho S.rho_u S.rho_E) r := by
  obtain ⟨dt₀, h1, δ, h2, C, r, h3, h4, h⟩ := C94_runs (rs := rs) hrs hS hP hc σ 1
  refine ⟨min dt₀ 1, lt_min h1 one_pos, δ, h2, r, h3, ?_⟩
  intro s dt hdt hdt0 t prev cur hp hq hpn hcn
  obtain ⟨xs, e1, e2, e3⟩ := h s dt hdt (hdt0.trans (min_le_left _ _)) [t]
    (by simpa using hdt0.trans (min_le_right _ _)) δ h2.le le_rfl prev cur hp hq hpn hcn
  cases xs with
  | nil => exact absurd e1 (by simp [_root_.Spec.Satisfies])
  | cons x xs =>
    cases xs with
    | cons y ys => exact absurd e1 (by simp [_root_.Spec.Satisfies])
    | nil =>
      refine ⟨x, ⟨e1.1, ?_⟩, fun y hy => ?_⟩
      · obtain ⟨a, ha, ζ, hζ, hf, h5, h6⟩ := e2 x (List.mem_singleton_self x)
        exact ⟨a, ha, ζ, hζ, hf, fun v i => (h5 v i).trans h4, fun b i => (h6 b i).trans h4⟩
      · have := e3 [y] ⟨hy.1, trivial⟩ (by simpa using hy.2)
        simpa using this

end Dream
