import Verif.Lemmas.FlowBranch
import Verif.Props.ShortStepsMesh

/-!
# C95: Newton's method computes whole runs near uniform flow
-/

noncomputable section

namespace Dream
open Matrix Set Filter Topology _root_.Spec

variable {n : ℕ} {γ : ℝ} {V B : Type} [Fintype V] [Fintype B] {ι κ : Type} [Fintype ι] [Fintype κ]
  {P : HdgSpaces n (n + 2) V B} {M : HdgMesh n V B} {mask : B → ℝ}

theorem leading_eq (s : Scheme) (dt : ℝ) : s.leading dt = s.weight / dt := by
  cases s with
  | implicitEuler => rfl
  | bdf2 =>
    simp only [Scheme.leading, Scheme.weight]
    rw [div_div]

/-- The matrix of a step. -/
theorem steps_matrix (bX : ι → P.element) (bZ : κ → P.facet) (st : Coeffs ι κ → HdgState n (n + 2) V B)
    (J : Coeffs ι κ → Coeffs ι κ →L[ℝ] Coeffs ι κ) (s : Scheme) (dt : ℝ) (x v : Coeffs ι κ) :
    stepDeriv s dt (massL M bX) J x v
      = J x v + (flowSystem M mask bX bZ st).mass (fun i => s.leading dt * v.1 i) := by
  rw [flow_mass, leading_eq]
  have e1 : (fun i => s.weight / dt * v.1 i) = (s.weight / dt) • v.1 := rfl
  rw [e1, map_smul, stepDeriv, ContinuousLinearMap.add_apply]
  congr 1
  refine Prod.ext rfl ?_
  simp

/-- Weakening a recursion with an invariant. -/
theorem Satisfies.imp_inv {X T : Type} {e e' : T → X → X → X → Prop} {I : X → Prop}
    (h : ∀ t new cur prev, I cur → I prev → e t new cur prev → e' t new cur prev ∧ I new) :
    ∀ (ts : List T) (xs : List X) (prev cur : X), I prev → I cur → Satisfies e prev cur ts xs →
      Satisfies e' prev cur ts xs := by
  intro ts
  induction ts with
  | nil =>
    intro xs prev cur _ _ hs
    cases xs with
    | nil => trivial
    | cons x xs => exact hs.elim
  | cons t ts ih =>
    intro xs prev cur hp hc hs
    cases xs with
    | nil => exact hs.elim
    | cons x xs =>
      obtain ⟨h1, h2⟩ := hs
      obtain ⟨h3, h4⟩ := h t x cur prev hc hp h1
      exact ⟨h3, ih xs cur x hc h4 h2⟩

/-- Coefficients and values. -/
theorem coeffs_near (hP : P.Fits M mask) (bX : Module.Basis ι ℝ P.element)
    (bZ : Module.Basis κ ℝ P.facet) (w : Fin (n + 2) → ℝ) :
    ∃ x0 : Coeffs ι κ, inclL bX bZ x0
        = (((0, fun _ => w, fun _ => w) : ElementFn n (n + 2) V B), fun _ => w) ∧
      ∃ k > 0, (∀ η, 0 ≤ η → ∀ x, Coeffs.Near bX bZ w η x → ‖x - x0‖ ≤ k * η) ∧
        ∀ x, Coeffs.Near bX bZ w (k * ‖x - x0‖) x := by
  let x0 : Coeffs ι κ := (bX.equivFun ⟨(0, fun _ => w, fun _ => w), hP.constant w⟩,
    bZ.equivFun ⟨fun _ => w, hP.constantHat w⟩)
  have h0 : inclL bX bZ x0
      = (((0, fun _ => w, fun _ => w) : ElementFn n (n + 2) V B), fun _ => w) := by
    rw [inclL_apply, elementOf, facetOf]
    refine Prod.ext ?_ ?_
    · exact congrArg Subtype.val (bX.sum_equivFun _)
    · exact congrArg Subtype.val (bZ.sum_equivFun _)
  let val : Coeffs ι κ →ₗ[ℝ] (V → Fin (n + 2) → ℝ) × (B → Fin (n + 2) → ℝ) :=
    ((LinearMap.fst ℝ _ _ ∘ₗ LinearMap.snd ℝ _ _).prodMap LinearMap.id) ∘ₗ (inclL bX bZ).toLinearMap
  have hval : ∀ x, val x = ((elementOf bX x.1).2.1, facetOf bZ x.2) := fun _ => rfl
  have hinj : LinearMap.ker val = ⊥ := by
    refine LinearMap.ker_eq_bot'.2 fun x hx => ?_
    rw [hval, Prod.mk_eq_zero] at hx
    have h1 : elementOf bX x.1 = 0 := hP.determined _ (Subtype.property _) hx.1
    have h2 : ∑ i, x.1 i • bX i = 0 := Subtype.ext h1
    have h3 : ∑ j, x.2 j • bZ j = 0 := Subtype.ext hx.2
    have l1 := Fintype.linearIndependent_iff.1 bX.linearIndependent
    have l2 := Fintype.linearIndependent_iff.1 bZ.linearIndependent
    exact Prod.ext (funext (l1 _ h2)) (funext (l2 _ h3))
  obtain ⟨K, hK, hanti⟩ := val.exists_antilipschitzWith hinj
  obtain ⟨vl, hvl⟩ := exists_clm val
  have hv0 : val x0 = (fun _ => w, fun _ => w) := by
    have := congrArg (fun z : ElementFn n (n + 2) V B × (B → Fin (n + 2) → ℝ) => (z.1.2.1, z.2)) h0
    exact this
  refine ⟨x0, h0, max (K : ℝ) ‖vl‖, lt_max_of_lt_left hK, ?_, ?_⟩
  · intro η hη x hx
    have h1 := hanti.le_mul_dist x x0
    rw [dist_eq_norm, dist_eq_norm, hv0, hval] at h1
    refine h1.trans ?_
    have h2 : ‖((elementOf bX x.1).2.1, facetOf bZ x.2)
        - ((fun _ => w, fun _ => w) : (V → Fin (n + 2) → ℝ) × (B → Fin (n + 2) → ℝ))‖ ≤ η := by
      rw [Prod.mk_sub_mk, Prod.norm_mk]
      exact max_le ((near_iff hη).1 hx.1) ((near_iff hη).1 hx.2)
    exact mul_le_mul (le_max_left _ _) h2 (norm_nonneg _) (le_max_of_le_left K.coe_nonneg)
  · intro x
    have h1 : ‖((elementOf bX x.1).2.1, facetOf bZ x.2)
        - ((fun _ => w, fun _ => w) : (V → Fin (n + 2) → ℝ) × (B → Fin (n + 2) → ℝ))‖
        ≤ max (K : ℝ) ‖vl‖ * ‖x - x0‖ := by
      rw [← hval, ← hv0, ← map_sub, ← hvl]
      exact (vl.le_opNorm _).trans (mul_le_mul_of_nonneg_right (le_max_right _ _) (norm_nonneg _))
    rw [Prod.mk_sub_mk, Prod.norm_mk, max_le_iff] at h1
    have h2 : (0 : ℝ) ≤ max (K : ℝ) ‖vl‖ * ‖x - x0‖ := (norm_nonneg _).trans h1.1
    exact ⟨(near_iff h2).2 h1.1, (near_iff h2).2 h1.2⟩

section
open Classical

variable {rs : Riemann} {cond : B → FacetCond n} {S : GasState n} {σ : V → ℝ}
  {N : B → (Fin (n + 2) → ℝ) × (Fin (n + 2) → ℝ) → Fin (n + 2) → ℝ}
  {τ : B → (Fin (n + 2) → ℝ) →L[ℝ] (Fin (n + 2) → ℝ)}

/-- The equations and their matrix at the uniform flow, which is that of `slopeData`. -/
theorem flow_regular_slope (hS : IdealGas γ S) (hP : P.Fits M mask)
    (hc : ∀ b, mask b = 0 → (cond b).Admits S (M.normal b))
    (bX : Module.Basis ι ℝ P.element) (bZ : Module.Basis κ ℝ P.facet)
    {st : Coeffs ι κ → HdgState n (n + 2) V B}
    (hst : ∀ x, Coeffs.AreGas γ bX bZ x → (st x).IsFlow γ rs M mask cond σ (conservativeDict S)
      (elementOf bX x.1) (facetOf bZ x.2))
    {J : Coeffs ι κ → Coeffs ι κ →L[ℝ] Coeffs ι κ}
    (hJ : IsFlowMatrix γ rs M mask cond σ (conservativeDict S) bX bZ J) {x0 : Coeffs ι κ}
    {w : Fin (n + 2) → ℝ} (hw : w = consVec S.rho S.rho_u S.rho_E) (hN : FluxFits γ rs P M mask w N τ)
    (hx0 : inclL bX bZ x0
      = (((0, fun _ => w, fun _ => w) : ElementFn n (n + 2) V B), fun _ => w)) :
    ∃ S₀ : Coeffs ι κ →L[ℝ] Coeffs ι κ,
      HasStrictFDerivAt (fun x => flowVec M mask bX bZ (st x)) S₀ x0 ∧ Tendsto J (𝓝 x0) (𝓝 S₀) ∧
      flowVec M mask bX bZ (st x0) = 0 ∧ (∀ ζ : κ → ℝ, (S₀ (0, ζ)).2 = 0 → ζ = 0) ∧
      (∀ᶠ x in 𝓝 x0, GasData (inclL bX bZ x)) ∧
      ∀ x, S₀ x = formL M mask bX bZ (slopeData γ M mask cond σ w τ (inclL bX bZ x)) := by
  have hγ := hS.gamma
  have hg : GasVec w := hw ▸ gasVec_of hS
  have hgas0 : GasData (inclL bX bZ x0) := by
    rw [hx0]
    exact ⟨fun _ => hg, fun _ => hg, fun _ => hg⟩
  have hincl : Tendsto (inclL bX bZ) (𝓝 x0) (𝓝 (inclL bX bZ x0)) := (inclL bX bZ).continuous.tendsto x0
  have hev : ∀ᶠ x in 𝓝 x0, GasData (inclL bX bZ x) := hincl.eventually (gasData_nhds hgas0)
  have hvec : ∀ x, GasData (inclL bX bZ x) → flowVec M mask bX bZ (st x)
      = formL M mask bX bZ (fluxDataN γ N M mask cond σ w (inclL bX bZ x)) := by
    intro x hx
    have fx := hst x ((areGas_iff hγ bX bZ x).2 hx)
    rw [isFlowN_iff hγ hN.eq hP.mask01 hc σ (a := elementOf bX x.1) (ζ := facetOf bZ x.2) hx.1 hx.2.1
      hx.2.2] at fx
    rw [fx, flowVec_eq bX bZ rfl rfl, hw]
    rfl
  obtain ⟨D', hD, hD1, hD2, hDs⟩ := fluxDataN_strict M mask cond σ hg hN.strict
  rw [← hx0] at hD
  refine ⟨(formL M mask bX bZ).comp (D'.comp (inclL bX bZ)), ?_, ?_, ?_, ?_, hev,
    fun x => congrArg (formL M mask bX bZ) (hDs _)⟩
  · have h1 : HasStrictFDerivAt (fun x => formL M mask bX bZ
        (fluxDataN γ N M mask cond σ w (inclL bX bZ x)))
        ((formL M mask bX bZ).comp (D'.comp (inclL bX bZ))) x0 :=
      (formL M mask bX bZ).hasStrictFDerivAt.comp x0
        (HasStrictFDerivAt.comp (g := fluxDataN γ N M mask cond σ w) x0 hD
          (inclL bX bZ).hasStrictFDerivAt)
    exact h1.congr_of_eventuallyEq (hev.mono fun x hx => (hvec x hx).symm)
  · have key : ∀ v, Tendsto (fun x => J x v) (𝓝 x0)
        (𝓝 ((formL M mask bX bZ).comp (D'.comp (inclL bX bZ)) v)) := by
      intro v
      have hex : ∀ x, ∃ D : FluxData n V B, GasData (inclL bX bZ x) →
          IsSlope γ N M mask cond σ w (inclL bX bZ x) (inclL bX bZ v) D ∧
          J x v = formL M mask bX bZ D := by
        intro x
        by_cases hx : GasData (inclL bX bZ x)
        · obtain ⟨x', h1, h2⟩ := hJ x ((areGas_iff hγ bX bZ x).2 hx) v
          obtain ⟨g1, g2, g3⟩ := flow_slope (z := inclL bX bZ x) (z' := inclL bX bZ v) hS hN.eq
            hP.mask01 hc hx h1
          refine ⟨_, fun _ => ⟨hw ▸ g3, ?_⟩⟩
          rw [h2, flowVec_eq bX bZ g1 g2]
        · exact ⟨0, fun h => (hx h).elim⟩
      choose D hDx using hex
      have t := slope_tendsto (z' := inclL bX bZ v) hD hincl
        (hev.mono fun x hx => (hDx x hx).1)
      have t2 := ((formL M mask bX bZ).continuous.tendsto _).comp t
      refine t2.congr' ?_
      exact hev.mono fun x hx => (hDx x hx).2.symm
    have e0 : J x0 = (formL M mask bX bZ).comp (D'.comp (inclL bX bZ)) :=
      ContinuousLinearMap.ext fun v => eq_of_tendsto_nhds (f := fun x => J x v) (key v)
    rw [← e0]
    refine continuousAt_clm_apply.2 fun v => ?_
    have := key v
    rw [← e0] at this
    exact this
  · rw [hvec x0 hgas0, hx0, formL_apply]
    refine Prod.ext (funext fun i => ?_) (funext fun j => ?_)
    · exact spatialN_uniform hS hP hc σ hw hN.same (bX i).2 P.facet.zero_mem
    · exact spatialN_uniform hS hP hc σ hw hN.same P.element.zero_mem (bZ j).2
  · intro ζ hζ
    have e : inclL bX bZ (0, ζ) = (0, facetOf bZ ζ) := by
      rw [inclL_apply]
      refine Prod.ext ?_ rfl
      show elementOf bX 0 = 0
      simp [elementOf]
    have h1 : ∀ ψ : P.facet, spatialForm M mask (D' (0, facetOf bZ ζ)) (0, ψ) = 0 := by
      intro ψ
      have h2 : (spatialForm M mask (D' (0, facetOf bZ ζ))) ∘ₗ
          ((LinearMap.inr ℝ _ _) ∘ₗ P.facet.subtype) = 0 := by
        refine bZ.ext fun j => ?_
        have h3 := congrFun hζ j
        rw [ContinuousLinearMap.comp_apply, ContinuousLinearMap.comp_apply, e] at h3
        exact h3
      exact congrArg (fun l : P.facet →ₗ[ℝ] ℝ => l ψ) h2
    have h4 : facetOf bZ ζ = 0 := by
      refine hN.inj _ (Subtype.property _) fun ψ hψ => ?_
      have h5 := h1 ⟨ψ, hψ⟩
      have h2 : (∑ v, M.wV v * -(∑ i, ∑ j, (D' (0, facetOf bZ ζ)).1 v i j * 0))
        + (∑ b, M.wB b * ((D' (0, facetOf bZ ζ)).2.1 b ⬝ᵥ 0))
        + (∑ b, M.wB b * (-mask b * ((D' (0, facetOf bZ ζ)).2.1 b ⬝ᵥ ψ b)))
        + (∑ b, M.wB b * ((D' (0, facetOf bZ ζ)).2.2.1 b ⬝ᵥ ψ b))
        + ∑ v, M.wV v * ((D' (0, facetOf bZ ζ)).2.2.2 v ⬝ᵥ 0) = 0 := h5
      simp only [mul_zero, Finset.sum_const_zero, neg_zero, dotProduct_zero, zero_add, add_zero, hD1,
        hD2] at h2
      rw [← h2]
      congr 1
      refine Finset.sum_congr rfl fun b _ => ?_
      rcases hP.mask01 b with e | e <;> simp [e]
    have h5 : ∑ j, ζ j • bZ j = 0 := Subtype.ext h4
    exact funext (Fintype.linearIndependent_iff.1 bZ.linearIndependent ζ h5)

end

/-- Newton's method computes runs near uniform flow, if the numerical flux determines the facet
unknowns. -/
theorem newton_of_fits {rs : Riemann} {S : GasState n} (hS : IdealGas γ S)
    (hP : P.Fits M mask) {cond : B → FacetCond n}
    (hc : ∀ b, mask b = 0 → (cond b).Admits S (M.normal b)) {σ : V → ℝ}
    (bX : Module.Basis ι ℝ P.element) (bZ : Module.Basis κ ℝ P.facet)
    {st : Coeffs ι κ → HdgState n (n + 2) V B}
    (hst : ∀ x, Coeffs.AreGas γ bX bZ x → (st x).IsFlow γ rs M mask cond σ (conservativeDict S)
      (elementOf bX x.1) (facetOf bZ x.2))
    {J : Coeffs ι κ → Coeffs ι κ →L[ℝ] Coeffs ι κ}
    (hJ : IsFlowMatrix γ rs M mask cond σ (conservativeDict S) bX bZ J) (s : Scheme)
    {N : B → (Fin (n + 2) → ℝ) × (Fin (n + 2) → ℝ) → Fin (n + 2) → ℝ}
    {τ : B → (Fin (n + 2) → ℝ) →L[ℝ] (Fin (n + 2) → ℝ)}
    (hN : FluxFits γ rs P M mask (consVec S.rho S.rho_u S.rho_E) N τ) {ω : ℝ}
    (hω : 0 < ω) (hω1 : ω ≤ 1) (T : ℝ) :
    ∃ dt₀ > 0, ∃ δ > 0, ∃ C > 0, ∃ r > 0, C * δ ≤ r ∧ ∀ dt, 0 < dt → dt ≤ dt₀ → ∀ c crit : ℝ,
      0 ≤ c → 0 < crit → ∃ m : ℤ, ∀ N : Newton (Coeffs ι κ) (Coeffs ι κ),
      SolvesSteps M mask bX bZ st J s dt N c → N.damping = ω → N.crit = crit → m ≤ N.maxIter →
      ∀ η, 0 ≤ η → η ≤ δ → ∀ cur prev, Coeffs.Near bX bZ (consVec S.rho S.rho_u S.rho_E) η cur →
      Coeffs.Near bX bZ (consVec S.rho S.rho_u S.rho_E) η prev →
      ∀ ts : List ℚ, dt * ts.length ≤ T →
        Satisfies (FlowStepComputed γ rs M mask cond σ (conservativeDict S) bX bZ st
          (consVec S.rho S.rho_u S.rho_E) s dt N (C * η) r) prev cur ts (trajectory
          (fun t cur prev => (N.solve ((flowSystem M mask bX bZ st).stepEquation (s.quotient dt) t cur
            prev) cur).u) prev cur ts) := by
  obtain ⟨w, hw⟩ : ∃ w, w = consVec S.rho S.rho_u S.rho_E := ⟨_, rfl⟩
  rw [← hw] at hN ⊢
  have hF := hN
  obtain ⟨x0, hx0, k, hk, hn1, hn2⟩ := coeffs_near hP bX bZ w
  obtain ⟨S₀, h1, h2, h3, h4, h5, -⟩ := flow_regular_slope hS hP hc bX bZ hst hJ hw hN hx0
  obtain ⟨ε, hε, hgas⟩ := Metric.eventually_nhds_iff_ball.1 h5
  have hgas' : ∀ y, ‖y - x0‖ ≤ ε / 2 → GasData (inclL bX bZ y) := fun y hy =>
    hgas y (by rw [Metric.mem_ball, dist_eq_norm]; linarith)
  obtain ⟨dt₀, hdt₀, δ₁, hδ₁, C₁, hC₁, R, hR, hCR, hrun⟩ :=
    newton_runs (flowSystem M mask bX bZ st) s (fun _ => rfl) (massL_injective hP bX)
      (flow_mass bX bZ st) (fun _ => rfl) h1 h2 h3 h4 hω hω1 T
  obtain ⟨C, hC⟩ : ∃ C, C = k * (C₁ * k) := ⟨_, rfl⟩
  have hC0 : 0 < C := by rw [hC]; positivity
  obtain ⟨r, hr⟩ : ∃ r, r = min R (ε / 2) / k := ⟨_, rfl⟩
  have hr0 : 0 < r := by rw [hr]; exact div_pos (lt_min hR (half_pos hε)) hk
  have hkr : k * r = min R (ε / 2) := by rw [hr]; field_simp
  obtain ⟨δ, hδ⟩ : ∃ δ, δ = min (min (δ₁ / k) (r / C)) (min (ε / 2 / k) (ε / 2 / (C₁ * k))) := ⟨_, rfl⟩
  have hδ0 : 0 < δ := by
    rw [hδ]
    exact lt_min (lt_min (by positivity) (by positivity)) (lt_min (by positivity) (by positivity))
  have d1 : k * δ ≤ δ₁ := by
    have : δ ≤ δ₁ / k := by rw [hδ]; exact (min_le_left _ _).trans (min_le_left _ _)
    rw [le_div_iff₀ hk] at this
    linarith
  have d2 : C * δ ≤ r := by
    have : δ ≤ r / C := by rw [hδ]; exact (min_le_left _ _).trans (min_le_right _ _)
    rw [le_div_iff₀ hC0] at this
    linarith
  have d3 : k * δ ≤ ε / 2 := by
    have : δ ≤ ε / 2 / k := by rw [hδ]; exact (min_le_right _ _).trans (min_le_left _ _)
    rw [le_div_iff₀ hk] at this
    linarith
  have d4 : C₁ * (k * δ) ≤ ε / 2 := by
    have : δ ≤ ε / 2 / (C₁ * k) := by rw [hδ]; exact (min_le_right _ _).trans (min_le_right _ _)
    rw [le_div_iff₀ (by positivity)] at this
    linarith
  refine ⟨dt₀, hdt₀, δ, hδ0, C, hC0, r, hr0, d2, fun dt hdt hdt' c crit hc0 hcrit => ?_⟩
  obtain ⟨m, hm⟩ := hrun dt hdt hdt' c crit hc0 hcrit
  refine ⟨m, fun N hN hNd hNc hNm η hη hηδ cur prev hcur hprev ts hts => ?_⟩
  have hN' : ∀ t cur prev, SolvesSystems
      (N.lin ((flowSystem M mask bX bZ st).stepEquation (s.quotient dt) t cur prev))
      ((flowSystem M mask bX bZ st).stepEquation (s.quotient dt) t cur prev)
      (stepDeriv s dt (massL M bX) J) c := by
    intro t cur prev
    obtain ⟨A, hA, hs⟩ := hN t cur prev
    have e : A = stepDeriv s dt (massL M bX) J :=
      funext fun x => ContinuousLinearMap.ext fun v => (hA x v).trans (steps_matrix bX bZ st J s dt x v).symm
    rwa [e] at hs
  have hcur' := hn1 η hη cur hcur
  have hprev' := hn1 η hη prev hprev
  have hkη : k * η ≤ k * δ := by gcongr
  have base := hm N hN' hNd hNc hNm (k * η) (hkη.trans d1) cur prev hcur' hprev' ts hts
  have hY : ∀ y, ‖y - x0‖ ≤ C₁ * (k * η) → Coeffs.Near bX bZ w (C * η) y := by
    intro y hy
    have h1 := hn2 y
    have h2 : k * ‖y - x0‖ ≤ C * η := by
      calc k * ‖y - x0‖ ≤ k * (C₁ * (k * η)) := by gcongr
        _ = C * η := by rw [hC]; ring
    exact ⟨fun v i => (h1.1 v i).trans h2, fun b i => (h1.2 b i).trans h2⟩
  refine Satisfies.imp_inv (I := fun x => GasData (inclL bX bZ x)) ?_ ts _ prev cur
    (hgas' _ (hprev'.trans (hkη.trans d3))) (hgas' _ (hcur'.trans (hkη.trans d3))) base
  rintro t new cur prev hcg hpg ⟨e1, e2, e3, e4, z, e5, e6, e7, e8⟩
  have hCk : C₁ * (k * η) ≤ ε / 2 := (mul_le_mul_of_nonneg_left hkη hC₁.le).trans d4
  have gn : GasData (inclL bX bZ new) := hgas' _ (e4.trans hCk)
  have gz : GasData (inclL bX bZ z) := hgas' _ (e6.trans hCk)
  refine ⟨⟨e1, e2, e3, hY _ e4, hst _ ((areGas_iff hS.gamma bX bZ _).2 gn), z, hY _ e6,
    (flow_step_iff hS hF.eq hP hc bX bZ hst s hdt t gz hcg hpg).1 e5, fun y hy hy0 => ?_, e8⟩, gn⟩
  have hy1 := hn1 r hr0.le y hy
  rw [hkr] at hy1
  have gy : GasData (inclL bX bZ y) := hgas' _ (hy1.trans (min_le_right _ _))
  exact e7 y (hy1.trans (min_le_left _ _))
    ((flow_step_iff hS hF.eq hP hc bX bZ hst s hdt t gy hcg hpg).2 hy0)

/-- **C95** Near every uniform flow, Newton's method computes runs of any length: with Lax–Friedrichs
or HLL, in every dimension, on spaces and conditions as in C94, in arbitrary bases. Let `st x` be the
discrete flow with the coefficients `x` and `J` the matrix of the spatial terms, which consists of
derivatives, and of one-sided ones where the signal speed has a kink. To every final time `T` and
damping factor `ω` there are a longest step `dt₀`, a distance `δ`, a factor `C` and a radius `r`,
and to every step, tolerance and accuracy `c` of the reported error a number of iterations `m`, such
that with `m` or more iterations allowed every step of every run that starts within `η ≤ δ` of the
uniform flow is computed: the nonlinear solve reports convergence and never NaN, its result is a flow
within `C η`, and it approximates the only solution of the equations within the radius `r`. The errors
left by one solve are the initial data of the next. -/
theorem C95_runs {rs : Riemann} (hrs : rs.AnyDim) {S : GasState n} (hS : IdealGas γ S)
    (hP : P.Fits M mask) {cond : B → FacetCond n}
    (hc : ∀ b, mask b = 0 → (cond b).Admits S (M.normal b)) {σ : V → ℝ}
    (bX : Module.Basis ι ℝ P.element) (bZ : Module.Basis κ ℝ P.facet)
    {st : Coeffs ι κ → HdgState n (n + 2) V B}
    (hst : ∀ x, Coeffs.AreGas γ bX bZ x → (st x).IsFlow γ rs M mask cond σ (conservativeDict S)
      (elementOf bX x.1) (facetOf bZ x.2))
    {J : Coeffs ι κ → Coeffs ι κ →L[ℝ] Coeffs ι κ}
    (hJ : IsFlowMatrix γ rs M mask cond σ (conservativeDict S) bX bZ J) (s : Scheme) {ω : ℝ}
    (hω : 0 < ω) (hω1 : ω ≤ 1) (T : ℝ) :
    ∃ dt₀ > 0, ∃ δ > 0, ∃ C > 0, ∃ r > 0, C * δ ≤ r ∧ ∀ dt, 0 < dt → dt ≤ dt₀ → ∀ c crit : ℝ,
      0 ≤ c → 0 < crit → ∃ m : ℤ, ∀ N : Newton (Coeffs ι κ) (Coeffs ι κ),
      SolvesSteps M mask bX bZ st J s dt N c → N.damping = ω → N.crit = crit → m ≤ N.maxIter →
      ∀ η, 0 ≤ η → η ≤ δ → ∀ cur prev, Coeffs.Near bX bZ (consVec S.rho S.rho_u S.rho_E) η cur →
      Coeffs.Near bX bZ (consVec S.rho S.rho_u S.rho_E) η prev →
      ∀ ts : List ℚ, dt * ts.length ≤ T →
        Satisfies (FlowStepComputed γ rs M mask cond σ (conservativeDict S) bX bZ st
          (consVec S.rho S.rho_u S.rho_E) s dt N (C * η) r) prev cur ts (trajectory
          (fun t cur prev => (N.solve ((flowSystem M mask bX bZ st).stepEquation (s.quotient dt) t cur
            prev) cur).u) prev cur ts) := 
  newton_of_fits hS hP hc bX bZ hst hJ s (fits_of_anyDim hrs hP hS.gamma (gasVec_of hS)) hω hω1 T

theorem newton_transient_of_fits {rs : Riemann} {S : GasState n} (hS : IdealGas γ S)
    (hP : P.Fits M mask) {cond : B → FacetCond n}
    (hc : ∀ b, mask b = 0 → (cond b).Admits S (M.normal b)) {σ : V → ℝ}
    (bX : Module.Basis ι ℝ P.element) (bZ : Module.Basis κ ℝ P.facet)
    {st : Coeffs ι κ → HdgState n (n + 2) V B}
    (hst : ∀ x, Coeffs.AreGas γ bX bZ x → (st x).IsFlow γ rs M mask cond σ (conservativeDict S)
      (elementOf bX x.1) (facetOf bZ x.2))
    {J : Coeffs ι κ → Coeffs ι κ →L[ℝ] Coeffs ι κ}
    (hJ : IsFlowMatrix γ rs M mask cond σ (conservativeDict S) bX bZ J) (s : Scheme)
    {N : B → (Fin (n + 2) → ℝ) × (Fin (n + 2) → ℝ) → Fin (n + 2) → ℝ}
    {τ : B → (Fin (n + 2) → ℝ) →L[ℝ] (Fin (n + 2) → ℝ)}
    (hN : FluxFits γ rs P M mask (consVec S.rho S.rho_u S.rho_E) N τ) {ω : ℝ}
    (hω : 0 < ω) (hω1 : ω ≤ 1) (T : ℝ) :
    ∃ dt₀ > 0, ∃ δ > 0, ∃ C > 0, ∃ r > 0, C * δ ≤ r ∧ ∀ tm : Timer, 0 < tm.step →
      (tm.step : ℝ) ≤ dt₀ → ∀ c crit : ℝ, 0 ≤ c → 0 < crit → ∃ m : ℤ,
      ∀ N : Newton (Coeffs ι κ) (Coeffs ι κ), SolvesSteps M mask bX bZ st J s tm.step N c →
      N.damping = ω → N.crit = crit → m ≤ N.maxIter → ∀ η, 0 ≤ η → η ≤ δ →
      ∀ x0, Coeffs.Near bX bZ (consVec S.rho S.rho_u S.rho_E) η x0 →
      ∀ ts : List (ℚ × ℚ), tm.run false 1 = .ok ts → (tm.step : ℝ) * ts.length ≤ T →
      ∃ xs, transientRun (flowSystem M mask bX bZ st) s N tm x0
          = .ok ((ts.map Prod.snd).zip xs) ∧
        Satisfies (FlowStepComputed γ rs M mask cond σ (conservativeDict S) bX bZ st
          (consVec S.rho S.rho_u S.rho_E) s tm.step N (C * η) r) x0 x0 (ts.map Prod.fst) xs := by
  obtain ⟨dt₀, h1, δ, h2, C, h3, r, h4, h5, h⟩ := newton_of_fits hS hP hc bX bZ hst hJ s hN hω hω1 T
  refine ⟨dt₀, h1, δ, h2, C, h3, r, h4, h5, fun tm hdt hdt' c crit hc0 hcrit => ?_⟩
  obtain ⟨m, hm⟩ := h tm.step (by exact_mod_cast hdt) hdt' c crit hc0 hcrit
  refine ⟨m, fun N hN hNd hNc hNm η hη hηδ x0 hx0 ts hts hT => ?_⟩
  exact ⟨_, C61_textbook_recursion (flowSystem M mask bX bZ st) s N tm x0 ts hts,
    hm N hN hNd hNc hNm η hη hηδ x0 x0 hx0 hx0 (ts.map Prod.fst) (by rwa [List.length_map])⟩

/-- **C95** The same for the transient routine of the solver: for every timer with a short step and
not more than `T / step` steps, the routine yields every label of the timer together with a state
that Newton's method has computed from the two states before. -/
theorem C95_transient {rs : Riemann} (hrs : rs.AnyDim) {S : GasState n} (hS : IdealGas γ S)
    (hP : P.Fits M mask) {cond : B → FacetCond n}
    (hc : ∀ b, mask b = 0 → (cond b).Admits S (M.normal b)) {σ : V → ℝ}
    (bX : Module.Basis ι ℝ P.element) (bZ : Module.Basis κ ℝ P.facet)
    {st : Coeffs ι κ → HdgState n (n + 2) V B}
    (hst : ∀ x, Coeffs.AreGas γ bX bZ x → (st x).IsFlow γ rs M mask cond σ (conservativeDict S)
      (elementOf bX x.1) (facetOf bZ x.2))
    {J : Coeffs ι κ → Coeffs ι κ →L[ℝ] Coeffs ι κ}
    (hJ : IsFlowMatrix γ rs M mask cond σ (conservativeDict S) bX bZ J) (s : Scheme) {ω : ℝ}
    (hω : 0 < ω) (hω1 : ω ≤ 1) (T : ℝ) :
    ∃ dt₀ > 0, ∃ δ > 0, ∃ C > 0, ∃ r > 0, C * δ ≤ r ∧ ∀ tm : Timer, 0 < tm.step →
      (tm.step : ℝ) ≤ dt₀ → ∀ c crit : ℝ, 0 ≤ c → 0 < crit → ∃ m : ℤ,
      ∀ N : Newton (Coeffs ι κ) (Coeffs ι κ), SolvesSteps M mask bX bZ st J s tm.step N c →
      N.damping = ω → N.crit = crit → m ≤ N.maxIter → ∀ η, 0 ≤ η → η ≤ δ →
      ∀ x0, Coeffs.Near bX bZ (consVec S.rho S.rho_u S.rho_E) η x0 →
      ∀ ts : List (ℚ × ℚ), tm.run false 1 = .ok ts → (tm.step : ℝ) * ts.length ≤ T →
      ∃ xs, transientRun (flowSystem M mask bX bZ st) s N tm x0
          = .ok ((ts.map Prod.snd).zip xs) ∧
        Satisfies (FlowStepComputed γ rs M mask cond σ (conservativeDict S) bX bZ st
          (consVec S.rho S.rho_u S.rho_E) s tm.step N (C * η) r) x0 x0 (ts.map Prod.fst) xs := 
  newton_transient_of_fits hS hP hc bX bZ hst hJ s (fits_of_anyDim hrs hP hS.gamma (gasVec_of hS)) hω
    hω1 T

/-- **C95** The matrix exists: differentiating the code's expressions branch by branch, `IfPos(x, x, -x)`
for the absolute value and `IfPos(x, x, 0)` for the maximum, yields one. -/
theorem C95_matrix {rs : Riemann} (hrs : rs.AnyDim) {S : GasState n} (hS : IdealGas γ S)
    (hm : ∀ b, mask b = 0 ∨ mask b = 1) {cond : B → FacetCond n}
    (hc : ∀ b, mask b = 0 → (cond b).Admits S (M.normal b)) (σ : V → ℝ)
    (bX : ι → P.element) (bZ : κ → P.facet) :
    ∃ J, IsFlowMatrix γ rs M mask cond σ (conservativeDict S) bX bZ J :=
  ⟨_, branchMatrix_isFlowMatrix hS (fun b u _ h => pointNumerical_eq hS.gamma hrs (M.normal b) u h)
    (fun b p q i hp => numerical_branch hS.gamma rs (M.normal b) hp q i) hm hc bX bZ⟩

/-- The states exist. -/
theorem flow_statesN {rs : Riemann} {N : B → (Fin (n + 2) → ℝ) × (Fin (n + 2) → ℝ) → Fin (n + 2) → ℝ}
    (hN : ∀ b (u : Fin (n + 2) → ℝ) {uHat : Fin (n + 2) → ℝ}, GasVec uHat →
      convectiveNumericalFlux γ rs u uHat (conservativeDict (gasOf γ uHat)) (M.normal b)
        = .ok (N b (u, uHat))) {S : GasState n} (hS : IdealGas γ S)
    (hm : ∀ b, mask b = 0 ∨ mask b = 1) {cond : B → FacetCond n}
    (hc : ∀ b, mask b = 0 → (cond b).Admits S (M.normal b)) (σ : V → ℝ)
    (bX : ι → P.element) (bZ : κ → P.facet) : ∃ st : Coeffs ι κ → HdgState n (n + 2) V B,
      ∀ x, Coeffs.AreGas γ bX bZ x → (st x).IsFlow γ rs M mask cond σ (conservativeDict S)
        (elementOf bX x.1) (facetOf bZ x.2) := by
  refine ⟨fun x => dataState (elementOf bX x.1) (fluxDataN γ N M mask cond σ
    (consVec S.rho S.rho_u S.rho_E) (elementOf bX x.1, facetOf bZ x.2)), fun x hx => ?_⟩
  have hz := (areGas_iff hS.gamma bX bZ x).1 hx
  exact (isFlowN_iff hS.gamma hN hm hc σ (a := elementOf bX x.1) (ζ := facetOf bZ x.2) hz.1 hz.2.1
    hz.2.2 _).2 rfl

theorem flow_states {rs : Riemann} (hrs : rs.AnyDim) {S : GasState n} (hS : IdealGas γ S)
    (hm : ∀ b, mask b = 0 ∨ mask b = 1) {cond : B → FacetCond n}
    (hc : ∀ b, mask b = 0 → (cond b).Admits S (M.normal b)) (σ : V → ℝ)
    (bX : ι → P.element) (bZ : κ → P.facet) : ∃ st : Coeffs ι κ → HdgState n (n + 2) V B,
      ∀ x, Coeffs.AreGas γ bX bZ x → (st x).IsFlow γ rs M mask cond σ (conservativeDict S)
        (elementOf bX x.1) (facetOf bZ x.2) :=
  flow_statesN (fun b u _ h => pointNumerical_eq hS.gamma hrs (M.normal b) u h) hS hm hc σ bX bZ

open Classical in
/-- Exact linear solvers exist. -/
theorem flow_solver (M : HdgMesh n V B) (mask : B → ℝ) (bX : ι → P.element) (bZ : κ → P.facet)
    (st : Coeffs ι κ → HdgState n (n + 2) V B) (J : Coeffs ι κ → Coeffs ι κ →L[ℝ] Coeffs ι κ)
    (s : Scheme) (dt ω crit : ℝ) (m : ℤ) : ∃ N : Newton (Coeffs ι κ) (Coeffs ι κ),
      SolvesSteps M mask bX bZ st J s dt N 1 ∧ N.damping = ω ∧ N.crit = crit ∧ N.maxIter = m := by
  let A := stepDeriv s dt (massL M bX) J
  refine ⟨⟨fun F _ x => if h : ∃ δ, A x δ = F x then (h.choose, some (‖h.choose‖ * ‖F x‖)) else (0, none),
    ω, crit, m⟩, fun t cur prev => ⟨A, steps_matrix bX bZ st J s dt, fun it x hb => ?_⟩, rfl, rfl, rfl⟩
  have h := hb.2 ((flowSystem M mask bX bZ st).stepEquation (s.quotient dt) t cur prev x)
  refine ⟨h.choose, _, dif_pos h, h.choose_spec, ?_⟩
  rw [one_mul, abs_of_nonneg (mul_nonneg (norm_nonneg _) (norm_nonneg _))]

/-- **C95** On every conforming triangulation, with orders, rules and conditions as in C94: there are a
matrix of the spatial terms, discrete flows and linear solvers as in `C95_transient`, in arbitrary
bases of the piecewise polynomials, and with all of them the transient routine computes runs near
uniform flow. -/
theorem C95_triangulation {E : Type} [Fintype E] {K : Triangulation E} {R : VolumeRule} {Q : SideRule}
    (hK : K.Conforming) {bcs : Conditions} (hcov : K.Covered bcs) {d : ℕ} (hd : 1 ≤ d)
    (hR : R.Exact d) (hQ : Q.Exact d) (hRw : ∀ q, 0 < R.w q) (hQw : ∀ q, 0 < Q.w q)
    (hQs : Q.Symmetric) {order : E → ℕ} {orderHat : E × Fin 3 → ℕ} (ho : ∀ e, 2 * order e ≤ d)
    {rs : Riemann} (hrs : rs.AnyDim) {W : GasState 2} (hW : IdealGas γ W)
    {cond : (E × Fin 3) × Fin Q.n → FacetCond 2}
    (hcond : ∀ b, K.across b.1 = none → (cond b).Admits W (K.normal b.1))
    (σ : E × Fin R.n → ℝ) (bX : Module.Basis ι ℝ (K.spaces 4 order orderHat R Q).element)
    (bZ : Module.Basis κ ℝ (K.spaces 4 order orderHat R Q).facet) :
    (∃ J, IsFlowMatrix γ rs (K.mesh R Q) ((K.mesh R Q).mask bcs) cond σ (conservativeDict W) bX bZ J) ∧
    (∃ st : Coeffs ι κ → HdgState 2 4 (E × Fin R.n) ((E × Fin 3) × Fin Q.n),
      ∀ x, Coeffs.AreGas γ bX bZ x → (st x).IsFlow γ rs (K.mesh R Q) ((K.mesh R Q).mask bcs) cond σ
        (conservativeDict W) (elementOf bX x.1) (facetOf bZ x.2)) ∧
    ∀ J, IsFlowMatrix γ rs (K.mesh R Q) ((K.mesh R Q).mask bcs) cond σ (conservativeDict W) bX bZ J →
    ∀ st : Coeffs ι κ → HdgState 2 4 (E × Fin R.n) ((E × Fin 3) × Fin Q.n),
      (∀ x, Coeffs.AreGas γ bX bZ x → (st x).IsFlow γ rs (K.mesh R Q) ((K.mesh R Q).mask bcs) cond σ
        (conservativeDict W) (elementOf bX x.1) (facetOf bZ x.2)) →
    ∀ (s : Scheme) (ω : ℝ), 0 < ω → ω ≤ 1 → ∀ T : ℝ,
    ∃ dt₀ > 0, ∃ δ > 0, ∃ C > 0, ∃ r > 0, C * δ ≤ r ∧ ∀ tm : Timer, 0 < tm.step →
      (tm.step : ℝ) ≤ dt₀ → ∀ c crit : ℝ, 0 ≤ c → 0 < crit → ∃ m : ℤ,
      ∀ N : Newton (Coeffs ι κ) (Coeffs ι κ),
      SolvesSteps (K.mesh R Q) ((K.mesh R Q).mask bcs) bX bZ st J s tm.step N c →
      N.damping = ω → N.crit = crit → m ≤ N.maxIter → ∀ η, 0 ≤ η → η ≤ δ →
      ∀ x0, Coeffs.Near bX bZ (consVec W.rho W.rho_u W.rho_E) η x0 →
      ∀ ts : List (ℚ × ℚ), tm.run false 1 = .ok ts → (tm.step : ℝ) * ts.length ≤ T →
      ∃ xs, transientRun (flowSystem (K.mesh R Q) ((K.mesh R Q).mask bcs) bX bZ st) s N tm x0
          = .ok ((ts.map Prod.snd).zip xs) ∧
        Satisfies (FlowStepComputed γ rs (K.mesh R Q) ((K.mesh R Q).mask bcs) cond σ
          (conservativeDict W) bX bZ st (consVec W.rho W.rho_u W.rho_E) s tm.step N (C * η) r)
          x0 x0 (ts.map Prod.fst) xs := by
  have hcond' : ∀ b, (K.mesh R Q).mask bcs b = 0 → (cond b).Admits W ((K.mesh R Q).normal b) := by
    intro b hb
    refine hcond b ?_
    by_contra h
    rw [hcov.mask_one (R := R) b h] at hb
    exact one_ne_zero hb
  have hP := spaces_fit (k := 4) (orderHat := orderHat) hK hcov hd hR hQ hRw hQw hQs ho
  exact ⟨C95_matrix hrs hW hP.mask01 hcond' σ bX bZ, flow_states hrs hW hP.mask01 hcond' σ bX bZ,
    fun J hJ st hst s ω hω hω1 T => C95_transient hrs hW hP hcond' bX bZ hst hJ s hω hω1 T⟩

/-! ### A concrete case -/

/-- C95, concrete instance: the channel of C94, made of two triangles, elements of order 2 and facets
of order 3, a sponge layer everywhere, exact linear solves, damping 1/2, and initial densities that
vary linearly. All hypotheses of `C95_triangulation` hold, and so all those of `C95_transient`
and `C95_runs`; the nonlinear solve of every step of a run over the time 1 converges. -/
example {rs : Riemann} (hrs : rs.AnyDim) (s : Scheme) : ∃ (R : VolumeRule) (Q : SideRule)
    (i k : ℕ) (bX : Module.Basis (Fin i) ℝ ((squareMesh false).spaces 4 (fun _ => 2) (fun _ => 3) R Q).element)
    (bZ : Module.Basis (Fin k) ℝ ((squareMesh false).spaces 4 (fun _ => 2) (fun _ => 3) R Q).facet)
    (st : Coeffs (Fin i) (Fin k) → HdgState 2 4 (Bool × Fin R.n) ((Bool × Fin 3) × Fin Q.n))
    (ε : ℝ), 0 < ε ∧ ∃ dt₀ > 0, ∃ Y r : ℝ, ∀ tm : Timer, 0 < tm.step → (tm.step : ℝ) ≤ dt₀ →
      ∃ (N : Newton (Coeffs (Fin i) (Fin k)) (Coeffs (Fin i) (Fin k))) (x0 : Coeffs (Fin i) (Fin k)),
      (∀ v, (elementOf bX x0.1).2.1 v = consVec (2 + ε * (squareMesh false).pos R v 0) ![2, 0] (32 / 7)) ∧
      ∀ ts : List (ℚ × ℚ), tm.run false 1 = .ok ts → (tm.step : ℝ) * ts.length ≤ 1 →
      ∃ xs, transientRun (flowSystem ((squareMesh false).mesh R Q)
          (((squareMesh false).mesh R Q).mask (squareConditions false)) bX bZ st) s N tm x0
          = .ok ((ts.map Prod.snd).zip xs) ∧
        Satisfies (FlowStepComputed (7 / 5) rs ((squareMesh false).mesh R Q)
          (((squareMesh false).mesh R Q).mask (squareConditions false)) (channelCond Q) (fun _ => 1)
          (conservativeDict channelState) bX bZ st (consVec channelState.rho channelState.rho_u
            channelState.rho_E) s tm.step N Y r) x0 x0 (ts.map Prod.fst) xs := by
  obtain ⟨⟨R, hR, hRw⟩, Q, hQ, hQw, hQs⟩ := C94_rules 4
  obtain ⟨bX, -⟩ : ∃ b : Module.Basis (Fin (Module.finrank ℝ
    ((squareMesh false).spaces 4 (fun _ => 2) (fun _ => 3) R Q).element)) ℝ
    ((squareMesh false).spaces 4 (fun _ => 2) (fun _ => 3) R Q).element, True :=
      ⟨Module.finBasis ℝ _, trivial⟩
  obtain ⟨bZ, -⟩ : ∃ b : Module.Basis (Fin (Module.finrank ℝ
    ((squareMesh false).spaces 4 (fun _ => 2) (fun _ => 3) R Q).facet)) ℝ
    ((squareMesh false).spaces 4 (fun _ => 2) (fun _ => 3) R Q).facet, True :=
      ⟨Module.finBasis ℝ _, trivial⟩
  obtain ⟨⟨J, hJ⟩, ⟨st, hst⟩, H⟩ :=
    C95_triangulation (orderHat := fun _ => 3) (squareMesh_conforming false) (squareMesh_covered false)
      (d := 4) (by norm_num) hR hQ hRw hQw hQs (order := fun _ => 2) (fun _ => le_rfl) hrs
      channelState_ideal (channel_admits Q) (fun _ => 1) bX bZ
  obtain ⟨dt₀, h1, δ, h2, C, h3, r, h4, -, h⟩ := H J hJ st hst s (1 / 2) (by norm_num) (by norm_num) 1
  obtain ⟨A, hA⟩ : ∃ A, A = ∑ v, |(squareMesh false).pos R v 0| := ⟨_, rfl⟩
  have hA0 : 0 ≤ A := hA ▸ Finset.sum_nonneg fun _ _ => abs_nonneg _
  have hAv : ∀ v, |(squareMesh false).pos R v 0| ≤ A := fun v => hA ▸
    Finset.single_le_sum (f := fun v => |(squareMesh false).pos R v 0|) (fun _ _ => abs_nonneg _)
      (Finset.mem_univ v)
  have hw : consVec channelState.rho channelState.rho_u channelState.rho_E = ![2, 2, 0, 32 / 7] := by
    funext i
    fin_cases i
    · rfl
    · show (2 : ℝ) * 1 = 2
      norm_num
    · show (2 : ℝ) * 0 = 0
      norm_num
    · show (2 : ℝ) * (25 / 14 + (![1, 0] ⬝ᵥ ![1, 0]) / 2) = 32 / 7
      norm_num [dotProduct, Fin.sum_univ_two]
  have hdeg : ∀ i, ((![MvPolynomial.C 2 + MvPolynomial.C (δ / (A + 1)) * MvPolynomial.X 0,
      MvPolynomial.C 2, 0, MvPolynomial.C (32 / 7)] : Fin 4 → MvPolynomial (Fin 2) ℝ) i).totalDegree
      ≤ 2 := by
    intro i
    fin_cases i
    · refine (MvPolynomial.totalDegree_add _ _).trans (max_le (by simp) ?_)
      exact (MvPolynomial.totalDegree_mul _ _).trans (by simp)
    all_goals simp
  obtain ⟨a, ha⟩ : ∃ a : ((squareMesh false).spaces 4 (fun _ => 2) (fun _ => 3) R Q).element,
      ∀ v, a.1.2.1 v = consVec (2 + δ / (A + 1) * (squareMesh false).pos R v 0) ![2, 0] (32 / 7) := by
    refine ⟨⟨_, ⟨fun _ => _, fun _ i => hdeg i, rfl⟩⟩, fun v => ?_⟩
    funext i
    fin_cases i <;> simp [Triangulation.elementFn]
    all_goals rfl
  have hP := spaces_fit (k := 4) (orderHat := fun _ => 3) (squareMesh_conforming false)
    (squareMesh_covered false) (d := 4) (by norm_num) hR hQ hRw hQw hQs (order := fun _ => 2)
    (fun _ => le_rfl)
  obtain ⟨x0, hx0, hx0'⟩ : ∃ x0 : Coeffs _ _, elementOf bX x0.1 = a.1 ∧ facetOf bZ x0.2
      = fun _ => consVec channelState.rho channelState.rho_u channelState.rho_E :=
    ⟨(bX.equivFun a, bZ.equivFun ⟨_, hP.constantHat _⟩), congrArg Subtype.val (bX.sum_equivFun a),
      congrArg Subtype.val (bZ.sum_equivFun _)⟩
  have hnear : Coeffs.Near bX bZ (consVec channelState.rho channelState.rho_u channelState.rho_E) δ x0 := by
    refine ⟨fun v i => ?_, fun b i => by rw [hx0', sub_self, abs_zero]; exact h2.le⟩
    rw [hx0, ha, hw]
    have h0 : |δ / (A + 1) * (squareMesh false).pos R v 0| ≤ δ := by
      rw [abs_mul, abs_of_pos (by positivity), div_mul_eq_mul_div, div_le_iff₀ (by positivity)]
      have := hAv v
      exact mul_le_mul_of_nonneg_left (by linarith) h2.le
    have e : consVec (2 + δ / (A + 1) * (squareMesh false).pos R v 0) ![2, 0] (32 / 7)
        = ![2 + δ / (A + 1) * (squareMesh false).pos R v 0, 2, 0, 32 / 7] := by
      funext i
      fin_cases i <;> rfl
    rw [e]
    fin_cases i
    · simpa using h0
    all_goals simp [h2.le]
  refine ⟨R, Q, _, _, bX, bZ, st, δ / (A + 1), by positivity, dt₀, h1, C * δ, r, fun tm hdt hdt' => ?_⟩
  obtain ⟨m, hm⟩ := h tm hdt hdt' 1 (1 / 1000) zero_le_one (by norm_num)
  obtain ⟨N, hN, hNd, hNc, hNm⟩ := flow_solver ((squareMesh false).mesh R Q)
    (((squareMesh false).mesh R Q).mask (squareConditions false)) bX bZ st J s tm.step (1 / 2)
    (1 / 1000) m
  exact ⟨N, x0, fun v => by rw [hx0, ha], fun ts hts hT =>
    hm N hN hNd hNc hNm.ge δ h2.le le_rfl x0 hnear ts hts hT⟩

end Dream
