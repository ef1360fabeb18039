import Verif.Lemmas.Bend
import Verif.Props.NewtonFlow
import Verif.Props.Stabilised

/-!
# C97: Newton's method with all Riemann solvers in two dimensions
-/

noncomputable section

namespace Dream
open Matrix Set Filter Topology _root_.Spec

variable {γ : ℝ} {V B : Type} [Fintype V] [Fintype B] {ι κ : Type} [Fintype ι] [Fintype κ]
  {P : HdgSpaces 2 4 V B} {M : HdgMesh 2 V B} {mask : B → ℝ}

/-- **C97** Newton's method computes runs near every uniform flow in two dimensions, with every Riemann
solver that acts on all waves that cross the interior facets. The conclusion is that of `C95_runs`. -/
theorem C97_newton_runs {rs : Riemann} {S : GasState 2} (hS : IdealGas γ S)
    (hP : P.Fits M mask) (hPs : P.Straight M mask)
    (hrs : ∀ b, mask b = 1 → rs.Damps (S.u ⬝ᵥ M.normal b) S.c) {cond : B → FacetCond 2}
    (hc : ∀ b, mask b = 0 → (cond b).Admits S (M.normal b)) {σ : V → ℝ}
    (bX : Module.Basis ι ℝ P.element) (bZ : Module.Basis κ ℝ P.facet)
    {st : Coeffs ι κ → HdgState 2 4 V B}
    (hst : ∀ x, Coeffs.AreGas (n := 2) γ bX bZ x → (st x).IsFlow γ rs M mask cond σ (conservativeDict S)
      (elementOf (n := 2) bX x.1) (facetOf (n := 2) bZ x.2))
    {J : Coeffs ι κ → Coeffs ι κ →L[ℝ] Coeffs ι κ}
    (hJ : IsFlowMatrix (n := 2) γ rs M mask cond σ (conservativeDict S) bX bZ J) (s : Scheme) {ω : ℝ}
    (hω : 0 < ω) (hω1 : ω ≤ 1) (T : ℝ) :
    ∃ dt₀ > 0, ∃ δ > 0, ∃ C > 0, ∃ r > 0, C * δ ≤ r ∧ ∀ dt, 0 < dt → dt ≤ dt₀ → ∀ c crit : ℝ,
      0 ≤ c → 0 < crit → ∃ m : ℤ, ∀ N : Newton (Coeffs ι κ) (Coeffs ι κ),
      SolvesSteps (n := 2) M mask bX bZ st J s dt N c → N.damping = ω → N.crit = crit → m ≤ N.maxIter →
      ∀ η, 0 ≤ η → η ≤ δ → ∀ cur prev,
      Coeffs.Near (n := 2) bX bZ (consVec S.rho S.rho_u S.rho_E) η cur →
      Coeffs.Near (n := 2) bX bZ (consVec S.rho S.rho_u S.rho_E) η prev →
      ∀ ts : List ℚ, dt * ts.length ≤ T →
        Satisfies (FlowStepComputed (n := 2) γ rs M mask cond σ (conservativeDict S) bX bZ st
          (consVec S.rho S.rho_u S.rho_E) s dt N (C * η) r) prev cur ts (trajectory
          (fun t cur prev => (N.solve ((flowSystem (n := 2) M mask bX bZ st).stepEquation
            (s.quotient dt) t cur prev) cur).u) prev cur ts) :=
  newton_of_fits (n := 2) hS hP hc bX bZ hst hJ s (fits_of_damps hP hPs hS hrs) hω hω1 T

/-- **C97** The same for the transient routine of the solver. The conclusion is that of
`C95_transient`. -/
theorem C97_newton_transient {rs : Riemann} {S : GasState 2} (hS : IdealGas γ S)
    (hP : P.Fits M mask) (hPs : P.Straight M mask)
    (hrs : ∀ b, mask b = 1 → rs.Damps (S.u ⬝ᵥ M.normal b) S.c) {cond : B → FacetCond 2}
    (hc : ∀ b, mask b = 0 → (cond b).Admits S (M.normal b)) {σ : V → ℝ}
    (bX : Module.Basis ι ℝ P.element) (bZ : Module.Basis κ ℝ P.facet)
    {st : Coeffs ι κ → HdgState 2 4 V B}
    (hst : ∀ x, Coeffs.AreGas (n := 2) γ bX bZ x → (st x).IsFlow γ rs M mask cond σ (conservativeDict S)
      (elementOf (n := 2) bX x.1) (facetOf (n := 2) bZ x.2))
    {J : Coeffs ι κ → Coeffs ι κ →L[ℝ] Coeffs ι κ}
    (hJ : IsFlowMatrix (n := 2) γ rs M mask cond σ (conservativeDict S) bX bZ J) (s : Scheme) {ω : ℝ}
    (hω : 0 < ω) (hω1 : ω ≤ 1) (T : ℝ) :
    ∃ dt₀ > 0, ∃ δ > 0, ∃ C > 0, ∃ r > 0, C * δ ≤ r ∧ ∀ tm : Timer, 0 < tm.step →
      (tm.step : ℝ) ≤ dt₀ → ∀ c crit : ℝ, 0 ≤ c → 0 < crit → ∃ m : ℤ,
      ∀ N : Newton (Coeffs ι κ) (Coeffs ι κ), SolvesSteps (n := 2) M mask bX bZ st J s tm.step N c →
      N.damping = ω → N.crit = crit → m ≤ N.maxIter → ∀ η, 0 ≤ η → η ≤ δ →
      ∀ x0, Coeffs.Near (n := 2) bX bZ (consVec S.rho S.rho_u S.rho_E) η x0 →
      ∀ ts : List (ℚ × ℚ), tm.run false 1 = .ok ts → (tm.step : ℝ) * ts.length ≤ T →
      ∃ xs, transientRun (flowSystem (n := 2) M mask bX bZ st) s N tm x0
          = .ok ((ts.map Prod.snd).zip xs) ∧
        Satisfies (FlowStepComputed (n := 2) γ rs M mask cond σ (conservativeDict S) bX bZ st
          (consVec S.rho S.rho_u S.rho_E) s tm.step N (C * η) r) x0 x0 (ts.map Prod.fst) xs :=
  newton_transient_of_fits (n := 2) hS hP hc bX bZ hst hJ s (fits_of_damps hP hPs hS hrs) hω hω1 T

/-- **C97** The matrix exists for every Riemann solver: at every state the numerical fluxes have at most
one kink, and one of the two one-sided derivatives of each component depends linearly on the
direction. -/
theorem C97_matrix (rs : Riemann) {S : GasState 2} (hS : IdealGas γ S) (hP : P.Fits M mask)
    {cond : B → FacetCond 2} (hc : ∀ b, mask b = 0 → (cond b).Admits S (M.normal b)) (σ : V → ℝ)
    (bX : ι → P.element) (bZ : κ → P.facet) :
    ∃ J, IsFlowMatrix (n := 2) γ rs M mask cond σ (conservativeDict S) bX bZ J := by
  classical
  have h : ∀ b p, ∃ l : (Fin 4 → ℝ) × (Fin 4 → ℝ) →L[ℝ] Fin 4 → ℝ, GasVec (n := 2) p.2 → ∀ q i,
      OneSided (fun τ : ℝ => stabFlux γ rs (M.normal b) (p + τ • q) i) (l q i) := by
    intro b p
    by_cases hp : GasVec (n := 2) p.2
    · obtain ⟨l, hl⟩ := stabFlux_oneSided hS.gamma rs (M.normal b) hp
      exact ⟨l, fun _ => hl⟩
    · exact ⟨0, fun h => (hp h).elim⟩
  choose A hA using h
  exact ⟨_, branchMatrix_isFlowMatrix (n := 2) (A := A) (N := fun b => stabFlux γ rs (M.normal b)) hS
    (fun b u _ h => stabFlux_eq hS.gamma rs (hP.unit b) u h) (fun b p q i hp => hA b p hp q i) hP.mask01 hc
    bX bZ⟩

/-- **C97** Where the gas flows along interior facets (or is at rest), Roe, Upwind and HLLEM without
threshold make the matrix of every step singular at the uniform flow: if a facet function varies there
in density at constant velocity and pressure, and vanishes elsewhere, the matrix of the spatial terms
and that of the step map its coefficients to zero. -/
theorem C97_fails_newton {rs : Riemann} (hrs : rs.Keeps) {S : GasState 2} (hS : IdealGas γ S)
    (hP : P.Fits M mask) {cond : B → FacetCond 2}
    (hc : ∀ b, mask b = 0 → (cond b).Admits S (M.normal b)) (σ : V → ℝ)
    (bX : Module.Basis ι ℝ P.element) (bZ : Module.Basis κ ℝ P.facet)
    {J : Coeffs ι κ → Coeffs ι κ →L[ℝ] Coeffs ι κ}
    (hJ : IsFlowMatrix (n := 2) γ rs M mask cond σ (conservativeDict S) bX bZ J) {x0 : Coeffs ι κ}
    (hx : elementOf (n := 2) bX x0.1 = (0, fun _ => consVec S.rho S.rho_u S.rho_E,
      fun _ => consVec S.rho S.rho_u S.rho_E))
    (hz : facetOf (n := 2) bZ x0.2 = fun _ => consVec S.rho S.rho_u S.rho_E)
    {f : B → ℝ} (hf : ∀ b, f b ≠ 0 → mask b = 1 ∧ S.u ⬝ᵥ M.normal b = 0) {b₀ : B} (hb₀ : f b₀ ≠ 0)
    (hfP : (fun b => consVec (f b) (f b • S.u) (f b * ((S.u ⬝ᵥ S.u) / 2))) ∈ P.facet) :
    ∃ v : Coeffs ι κ, v ≠ 0 ∧ J x0 v = 0 ∧
      ∀ (st : Coeffs ι κ → HdgState 2 4 V B) (s : Scheme) (dt : ℝ),
        J x0 v + (flowSystem (n := 2) M mask bX bZ st).mass (fun i => s.leading dt * v.1 i) = 0 := by
  classical
  have hγ := hS.gamma
  have hcv : ∀ b, consVec (f b) (f b • S.u) (f b * ((S.u ⬝ᵥ S.u) / 2)) = f b • contactVec S.u := by
    intro b
    refine cons_ext ?_ (fun i => ?_) ?_
    · simp [contactVec]
    · simp [contactVec]
    · simp only [Pi.smul_apply, contactVec, consVec_last, smul_eq_mul]
  obtain ⟨v, hv⟩ : ∃ v : Coeffs ι κ, v = (0, bZ.equivFun ⟨_, hfP⟩) := ⟨_, rfl⟩
  have hv1 : elementOf (n := 2) bX v.1 = 0 := by rw [hv]; simp [elementOf]
  have hv2 : facetOf (n := 2) bZ v.2 = fun b => f b • contactVec S.u := by
    rw [hv]
    have : facetOf (n := 2) bZ (bZ.equivFun ⟨_, hfP⟩) = _ := congrArg Subtype.val (bZ.sum_equivFun ⟨_, hfP⟩)
    exact this.trans (funext hcv)
  have hgas : Coeffs.AreGas (n := 2) γ bX bZ x0 := by
    refine ⟨fun _ => ⟨S, hS, ?_⟩, fun _ => ⟨S, hS, ?_⟩, fun _ => ⟨S, hS, ?_⟩⟩
    · rw [hx]
    · rw [hx]
    · rw [hz]
  obtain ⟨x', ⟨y, hy, hG, hGn, h1, h2, h3, h4⟩, hJv⟩ := hJ x0 hgas v
  obtain ⟨x, -, -, hxf⟩ := C97_fails_facets hrs hS hP hc σ
  have hconst : ∀ᶠ τ in 𝓝 (0 : ℝ), y τ = x := by
    have hpos : ∀ᶠ τ in 𝓝 (0 : ℝ), ∀ b, 0 < S.rho + τ * f b := by
      refine eventually_all.2 fun b => ?_
      have hcont : ContinuousAt (fun τ : ℝ => S.rho + τ * f b) 0 := by fun_prop
      refine hcont.eventually (lt_mem_nhds ?_)
      simpa using hS.rho_pos
    filter_upwards [hy, hpos] with τ e1 e2
    have e3 := hxf (fun b => τ * f b) (fun b h => hf b fun h0 => h (by rw [h0, mul_zero])) e2
    have e4 : facetOf (n := 2) bZ x0.2 + τ • facetOf (n := 2) bZ v.2
        = fun b => consVec (S.rho + τ * f b) ((S.rho + τ * f b) • S.u)
          (S.rho_E + τ * f b * ((S.u ⬝ᵥ S.u) / 2)) := by
      rw [hz, hv2]
      funext b
      rw [← contact_eq hS]
      simp [smul_smul]
    rw [e4, hv1, smul_zero, add_zero, hx] at e1
    have hζ : ∀ b, GasVec (n := 2) (consVec (S.rho + τ * f b) ((S.rho + τ * f b) • S.u)
        (S.rho_E + τ * f b * ((S.u ⬝ᵥ S.u) / 2))) := fun b => contact_gas hS (e2 b)
    have hg := gasVec_of hS
    have hiff := isFlowN_iff (n := 2) hγ (rs := rs) (M := M) (mask := mask)
      (N := fun b => stabFlux γ rs (M.normal b))
      (fun b u _ h => stabFlux_eq hγ rs (hP.unit b) u h) hP.mask01 hc σ
      (a := (0, fun _ => consVec S.rho S.rho_u S.rho_E, fun _ => consVec S.rho S.rho_u S.rho_E))
      (ζ := fun b => consVec (S.rho + τ * f b) ((S.rho + τ * f b) • S.u)
        (S.rho_E + τ * f b * ((S.u ⬝ᵥ S.u) / 2))) (fun _ => hg) (fun _ => hg) hζ
    exact ((hiff _).1 e1).trans ((hiff _).1 e3).symm
  have hF : ∀ w i j, x'.F w i j = 0 := fun w i j =>
    (h1 w i j).unique ((hasDerivAt_const (0 : ℝ) (x.F w i j)).congr_of_eventuallyEq
      (hconst.mono fun τ e => by simp only [e]))
  have hFn : ∀ b i, x'.Fn b i = 0 := fun b i =>
    (h2 b i).eq ((hasDerivAt_const (0 : ℝ) (x.Fn b i)).congr_of_eventuallyEq
      (hconst.mono fun τ e => by simp only [e]))
  have hR : ∀ b i, x'.R b i = 0 := fun b i =>
    (h3 b i).unique ((hasDerivAt_const (0 : ℝ) (x.R b i)).congr_of_eventuallyEq
      (hconst.mono fun τ e => by simp only [e]))
  have hs : ∀ w i, x'.source w i = 0 := fun w i =>
    (h4 w i).unique ((hasDerivAt_const (0 : ℝ) (x.source w i)).congr_of_eventuallyEq
      (hconst.mono fun τ e => by simp only [e]))
  have hJ0 : J x0 v = 0 := by
    rw [hJv, flowVec_eq (n := 2) bX bZ hG hGn]
    have e : ((fun v i j => x'.F v i j, x'.Fn, x'.R, x'.source) : FluxData 2 V B) = 0 :=
      Prod.ext (funext fun w => funext fun i => funext fun j => hF w i j)
        (Prod.ext (funext fun b => funext fun i => hFn b i)
          (Prod.ext (funext fun b => funext fun i => hR b i) (funext fun w => funext fun i => hs w i)))
    rw [e, map_zero]
  refine ⟨v, ?_, hJ0, fun st s dt => ?_⟩
  · intro h0
    have e1 : facetOf (n := 2) bZ v.2 = 0 := by rw [h0]; simp [facetOf]
    rw [hv2] at e1
    have e2 := congrFun (congrFun e1 b₀) 0
    simp only [Pi.smul_apply, contactVec, consVec_zero, smul_eq_mul, mul_one, Pi.zero_apply] at e2
    exact hb₀ e2
  · rw [hJ0, zero_add]
    have e : (fun i => s.leading dt * v.1 i) = 0 := by rw [hv]; simp; rfl
    rw [e, flow_mass (n := 2), map_zero]
    rfl

/-! ### Triangulations -/

/-- **C97** On every conforming triangulation: there are a matrix of the spatial terms, discrete flows and
linear solvers, and with all of them the transient routine computes runs near uniform flow. The
conclusion is that of `C95_triangulation`. -/
theorem C97_newton_triangulation {E : Type} [Fintype E] {K : Triangulation E} {R : VolumeRule} {Q : SideRule}
    (hK : K.Conforming) {bcs : Conditions} (hcov : K.Covered bcs) {d : ℕ} (hd : 1 ≤ d)
    (hR : R.Exact d) (hQ : Q.Exact d) (hRw : ∀ q, 0 < R.w q) (hQw : ∀ q, 0 < Q.w q)
    (hQs : Q.Symmetric) {order : E → ℕ} {orderHat : E × Fin 3 → ℕ} (ho : ∀ e, 2 * order e ≤ d)
    {rs : Riemann} {W : GasState 2} (hW : IdealGas γ W)
    (hrs : ∀ x, K.across x ≠ none → rs.Damps (W.u ⬝ᵥ K.normal x) W.c)
    {cond : (E × Fin 3) × Fin Q.n → FacetCond 2}
    (hcond : ∀ b, K.across b.1 = none → (cond b).Admits W (K.normal b.1))
    (σ : E × Fin R.n → ℝ) (bX : Module.Basis ι ℝ (K.spaces 4 order orderHat R Q).element)
    (bZ : Module.Basis κ ℝ (K.spaces 4 order orderHat R Q).facet) :
    (∃ J, IsFlowMatrix γ rs (K.mesh R Q) ((K.mesh R Q).mask bcs) cond σ (conservativeDict W) bX bZ J) ∧
    (∃ st : Coeffs ι κ → HdgState 2 4 (E × Fin R.n) ((E × Fin 3) × Fin Q.n),
      ∀ x, Coeffs.AreGas γ bX bZ x → (st x).IsFlow γ rs (K.mesh R Q) ((K.mesh R Q).mask bcs) cond σ
        (conservativeDict W) (elementOf bX x.1) (facetOf bZ x.2)) ∧
    ∀ J, IsFlowMatrix γ rs (K.mesh R Q) ((K.mesh R Q).mask bcs) cond σ (conservativeDict W) bX bZ J →
    ∀ st : Coeffs ι κ → HdgState 2 4 (E × Fin R.n) ((E × Fin 3) × Fin Q.n),
      (∀ x, Coeffs.AreGas γ bX bZ x → (st x).IsFlow γ rs (K.mesh R Q) ((K.mesh R Q).mask bcs) cond σ
        (conservativeDict W) (elementOf bX x.1) (facetOf bZ x.2)) →
    ∀ (s : Scheme) (ω : ℝ), 0 < ω → ω ≤ 1 → ∀ T : ℝ,
    ∃ dt₀ > 0, ∃ δ > 0, ∃ C > 0, ∃ r > 0, C * δ ≤ r ∧ ∀ tm : Timer, 0 < tm.step →
      (tm.step : ℝ) ≤ dt₀ → ∀ c crit : ℝ, 0 ≤ c → 0 < crit → ∃ m : ℤ,
      ∀ N : Newton (Coeffs ι κ) (Coeffs ι κ),
      SolvesSteps (K.mesh R Q) ((K.mesh R Q).mask bcs) bX bZ st J s tm.step N c →
      N.damping = ω → N.crit = crit → m ≤ N.maxIter → ∀ η, 0 ≤ η → η ≤ δ →
      ∀ x0, Coeffs.Near bX bZ (consVec W.rho W.rho_u W.rho_E) η x0 →
      ∀ ts : List (ℚ × ℚ), tm.run false 1 = .ok ts → (tm.step : ℝ) * ts.length ≤ T →
      ∃ xs, transientRun (flowSystem (K.mesh R Q) ((K.mesh R Q).mask bcs) bX bZ st) s N tm x0
          = .ok ((ts.map Prod.snd).zip xs) ∧
        Satisfies (FlowStepComputed γ rs (K.mesh R Q) ((K.mesh R Q).mask bcs) cond σ
          (conservativeDict W) bX bZ st (consVec W.rho W.rho_u W.rho_E) s tm.step N (C * η) r)
          x0 x0 (ts.map Prod.fst) xs := by
  have hcond' : ∀ b, (K.mesh R Q).mask bcs b = 0 → (cond b).Admits W ((K.mesh R Q).normal b) := by
    intro b hb
    refine hcond b ?_
    by_contra h
    rw [hcov.mask_one (R := R) b h] at hb
    exact one_ne_zero hb
  have hP := spaces_fit (k := 4) (orderHat := orderHat) hK hcov hd hR hQ hRw hQw hQs ho
  have hrs' : ∀ b, (K.mesh R Q).mask bcs b = 1 → rs.Damps (W.u ⬝ᵥ (K.mesh R Q).normal b) W.c := by
    intro b hb
    refine hrs b.1 fun h => ?_
    rw [hcov.mask_zero (R := R) b h] at hb
    exact zero_ne_one hb
  exact ⟨C97_matrix rs hW hP hcond' σ bX bZ,
    flow_statesN (n := 2) (N := fun b => stabFlux γ rs ((K.mesh R Q).normal b))
      (fun b u _ h => stabFlux_eq hW.gamma rs (hP.unit b) u h) hW hP.mask01 hcond' σ bX bZ,
    fun J hJ st hst s ω hω hω1 T => C97_newton_transient hW hP (spaces_straight hK hcov) hrs' hcond' bX bZ
      hst hJ s hω hω1 T⟩

/-- **C97** On a triangulation: if the gas flows along one inner side, the matrices of all steps are
singular at the uniform flow, whatever the bases, the matrix `J` of the spatial terms, the scheme and
the step. -/
theorem C97_fails_newton_triangulation {E : Type} [Fintype E] {K : Triangulation E} {R : VolumeRule}
    {Q : SideRule} (hK : K.Conforming) {bcs : Conditions} (hcov : K.Covered bcs) {d : ℕ} (hd : 1 ≤ d)
    (hR : R.Exact d) (hQ : Q.Exact d) (hRw : ∀ q, 0 < R.w q) (hQw : ∀ q, 0 < Q.w q)
    (hQs : Q.Symmetric) {order : E → ℕ} {orderHat : E × Fin 3 → ℕ} (ho : ∀ e, 2 * order e ≤ d)
    {rs : Riemann} (hrs : rs.Keeps) {W : GasState 2} (hW : IdealGas γ W)
    {cond : (E × Fin 3) × Fin Q.n → FacetCond 2}
    (hcond : ∀ b, K.across b.1 = none → (cond b).Admits W (K.normal b.1))
    (σ : E × Fin R.n → ℝ) {x₁ : E × Fin 3} (hx : K.across x₁ ≠ none) (hu : W.u ⬝ᵥ K.normal x₁ = 0)
    (hn : 0 < Q.n)
    (bX : Module.Basis ι ℝ (K.spaces 4 order orderHat R Q).element)
    (bZ : Module.Basis κ ℝ (K.spaces 4 order orderHat R Q).facet)
    {J : Coeffs ι κ → Coeffs ι κ →L[ℝ] Coeffs ι κ}
    (hJ : IsFlowMatrix (n := 2) γ rs (K.mesh R Q) ((K.mesh R Q).mask bcs) cond σ (conservativeDict W)
      bX bZ J) {x0 : Coeffs ι κ}
    (hx0 : elementOf (n := 2) bX x0.1 = (0, fun _ => consVec W.rho W.rho_u W.rho_E,
      fun _ => consVec W.rho W.rho_u W.rho_E))
    (hz0 : facetOf (n := 2) bZ x0.2 = fun _ => consVec W.rho W.rho_u W.rho_E)
    (st : Coeffs ι κ → HdgState 2 4 (E × Fin R.n) ((E × Fin 3) × Fin Q.n)) (s : Scheme) (dt : ℝ) :
    ¬ Function.Injective fun v => J x0 v + (flowSystem (n := 2) (K.mesh R Q) ((K.mesh R Q).mask bcs)
      bX bZ st).mass (fun i => s.leading dt * v.1 i) := by
  classical
  have hcond' : ∀ b, (K.mesh R Q).mask bcs b = 0 → (cond b).Admits W ((K.mesh R Q).normal b) := by
    intro b hb
    refine hcond b ?_
    by_contra h
    rw [hcov.mask_one (R := R) b h] at hb
    exact one_ne_zero hb
  have hP := spaces_fit (k := 4) (orderHat := orderHat) hK hcov hd hR hQ hRw hQw hQs ho
  obtain ⟨y₁, hy⟩ := Option.ne_none_iff_exists'.1 hx
  have hy' := hK.symm _ _ hy
  let g : E × Fin 3 → ℝ := fun x => if x = x₁ ∨ x = y₁ then 1 else 0
  have hga : ∀ x y, K.across x = some y → g y = g x := by
    intro x y h
    have e : (y = x₁ ∨ y = y₁) ↔ (x = x₁ ∨ x = y₁) := by
      have h' := hK.symm _ _ h
      constructor
      · rintro (rfl | rfl)
        · rw [hy] at h'
          exact .inr (Option.some.inj h').symm
        · rw [hy'] at h'
          exact .inl (Option.some.inj h').symm
      · rintro (rfl | rfl)
        · rw [hy] at h
          exact .inr (Option.some.inj h).symm
        · rw [hy'] at h
          exact .inl (Option.some.inj h).symm
    simp only [g, e]
  obtain ⟨v, hv, hv0, hv1⟩ := C97_fails_newton hrs hW hP hcond' σ bX bZ hJ hx0 hz0
    (f := fun b => g b.1) (fun b h => by
      have hb : b.1 = x₁ ∨ b.1 = y₁ := by
        by_contra hn
        exact h (by simp [g, hn])
      constructor
      · refine hcov.mask_one (R := R) b ?_
        rcases hb with e | e
        · rwa [e]
        · rw [e, hy']
          simp
      · show W.u ⬝ᵥ K.normal b.1 = 0
        rcases hb with e | e
        · rwa [e]
        · rw [e, (across_normal hK hy).2, dotProduct_neg, hu, neg_zero])
    (b₀ := (x₁, ⟨0, hn⟩)) (by simp [g]) (by
      refine ⟨fun x i => Polynomial.C (consVec (g x) (g x • W.u) (g x * ((W.u ⬝ᵥ W.u) / 2)) i), ?_, ?_, ?_⟩
      · intro x i
        rw [Polynomial.natDegree_C]
        exact Nat.zero_le _
      · intro x y h i
        simp only [hga x y h, Polynomial.C_comp]
      · funext b i
        simp)
  intro hinj
  refine hv (hinj ?_)
  refine (hv1 st s dt).trans ?_
  have e : (fun i => s.leading dt * (0 : Coeffs ι κ).1 i) = 0 := by
    funext i
    simp
  show 0 = J x0 0 + (flowSystem (n := 2) (K.mesh R Q) ((K.mesh R Q).mask bcs) bX bZ st).mass
    (fun i => s.leading dt * (0 : Coeffs ι κ).1 i)
  rw [e, flow_mass (n := 2), map_zero, map_zero, zero_add]
  rfl

/-! ### Concrete cases -/

/-- C97, concrete instance: the channel of C94, made of two triangles, elements of order 2 and facets
of order 3, a sponge layer everywhere, exact linear solves, damping 1/2, and initial densities that
vary linearly, for all Riemann solvers. All hypotheses of `C97_newton_triangulation` hold, and so all those of `C97_newton_transient`
and `C97_newton_runs`; the nonlinear solve of every step of a run over the time 1 converges. -/
example (rs : Riemann) (s : Scheme) : ∃ (R : VolumeRule) (Q : SideRule)
    (i k : ℕ) (bX : Module.Basis (Fin i) ℝ ((squareMesh false).spaces 4 (fun _ => 2) (fun _ => 3) R Q).element)
    (bZ : Module.Basis (Fin k) ℝ ((squareMesh false).spaces 4 (fun _ => 2) (fun _ => 3) R Q).facet)
    (st : Coeffs (Fin i) (Fin k) → HdgState 2 4 (Bool × Fin R.n) ((Bool × Fin 3) × Fin Q.n))
    (ε : ℝ), 0 < ε ∧ ∃ dt₀ > 0, ∃ Y r : ℝ, ∀ tm : Timer, 0 < tm.step → (tm.step : ℝ) ≤ dt₀ →
      ∃ (N : Newton (Coeffs (Fin i) (Fin k)) (Coeffs (Fin i) (Fin k))) (x0 : Coeffs (Fin i) (Fin k)),
      (∀ v, (elementOf bX x0.1).2.1 v = consVec (2 + ε * (squareMesh false).pos R v 0) ![2, 0] (32 / 7)) ∧
      ∀ ts : List (ℚ × ℚ), tm.run false 1 = .ok ts → (tm.step : ℝ) * ts.length ≤ 1 →
      ∃ xs, transientRun (flowSystem ((squareMesh false).mesh R Q)
          (((squareMesh false).mesh R Q).mask (squareConditions false)) bX bZ st) s N tm x0
          = .ok ((ts.map Prod.snd).zip xs) ∧
        Satisfies (FlowStepComputed (7 / 5) rs ((squareMesh false).mesh R Q)
          (((squareMesh false).mesh R Q).mask (squareConditions false)) (channelCond Q) (fun _ => 1)
          (conservativeDict channelState) bX bZ st (consVec channelState.rho channelState.rho_u
            channelState.rho_E) s tm.step N Y r) x0 x0 (ts.map Prod.fst) xs := by
  obtain ⟨⟨R, hR, hRw⟩, Q, hQ, hQw, hQs⟩ := C94_rules 4
  obtain ⟨bX, -⟩ : ∃ b : Module.Basis (Fin (Module.finrank ℝ
    ((squareMesh false).spaces 4 (fun _ => 2) (fun _ => 3) R Q).element)) ℝ
    ((squareMesh false).spaces 4 (fun _ => 2) (fun _ => 3) R Q).element, True :=
      ⟨Module.finBasis ℝ _, trivial⟩
  obtain ⟨bZ, -⟩ : ∃ b : Module.Basis (Fin (Module.finrank ℝ
    ((squareMesh false).spaces 4 (fun _ => 2) (fun _ => 3) R Q).facet)) ℝ
    ((squareMesh false).spaces 4 (fun _ => 2) (fun _ => 3) R Q).facet, True :=
      ⟨Module.finBasis ℝ _, trivial⟩
  obtain ⟨⟨J, hJ⟩, ⟨st, hst⟩, H⟩ :=
    C97_newton_triangulation (orderHat := fun _ => 3) (squareMesh_conforming false) (squareMesh_covered false)
      (d := 4) (by norm_num) hR hQ hRw hQw hQs (order := fun _ => 2) (fun _ => le_rfl)
      channelState_ideal (channel_damps rs) (channel_admits Q) (fun _ => 1) bX bZ
  obtain ⟨dt₀, h1, δ, h2, C, h3, r, h4, -, h⟩ := H J hJ st hst s (1 / 2) (by norm_num) (by norm_num) 1
  obtain ⟨A, hA⟩ : ∃ A, A = ∑ v, |(squareMesh false).pos R v 0| := ⟨_, rfl⟩
  have hA0 : 0 ≤ A := hA ▸ Finset.sum_nonneg fun _ _ => abs_nonneg _
  have hAv : ∀ v, |(squareMesh false).pos R v 0| ≤ A := fun v => hA ▸
    Finset.single_le_sum (f := fun v => |(squareMesh false).pos R v 0|) (fun _ _ => abs_nonneg _)
      (Finset.mem_univ v)
  have hw : consVec channelState.rho channelState.rho_u channelState.rho_E = ![2, 2, 0, 32 / 7] := by
    funext i
    fin_cases i
    · rfl
    · show (2 : ℝ) * 1 = 2
      norm_num
    · show (2 : ℝ) * 0 = 0
      norm_num
    · show (2 : ℝ) * (25 / 14 + (![1, 0] ⬝ᵥ ![1, 0]) / 2) = 32 / 7
      norm_num [dotProduct, Fin.sum_univ_two]
  have hdeg : ∀ i, ((![MvPolynomial.C 2 + MvPolynomial.C (δ / (A + 1)) * MvPolynomial.X 0,
      MvPolynomial.C 2, 0, MvPolynomial.C (32 / 7)] : Fin 4 → MvPolynomial (Fin 2) ℝ) i).totalDegree
      ≤ 2 := by
    intro i
    fin_cases i
    · refine (MvPolynomial.totalDegree_add _ _).trans (max_le (by simp) ?_)
      exact (MvPolynomial.totalDegree_mul _ _).trans (by simp)
    all_goals simp
  obtain ⟨a, ha⟩ : ∃ a : ((squareMesh false).spaces 4 (fun _ => 2) (fun _ => 3) R Q).element,
      ∀ v, a.1.2.1 v = consVec (2 + δ / (A + 1) * (squareMesh false).pos R v 0) ![2, 0] (32 / 7) := by
    refine ⟨⟨_, ⟨fun _ => _, fun _ i => hdeg i, rfl⟩⟩, fun v => ?_⟩
    funext i
    fin_cases i <;> simp [Triangulation.elementFn]
    all_goals rfl
  have hP := spaces_fit (k := 4) (orderHat := fun _ => 3) (squareMesh_conforming false)
    (squareMesh_covered false) (d := 4) (by norm_num) hR hQ hRw hQw hQs (order := fun _ => 2)
    (fun _ => le_rfl)
  obtain ⟨x0, hx0, hx0'⟩ : ∃ x0 : Coeffs _ _, elementOf bX x0.1 = a.1 ∧ facetOf bZ x0.2
      = fun _ => consVec channelState.rho channelState.rho_u channelState.rho_E :=
    ⟨(bX.equivFun a, bZ.equivFun ⟨_, hP.constantHat _⟩), congrArg Subtype.val (bX.sum_equivFun a),
      congrArg Subtype.val (bZ.sum_equivFun _)⟩
  have hnear : Coeffs.Near bX bZ (consVec channelState.rho channelState.rho_u channelState.rho_E) δ x0 := by
    refine ⟨fun v i => ?_, fun b i => by rw [hx0', sub_self, abs_zero]; exact h2.le⟩
    rw [hx0, ha, hw]
    have h0 : |δ / (A + 1) * (squareMesh false).pos R v 0| ≤ δ := by
      rw [abs_mul, abs_of_pos (by positivity), div_mul_eq_mul_div, div_le_iff₀ (by positivity)]
      have := hAv v
      exact mul_le_mul_of_nonneg_left (by linarith) h2.le
    have e : consVec (2 + δ / (A + 1) * (squareMesh false).pos R v 0) ![2, 0] (32 / 7)
        = ![2 + δ / (A + 1) * (squareMesh false).pos R v 0, 2, 0, 32 / 7] := by
      funext i
      fin_cases i <;> rfl
    rw [e]
    fin_cases i
    · simpa using h0
    all_goals simp [h2.le]
  refine ⟨R, Q, _, _, bX, bZ, st, δ / (A + 1), by positivity, dt₀, h1, C * δ, r, fun tm hdt hdt' => ?_⟩
  obtain ⟨m, hm⟩ := h tm hdt hdt' 1 (1 / 1000) zero_le_one (by norm_num)
  obtain ⟨N, hN, hNd, hNc, hNm⟩ := flow_solver ((squareMesh false).mesh R Q)
    (((squareMesh false).mesh R Q).mask (squareConditions false)) bX bZ st J s tm.step (1 / 2)
    (1 / 1000) m
  exact ⟨N, x0, fun v => by rw [hx0, ha], fun ts hts hT =>
    hm N hN hNd hNc hNm.ge δ h2.le le_rfl x0 hnear ts hts hT⟩

/-- C97, concrete instance of the failure: the square with gas at rest, the diagonal, walls, order 2, all
bases. The matrix `J` and the coefficients `x0` of the uniform flow exist. -/
example {rs : Riemann} (hrs : rs.Keeps) : ∃ (R : VolumeRule) (Q : SideRule),
    ∀ {ι κ : Type} [Fintype ι] [Fintype κ]
    (bX : Module.Basis ι ℝ ((squareMesh false).spaces 4 (fun _ => 2) (fun _ => 3) R Q).element)
    (bZ : Module.Basis κ ℝ ((squareMesh false).spaces 4 (fun _ => 2) (fun _ => 3) R Q).facet)
    (st : Coeffs ι κ → HdgState 2 4 (Bool × Fin R.n) ((Bool × Fin 3) × Fin Q.n)),
    ∃ J x0, IsFlowMatrix (n := 2) (7 / 5) rs ((squareMesh false).mesh R Q)
      (((squareMesh false).mesh R Q).mask (squareConditions false)) (fun _ => .wall) (fun _ => 1)
      (conservativeDict (GasState.of (7 / 5) 2 0 (25 / 14))) bX bZ J ∧
      ∀ (s : Scheme) (dt : ℝ), ¬ Function.Injective fun v => J x0 v
        + (flowSystem (n := 2) ((squareMesh false).mesh R Q)
          (((squareMesh false).mesh R Q).mask (squareConditions false)) bX bZ st).mass
            (fun i => s.leading dt * v.1 i) := by
  obtain ⟨⟨R, hR, hRw⟩, Q, hQ, hQw, hQs⟩ := C94_rules 4
  have hn : 0 < Q.n := by
    by_contra h
    have h0 : Q.n = 0 := by omega
    have := hQ 1 (by simp)
    have hE : IsEmpty (Fin Q.n) := by rw [h0]; infer_instance
    simp at this
  refine ⟨R, Q, fun bX bZ st => ?_⟩
  obtain ⟨W, hWe⟩ : ∃ W : GasState 2, W = GasState.of (7 / 5) 2 0 (25 / 14) := ⟨_, rfl⟩
  have hu : W.u = 0 := by rw [hWe]; rfl
  have hW : IdealGas (7 / 5) W := hWe ▸ IdealGas.of (γ := 7 / 5) (rho := 2) (u := 0) (Ei := 25 / 14)
        (by norm_num) (by norm_num) (by norm_num)
  rw [← hWe]
  have hP := spaces_fit (k := 4) (orderHat := fun _ => 3) (squareMesh_conforming false)
    (squareMesh_covered false) (d := 4) (by norm_num) hR hQ hRw hQw hQs (order := fun _ => 2)
    (fun _ => le_rfl)
  obtain ⟨J, hJ⟩ := C97_matrix rs hW hP (cond := fun _ => .wall)
    (fun b _ => by rw [FacetCond.Admits, hu, zero_dotProduct]) (fun _ => 1) bX bZ
  obtain ⟨x0, hx0, hz0⟩ : ∃ x0 : Coeffs _ _, elementOf (n := 2) bX x0.1
      = (0, fun _ => consVec W.rho W.rho_u W.rho_E, fun _ => consVec W.rho W.rho_u W.rho_E) ∧
      facetOf (n := 2) bZ x0.2 = fun _ => consVec W.rho W.rho_u W.rho_E :=
    ⟨(bX.equivFun ⟨_, hP.constant (consVec W.rho W.rho_u W.rho_E)⟩,
      bZ.equivFun ⟨_, hP.constantHat (consVec W.rho W.rho_u W.rho_E)⟩),
      congrArg Subtype.val (bX.sum_equivFun _), congrArg Subtype.val (bZ.sum_equivFun _)⟩
  refine ⟨J, x0, hJ, fun s dt => ?_⟩
  exact C97_fails_newton_triangulation (squareMesh_conforming false)
    (squareMesh_covered false) (d := 4) (by norm_num) hR hQ hRw hQw hQs (order := fun _ => 2)
    (fun _ => le_rfl) hrs hW (cond := fun _ => .wall)
    (fun b _ => by rw [FacetCond.Admits, hu, zero_dotProduct]) (fun _ => 1) (x₁ := (false, 2))
    (by simp [squareMesh]) (by rw [hu, zero_dotProduct]) hn bX bZ hJ hx0 hz0 st s dt

end Dream
