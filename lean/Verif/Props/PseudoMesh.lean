import Verif.Props.PseudoFlow
import Verif.Props.ReturnsMesh
import Verif.Props.NewtonStabilised

/-!
# C100: Pseudo time stepping finds the steady flow, in two dimensions and on triangulations
-/

noncomputable section

namespace Dream
open Matrix Set Filter Topology _root_.Spec

variable {γ : ℝ} {ι κ : Type} [Fintype ι] [Fintype κ]

/-- **C100** In two dimensions with all Riemann solvers that damp all waves at the inner facets and all
conditions at which they lose energy. -/
theorem C100_pseudo_solvers {V B : Type} [Fintype V] [Fintype B] {rs : Riemann} {S : GasState 2}
    (hS : IdealGas γ S) {P : HdgSpaces 2 4 V B} {M : HdgMesh 2 V B} {mask : B → ℝ} (hP : P.Fits M mask)
    {cond : B → FacetCond 2} (hR : P.Rich M mask cond)
    (hrs : ∀ b, mask b = 1 → rs.Damps (S.u ⬝ᵥ M.normal b) S.c)
    (hc : ∀ b, mask b = 0 → (cond b).Dissipates rs ∧ (cond b).Admits S (M.normal b)) {σ : V → ℝ} {σ₀ : ℝ}
    (hσ₀ : 0 < σ₀) (hσ : ∀ v, σ₀ ≤ σ v) (bX : Module.Basis ι ℝ P.element)
    (bZ : Module.Basis κ ℝ P.facet) {st : Coeffs ι κ → HdgState 2 4 V B}
    (hst : ∀ x, Coeffs.AreGas (n := 2) γ bX bZ x → (st x).IsFlow γ rs M mask cond σ (conservativeDict S)
      (elementOf (n := 2) bX x.1) (facetOf (n := 2) bZ x.2))
    {J : Coeffs ι κ → Coeffs ι κ →L[ℝ] Coeffs ι κ}
    (hJ : IsFlowMatrix (n := 2) γ rs M mask cond σ (conservativeDict S) bX bZ J) {ω : ℝ} (hω : 0 < ω)
    (hω1 : ω ≤ 1) {dt₀ : ℝ} (hdt₀ : 0 < dt₀) :
    ∃ δ > 0, ∃ C > 0, ∃ q, 0 < q ∧ q < 1 ∧ ∃ r > 0, C * δ ≤ r ∧
      (∀ y, Coeffs.Near (n := 2) bX bZ (consVec S.rho S.rho_u S.rho_E) r y →
        (∀ φ ∈ P.tests, flowForm (n := 2) M mask (st y) φ = 0) →
        Coeffs.Near (n := 2) bX bZ (consVec S.rho S.rho_u S.rho_E) 0 y) ∧
      ∀ c crit : ℝ, 0 ≤ c → 0 < crit → ∃ m : ℕ, ∀ N : Newton (Coeffs ι κ) (Coeffs ι κ),
        (∀ dt : ℚ, dt₀ ≤ dt → SolvesSteps (n := 2) M mask bX bZ st J .implicitEuler dt N c) →
        N.damping = ω → N.crit = crit → (m : ℤ) ≤ N.maxIter →
        ∀ ps : Pseudo, ps.incrementAt ≠ 0 → 1 ≤ ps.incrementFactor → ∀ t dt : ℚ, dt₀ ≤ dt →
        ∀ η, 0 ≤ η → η ≤ δ → ∀ x0, Coeffs.Near (n := 2) bX bZ (consVec S.rho S.rho_u S.rho_E) η x0 →
        FindsFlow (n := 2) γ rs M mask cond σ (conservativeDict S) bX bZ st
          (consVec S.rho S.rho_u S.rho_E) ps N t dt x0 m q (C * η) :=
  pseudo_of_energy (n := 2) hS hP hR (fun b hb => (hc b hb).2) hσ₀ hσ rfl
    (fits_of_damps hP hR.straight hS hrs) (energyFits_planar hS hP hc) bX bZ hst hJ hω hω1 hdt₀

/-- **C100** On every conforming triangulation, in arbitrary bases of the piecewise polynomials: a matrix
of the spatial terms and discrete flows exist, with all of them pseudo time stepping computes the
uniform flow, and linear solvers for its systems exist. -/
theorem C100_triangulation {E : Type} [Fintype E] {K : Triangulation E} {R : VolumeRule} {Q : SideRule}
    (hK : K.Conforming) {bcs : Conditions} (hcov : K.Covered bcs) {d : ℕ} (hd : 1 ≤ d)
    (hR : R.Exact d) (hQ : Q.Exact d) (hRw : ∀ q, 0 < R.w q) (hQw : ∀ q, 0 < Q.w q)
    (hQs : Q.Symmetric) {order : E → ℕ} {orderHat : E × Fin 3 → ℕ} (ho : ∀ e, 2 * order e ≤ d)
    (hoh : ∀ x, K.across x = none → order x.1 ≤ orderHat x)
    {rs : Riemann} {W : GasState 2} (hW : IdealGas γ W)
    (hrs : ∀ x, K.across x ≠ none → rs.Damps (W.u ⬝ᵥ K.normal x) W.c)
    {cond : E × Fin 3 → FacetCond 2}
    (hcond : ∀ x, K.across x = none → (cond x).Dissipates rs ∧ (cond x).Admits W (K.normal x))
    {σ : E × Fin R.n → ℝ} {σ₀ : ℝ} (hσ₀ : 0 < σ₀) (hσ : ∀ v, σ₀ ≤ σ v)
    (bX : Module.Basis ι ℝ (K.spaces 4 order orderHat R Q).element)
    (bZ : Module.Basis κ ℝ (K.spaces 4 order orderHat R Q).facet) :
    (∃ J, IsFlowMatrix (n := 2) γ rs (K.mesh R Q) ((K.mesh R Q).mask bcs) (fun b => cond b.1) σ
      (conservativeDict W) bX bZ J) ∧
    (∃ st : Coeffs ι κ → HdgState 2 4 (E × Fin R.n) ((E × Fin 3) × Fin Q.n),
      ∀ x, Coeffs.AreGas (n := 2) γ bX bZ x → (st x).IsFlow γ rs (K.mesh R Q) ((K.mesh R Q).mask bcs)
        (fun b => cond b.1) σ (conservativeDict W) (elementOf (n := 2) bX x.1) (facetOf (n := 2) bZ x.2)) ∧
    (∀ (st : Coeffs ι κ → HdgState 2 4 (E × Fin R.n) ((E × Fin 3) × Fin Q.n))
      (J : Coeffs ι κ → Coeffs ι κ →L[ℝ] Coeffs ι κ) (ω crit : ℝ) (m : ℤ),
      ∃ N : Newton (Coeffs ι κ) (Coeffs ι κ),
      (∀ dt : ℚ, SolvesSteps (n := 2) (K.mesh R Q) ((K.mesh R Q).mask bcs) bX bZ st J .implicitEuler dt N 1) ∧
        N.damping = ω ∧ N.crit = crit ∧ N.maxIter = m) ∧
    ∀ J, IsFlowMatrix (n := 2) γ rs (K.mesh R Q) ((K.mesh R Q).mask bcs) (fun b => cond b.1) σ
      (conservativeDict W) bX bZ J →
    ∀ st : Coeffs ι κ → HdgState 2 4 (E × Fin R.n) ((E × Fin 3) × Fin Q.n),
      (∀ x, Coeffs.AreGas (n := 2) γ bX bZ x → (st x).IsFlow γ rs (K.mesh R Q) ((K.mesh R Q).mask bcs)
        (fun b => cond b.1) σ (conservativeDict W) (elementOf (n := 2) bX x.1)
        (facetOf (n := 2) bZ x.2)) →
    ∀ ω : ℝ, 0 < ω → ω ≤ 1 → ∀ dt₀ : ℝ, 0 < dt₀ →
    ∃ δ > 0, ∃ C > 0, ∃ q, 0 < q ∧ q < 1 ∧ ∃ r > 0, C * δ ≤ r ∧
      (∀ y, Coeffs.Near (n := 2) bX bZ (consVec W.rho W.rho_u W.rho_E) r y →
        (∀ φ ∈ K.space 4 order orderHat R Q,
          flowForm (n := 2) (K.mesh R Q) ((K.mesh R Q).mask bcs) (st y) φ = 0) →
        Coeffs.Near (n := 2) bX bZ (consVec W.rho W.rho_u W.rho_E) 0 y) ∧
      ∀ c crit : ℝ, 0 ≤ c → 0 < crit → ∃ m : ℕ, ∀ N : Newton (Coeffs ι κ) (Coeffs ι κ),
        (∀ dt : ℚ, dt₀ ≤ dt → SolvesSteps (n := 2) (K.mesh R Q) ((K.mesh R Q).mask bcs) bX bZ st J
          .implicitEuler dt N c) →
        N.damping = ω → N.crit = crit → (m : ℤ) ≤ N.maxIter →
        ∀ ps : Pseudo, ps.incrementAt ≠ 0 → 1 ≤ ps.incrementFactor → ∀ t dt : ℚ, dt₀ ≤ dt →
        ∀ η, 0 ≤ η → η ≤ δ → ∀ x0, Coeffs.Near (n := 2) bX bZ (consVec W.rho W.rho_u W.rho_E) η x0 →
        FindsFlow (n := 2) γ rs (K.mesh R Q) ((K.mesh R Q).mask bcs) (fun b => cond b.1) σ
          (conservativeDict W) bX bZ st (consVec W.rho W.rho_u W.rho_E) ps N t dt x0 m q (C * η) := by
  have hcond' : ∀ b : (E × Fin 3) × Fin Q.n, (K.mesh R Q).mask bcs b = 0 →
      (cond b.1).Dissipates rs ∧ (cond b.1).Admits W ((K.mesh R Q).normal b) := by
    intro b hb
    refine hcond b.1 ?_
    by_contra h
    rw [hcov.mask_one (R := R) b h] at hb
    exact one_ne_zero hb
  have hP := spaces_fit (k := 4) (orderHat := orderHat) hK hcov hd hR hQ hRw hQw hQs ho
  have hrs' : ∀ b, (K.mesh R Q).mask bcs b = 1 → rs.Damps (W.u ⬝ᵥ (K.mesh R Q).normal b) W.c := by
    intro b hb
    refine hrs b.1 fun h => ?_
    rw [hcov.mask_zero (R := R) b h] at hb
    exact zero_ne_one hb
  refine ⟨C97_matrix rs hW hP (fun b hb => (hcond' b hb).2) σ bX bZ,
    flow_statesN (n := 2) (N := fun b => stabFlux γ rs ((K.mesh R Q).normal b))
      (fun b u _ h => stabFlux_eq hW.gamma rs (hP.unit b) u h) hW hP.mask01 (fun b hb => (hcond' b hb).2)
      σ bX bZ, fun st J ω crit m => ?_, fun J hJ st hst ω hω hω1 dt₀ hdt₀ => ?_⟩
  · obtain ⟨N, h1, h2⟩ := pseudo_solver (n := 2) (K.mesh R Q) ((K.mesh R Q).mask bcs) bX bZ st J ω crit m
    exact ⟨N, fun dt => h1 _ _, h2⟩
  · have := C100_pseudo_solvers hW hP (spaces_rich hK hcov hd hR hQ ho hoh cond) hrs' hcond' hσ₀ hσ bX bZ
      hst hJ hω hω1 hdt₀
    rwa [Triangulation.spaces_tests] at this

/-! ### A concrete case -/

/-- C100, concrete instance: the tube of C99, two triangles between walls and periodic otherwise,
elements of order 2 and facets of order 3, sponge layers everywhere, exact linear solves, damping 1/2,
steps that grow by 10 after every iteration from 1/100, and initial densities that vary linearly. All hypotheses
of `C100_triangulation` hold, and so all those of `C100_pseudo_solvers`, and for Lax-Friedrichs and
HLL all those of `C100_pseudo`; pseudo time stepping converges to uniform flow. -/
example {rs : Riemann} (hrs : rs ≠ .upwind) : ∃ (R : VolumeRule) (Q : SideRule)
    (i k : ℕ) (bX : Module.Basis (Fin i) ℝ ((squareMesh true).spaces 4 (fun _ => 2) (fun _ => 3) R Q).element)
    (bZ : Module.Basis (Fin k) ℝ ((squareMesh true).spaces 4 (fun _ => 2) (fun _ => 3) R Q).facet)
    (st : Coeffs (Fin i) (Fin k) → HdgState 2 4 (Bool × Fin R.n) ((Bool × Fin 3) × Fin Q.n))
    (N : Newton (Coeffs (Fin i) (Fin k)) (Coeffs (Fin i) (Fin k))) (x0 : Coeffs (Fin i) (Fin k))
    (ε q Y : ℝ) (m : ℕ), 0 < ε ∧ q < 1 ∧
      (∀ v, (elementOf (n := 2) bX x0.1).2.1 v
        = consVec (2 + ε * (squareMesh true).pos R v 0) ![1, 0] (107 / 28)) ∧
      FindsFlow (n := 2) (7 / 5) rs ((squareMesh true).mesh R Q)
        (((squareMesh true).mesh R Q).mask (squareConditions true)) (fun _ => .wall) (fun _ => 1)
        (conservativeDict tubeState) bX bZ st
        (consVec tubeState.rho tubeState.rho_u tubeState.rho_E) ⟨1, 1, 10⟩ N 0 (1 / 100) x0 m q Y := by
  obtain ⟨⟨R, hR, hRw⟩, Q, hQ, hQw, hQs⟩ := C94_rules 4
  obtain ⟨bX, -⟩ : ∃ b : Module.Basis (Fin (Module.finrank ℝ
    ((squareMesh true).spaces 4 (fun _ => 2) (fun _ => 3) R Q).element)) ℝ
    ((squareMesh true).spaces 4 (fun _ => 2) (fun _ => 3) R Q).element, True :=
      ⟨Module.finBasis ℝ _, trivial⟩
  obtain ⟨bZ, -⟩ : ∃ b : Module.Basis (Fin (Module.finrank ℝ
    ((squareMesh true).spaces 4 (fun _ => 2) (fun _ => 3) R Q).facet)) ℝ
    ((squareMesh true).spaces 4 (fun _ => 2) (fun _ => 3) R Q).facet, True :=
      ⟨Module.finBasis ℝ _, trivial⟩
  obtain ⟨⟨J, hJ⟩, ⟨st, hst⟩, HN, H⟩ :=
    C100_triangulation (orderHat := fun _ => 3) (squareMesh_conforming true) (squareMesh_covered true)
      (d := 4) (by norm_num) hR hQ hRw hQw hQs (order := fun _ => 2) (fun _ => le_rfl)
      (fun _ _ => by norm_num) tubeState_ideal (tube_damps rs) (cond := fun _ => .wall) (tube_closed hrs)
      (σ := fun _ => 1) one_pos (fun _ => le_rfl) bX bZ
  obtain ⟨δ, h2, C, h3, q, -, hq1, r, -, -, -, h⟩ := H J hJ st hst (1 / 2) (by norm_num) (by norm_num)
    (1 / 100) (by norm_num)
  obtain ⟨A, hA⟩ : ∃ A, A = ∑ v, |(squareMesh true).pos R v 0| := ⟨_, rfl⟩
  have hA0 : 0 ≤ A := hA ▸ Finset.sum_nonneg fun _ _ => abs_nonneg _
  have hAv : ∀ v, |(squareMesh true).pos R v 0| ≤ A := fun v => hA ▸
    Finset.single_le_sum (f := fun v => |(squareMesh true).pos R v 0|) (fun _ _ => abs_nonneg _)
      (Finset.mem_univ v)
  have hw : consVec tubeState.rho tubeState.rho_u tubeState.rho_E = ![2, 1, 0, 107 / 28] := by
    funext i
    fin_cases i
    · rfl
    · show (2 : ℝ) * (1 / 2) = 1
      norm_num
    · show (2 : ℝ) * 0 = 0
      norm_num
    · show (2 : ℝ) * (25 / 14 + (![1 / 2, 0] ⬝ᵥ ![1 / 2, 0]) / 2) = 107 / 28
      norm_num [dotProduct, Fin.sum_univ_two]
  have hdeg : ∀ i, ((![MvPolynomial.C 2 + MvPolynomial.C (δ / (A + 1)) * MvPolynomial.X 0,
      MvPolynomial.C 1, 0, MvPolynomial.C (107 / 28)] : Fin 4 → MvPolynomial (Fin 2) ℝ) i).totalDegree
      ≤ 2 := by
    intro i
    fin_cases i
    · refine (MvPolynomial.totalDegree_add _ _).trans (max_le (by simp) ?_)
      exact (MvPolynomial.totalDegree_mul _ _).trans (by simp)
    all_goals simp
  obtain ⟨a, ha⟩ : ∃ a : ((squareMesh true).spaces 4 (fun _ => 2) (fun _ => 3) R Q).element,
      ∀ v, a.1.2.1 v = consVec (2 + δ / (A + 1) * (squareMesh true).pos R v 0) ![1, 0] (107 / 28) := by
    refine ⟨⟨_, ⟨fun _ => _, fun _ i => hdeg i, rfl⟩⟩, fun v => ?_⟩
    funext i
    fin_cases i <;> simp [Triangulation.elementFn]
    all_goals rfl
  have hP := spaces_fit (k := 4) (orderHat := fun _ => 3) (squareMesh_conforming true)
    (squareMesh_covered true) (d := 4) (by norm_num) hR hQ hRw hQw hQs (order := fun _ => 2)
    (fun _ => le_rfl)
  obtain ⟨x0, hx0, hx0'⟩ : ∃ x0 : Coeffs _ _, elementOf (n := 2) bX x0.1 = a.1 ∧ facetOf (n := 2) bZ x0.2
      = fun _ => consVec tubeState.rho tubeState.rho_u tubeState.rho_E :=
    ⟨(bX.equivFun a, bZ.equivFun ⟨_, hP.constantHat _⟩), congrArg Subtype.val (bX.sum_equivFun a),
      congrArg Subtype.val (bZ.sum_equivFun _)⟩
  have hnear : Coeffs.Near (n := 2) bX bZ (consVec tubeState.rho tubeState.rho_u tubeState.rho_E) δ x0 := by
    refine ⟨fun v i => ?_, fun b i => by rw [hx0', sub_self, abs_zero]; exact h2.le⟩
    rw [hx0, ha, hw]
    have h0 : |δ / (A + 1) * (squareMesh true).pos R v 0| ≤ δ := by
      rw [abs_mul, abs_of_pos (by positivity), div_mul_eq_mul_div, div_le_iff₀ (by positivity)]
      have := hAv v
      exact mul_le_mul_of_nonneg_left (by linarith) h2.le
    have e : consVec (2 + δ / (A + 1) * (squareMesh true).pos R v 0) ![1, 0] (107 / 28)
        = ![2 + δ / (A + 1) * (squareMesh true).pos R v 0, 1, 0, 107 / 28] := by
      funext i
      fin_cases i <;> rfl
    rw [e]
    fin_cases i
    · simpa using h0
    all_goals simp [h2.le]
  obtain ⟨m, hm⟩ := h 1 (1 / 1000) zero_le_one (by norm_num)
  obtain ⟨N, hN, hNd, hNc, hNm⟩ := HN st J (1 / 2) (1 / 1000) m
  exact ⟨R, Q, _, _, bX, bZ, st, N, x0, δ / (A + 1), q, C * δ, m, by positivity, hq1,
    fun v => by rw [hx0, ha], hm N (fun dt _ => hN dt) hNd hNc hNm.ge ⟨1, 1, 10⟩ one_ne_zero (by norm_num)
      0 (1 / 100) (by norm_num) δ h2.le le_rfl x0 hnear⟩

end Dream
