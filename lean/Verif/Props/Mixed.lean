import Verif.Model.Mixed
import Verif.Props.Reference

/-!
# C55: mixed methods; C56: diffusive numerical flux; C57: the mixed form is consistent;
C58: viscous terms of the characteristic conditions
-/

namespace Dream
open Matrix Spec

variable {n : ℕ}

/-! ### C55 -/

/-- **C55** The inactive mixed method is accepted exactly for inviscid fluids, the two others
exactly for viscous ones; otherwise `TypeError`. -/
theorem C55_check (m : MixedMethod) (cfg : FlowCfg) :
    (mixedMethodCheck m cfg = .ok () ↔ (m = .inactive ↔ cfg.visc = .inviscid)) ∧
    (mixedMethodCheck m cfg ≠ .ok () → mixedMethodCheck m cfg = .error .typeError) := by
  cases hv : cfg.visc <;> cases m <;> simp [mixedMethodCheck, hv]

/-- **C55** With the strain-heat method the mixed variables determine the viscous flux: for every
value of the five mixed variables the flux is that of the stress `2 μ ε` and of the stored
temperature gradient. -/
theorem C55_strain_heat_partial {cfg : FlowCfg} (h : cfg.Accepted) (hv : cfg.visc ≠ .inviscid)
    (hM : 0 < cfg.Ma) {S : GasState 2} (hS : IdealGas cfg.γ S) (Q : Fin 5 → ℝ) (d : Fin 2 → ℝ) :
    ∃ F μ r, diffusiveFlux cfg (conservativeDict S) (strainHeatFields Q) = .ok F ∧
      viscosity cfg (conservativeDict S) = .ok μ ∧ cfg.referenceReynolds = .ok r ∧
      F *ᵥ d = viscousFlux ((2 * (μ / r)) • !![Q 0, Q 1; Q 1, Q 2]) (μ / (r * cfg.Pr))
        ![Q 3, Q 4] S.u d := by
  obtain ⟨μ, hμ, μ0⟩ := visc_pos h hv (U := conservativeDict S) rfl hS.T_pos
  obtain ⟨r, hr, r0⟩ := ref_pos h hv hM
  obtain ⟨F, hF, hd⟩ := C31_flux_of_strain hv (U := conservativeDict S) (u := S.u)
    (by simp [velocity, conservativeDict, equation, equationE]) (dU := strainHeatFields Q) rfl rfl
    (by intro i j; fin_cases i <;> fin_cases j <;> rfl) hμ hr d
  exact ⟨F, μ, r, hF, hμ, hr, hd⟩

example (Q : Fin 5 → ℝ) : ∃ F, diffusiveFlux demoCfg (conservativeDict airState)
    (strainHeatFields Q) = .ok F :=
  let ⟨F, _, _, h, _⟩ := C55_strain_heat_partial demoCfg_accepted (by simp [demoCfg])
    (by norm_num [demoCfg]) airState_ideal Q ![1, 0]
  ⟨F, h⟩

/-- **C55** With the gradient method the viscous flux can never be computed: its mixed variables
(the gradients of the conservative variables) contain neither a strain rate nor a velocity
gradient, and the flux does not derive them. -/
theorem C55_fails_gradient (cfg : FlowCfg) (U : Flow n) (a b : Fin n → ℝ)
    (M : Matrix (Fin n) (Fin n) ℝ) : ∃ e, diffusiveFlux cfg U (gradientFields a M b) = .error e := by
  unfold diffusiveFlux
  cases hu : velocity U with
  | error e => exact ⟨e, rfl⟩
  | ok u =>
    cases ht : deviatoricStressTensor cfg U (gradientFields a M b) with
    | error e => exact ⟨e, rfl⟩
    | ok τ =>
      exfalso
      have hs : strainRateTensor (gradientFields a M b) = .error .valueError := by
        simp [strainRateTensor, gradientFields, equation, equationE]
      unfold deviatoricStressTensor at ht
      rw [hs] at ht
      cases h1 : viscosity cfg U <;> cases h2 : cfg.referenceReynolds <;>
        simp [h1, h2, bind, Except.bind] at ht

/-! ### C56 -/

theorem lamVec_apply (a b c : ℝ) (i : Fin (n + 2)) : lamVec n a b c i =
    if i = 0 then a else if i = Fin.last (n + 1) then c else b := by
  rcases Fin.eq_zero_or_eq_succ i with rfl | ⟨j, rfl⟩
  · simp [lamVec]
  · rcases Fin.eq_castSucc_or_eq_last j with ⟨k, rfl⟩ | rfl
    · have : (Fin.succ (Fin.castSucc k)) ≠ Fin.last (n + 1) := by
        intro h
        have := congrArg Fin.val h
        simp at this
        omega
      simp [lamVec, this, Fin.succ_ne_zero]
    · simp [lamVec, Fin.succ_ne_zero]

/-- **C56** The diffusive numerical flux is consistent: for a continuous state (`w = ŵ`) it is
the viscous flux in normal direction, for every value of the mixed variables. -/
theorem C56_consistent {cfg : FlowCfg} (h : cfg.Accepted) (hv : cfg.visc ≠ .inviscid)
    (hM : 0 < cfg.Ma) {S : GasState 2} (hS : IdealGas cfg.γ S) (Q : Fin 5 → ℝ)
    (w : Fin 4 → ℝ) (d : Fin 2 → ℝ) :
    ∃ F, diffusiveFlux cfg (conservativeDict S) (strainHeatFields Q) = .ok F ∧
      diffusiveNumericalFlux cfg w w (conservativeDict S) (strainHeatFields Q) d
        = .ok (F *ᵥ d) := by
  obtain ⟨F, μ, r, hF, hμ, hr, -⟩ := C55_strain_heat_partial h hv hM hS Q d
  refine ⟨F, hF, ?_⟩
  simp [diffusiveNumericalFlux, diffusiveStabilisation, hF, hμ, hr, prandtl_eq hv, bind,
    Except.bind]

/-- **C56** The stabilisation acts on momentum and energy jumps only, dissipates every jump, and
vanishes exactly for states that differ in density only. -/
theorem C56_dissipative {cfg : FlowCfg} (h : cfg.Accepted) (hv : cfg.visc ≠ .inviscid)
    (hM : 0 < cfg.Ma) {U : Flow n} {T : ℝ} (hT : U.T = some T) (T0 : 0 < T) :
    ∃ τ, diffusiveStabilisation cfg U = .ok τ ∧ (∀ v, (τ *ᵥ v) 0 = 0) ∧
      (∀ v, 0 ≤ v ⬝ᵥ (τ *ᵥ v)) ∧
      (∀ v, v ⬝ᵥ (τ *ᵥ v) = 0 ↔ ∀ i, i ≠ 0 → v i = 0) := by
  obtain ⟨μ, hμ, μ0⟩ := visc_pos h hv hT T0
  obtain ⟨r, hr, r0⟩ := ref_pos h hv hM
  have hPr := h.prandtl
  have app : ∀ (v : Fin (n + 2) → ℝ) i, (((μ / r) • Bla.diagonalM (lamVec n 0 1 (1 / cfg.Pr)))
      *ᵥ v) i = μ / r * (lamVec n 0 1 (1 / cfg.Pr) i * v i) := by
    intro v i
    rw [Matrix.smul_mulVec, Pi.smul_apply, Bla.diagonalM_eq, mulVec_diagonal, smul_eq_mul]
  have lam0 : ∀ i : Fin (n + 2), 0 ≤ lamVec n 0 1 (1 / cfg.Pr) i ∧
      (i ≠ 0 → 0 < lamVec n 0 1 (1 / cfg.Pr) i) := by
    intro i
    rw [lamVec_apply]
    split_ifs with h1 h2
    · simp [h1]
    · exact ⟨by positivity, fun _ => by positivity⟩
    · exact ⟨by norm_num, fun _ => by norm_num⟩
  have hterm : ∀ (v : Fin (n + 2) → ℝ) i,
      0 ≤ v i * (μ / r * (lamVec n 0 1 (1 / cfg.Pr) i * v i)) := by
    intro v i
    have : v i * (μ / r * (lamVec n 0 1 (1 / cfg.Pr) i * v i))
        = μ / r * lamVec n 0 1 (1 / cfg.Pr) i * v i ^ 2 := by ring
    rw [this]
    have := (lam0 i).1
    positivity
  refine ⟨_, by simp only [diffusiveStabilisation, hμ, hr, prandtl_eq hv, bind, Except.bind]; rfl,
    ?_, ?_, ?_⟩
  · intro v
    rw [app]; simp [lamVec]
  · intro v
    simp only [dotProduct, app]
    exact Finset.sum_nonneg fun i _ => hterm v i
  · intro v
    simp only [dotProduct, app]
    rw [Finset.sum_eq_zero_iff_of_nonneg fun i _ => hterm v i]
    constructor
    · intro hz i hi
      have h1 := hz i (Finset.mem_univ _)
      have h2 := (lam0 i).2 hi
      have h3 : 0 < μ / r := by positivity
      by_contra hne
      rcases mul_eq_zero.1 h1 with h4 | h4
      · exact hne h4
      · rcases mul_eq_zero.1 h4 with h5 | h5
        · exact h3.ne' h5
        · rcases mul_eq_zero.1 h5 with h6 | h6
          · exact h2.ne' h6
          · exact hne h6
    · intro hz i _
      by_cases hi : i = 0
      · subst hi; simp [lamVec]
      · simp [hz i hi]

/-- **C56** The numerical flux for discontinuous states: the viscous flux of the trace minus a
part that acts against the jump. It enters the equations with a minus sign, so every jump of
momentum or energy is damped, and the mass flux has no viscous part. -/
theorem C56_damping {cfg : FlowCfg} (h : cfg.Accepted) (hv : cfg.visc ≠ .inviscid)
    (hM : 0 < cfg.Ma) {S : GasState 2} (hS : IdealGas cfg.γ S) (Q : Fin 5 → ℝ)
    (w wHat : Fin 4 → ℝ) (d : Fin 2 → ℝ) :
    ∃ F g, diffusiveFlux cfg (conservativeDict S) (strainHeatFields Q) = .ok F ∧
      diffusiveNumericalFlux cfg w wHat (conservativeDict S) (strainHeatFields Q) d = .ok g ∧
      g 0 = (F *ᵥ d) 0 ∧ 0 ≤ (w - wHat) ⬝ᵥ (F *ᵥ d - g) ∧
      ((w - wHat) ⬝ᵥ (F *ᵥ d - g) = 0 ↔ ∀ i, i ≠ 0 → w i = wHat i) := by
  obtain ⟨F, μ, r, hF, -⟩ := C55_strain_heat_partial h hv hM hS Q d
  obtain ⟨τ, hτ, h1, h2, h3⟩ := C56_dissipative h hv hM (U := conservativeDict S) rfl hS.T_pos
  refine ⟨F, F *ᵥ d - τ *ᵥ (w - wHat), hF, ?_, ?_, ?_, ?_⟩
  · simp [diffusiveNumericalFlux, hτ, hF, bind, Except.bind]
  · rw [Pi.sub_apply, h1, sub_zero]
  · rw [sub_sub_cancel]
    exact h2 _
  · rw [sub_sub_cancel, h3]
    simp only [Pi.sub_apply, sub_eq_zero]

/-- C56, concrete instance: air at rest next to air in motion. -/
example : ∃ g, diffusiveNumericalFlux demoCfg ![1, 1, 0, 3] ![1, 0, 0, 3]
    (conservativeDict (GasState.of demoCfg.γ 1 0 3 : GasState 2)) (strainHeatFields 0) ![1, 0]
      = .ok g := by
  obtain ⟨-, g, -, hg, -⟩ := C56_damping demoCfg_accepted (by simp [demoCfg])
    (by norm_num [demoCfg]) (S := GasState.of demoCfg.γ 1 0 3)
    (IdealGas.of (by norm_num [demoCfg]) (by norm_num) (by norm_num)) 0 ![1, 1, 0, 3] ![1, 0, 0, 3] ![1, 0]
  exact ⟨g, hg⟩

/-! ### C57 -/

/-- **C57** Strain part of the mixed form: for all differentiable velocities `u` and test
functions `P`, if the mixed variable is the strain rate of `u`, then the volume integrand is the
divergence of the field whose normal component is the integrand over the element boundary. By
the divergence theorem the form then vanishes: the strain rate is the solution. -/
theorem C57_strain {u : (Fin 2 → ℝ) → Fin 2 → ℝ} {P : (Fin 2 → ℝ) → Fin 5 → ℝ} {x : Fin 2 → ℝ}
    {G : Matrix (Fin 2) (Fin 2) ℝ} {gP : Matrix (Fin 5) (Fin 2) ℝ} (hu : IsPartials u x G)
    (hP : IsPartials P x gP) {Q : Fin 5 → ℝ}
    (hQ : strainRateTensor { grad_u := some G } = .ok (mixedEps Q)) :
    ∃ F : (Fin 2 → ℝ) → Fin 2 → ℝ, (∀ y ν, F y ⬝ᵥ ν = mixedStrainFacet (P y) (u y) ν) ∧
      ∃ J, IsPartials F x J ∧ J 0 0 + J 1 1 = mixedStrainVolume Q (P x) gP (u x) := by
  refine ⟨fun y => (devZeta (P y))ᵀ *ᵥ u y, ?_, ?_⟩
  · intro y ν
    rw [mixedStrainFacet, dotProduct_mulVec, ← Matrix.mulVec_transpose]
  · have e : ∀ (y : Fin 2 → ℝ) i, ((devZeta (P y))ᵀ *ᵥ u y) i =
        (if i = 0 then (P y 0 - (P y 0 + P y 2) / 3) * u y 0 + P y 1 * u y 1
          else P y 1 * u y 0 + (P y 2 - (P y 0 + P y 2) / 3) * u y 1) := by
      intro y i
      fin_cases i <;>
        simp [devZeta, mixedEps, Matrix.mulVec, dotProduct, Fin.sum_univ_two, Matrix.trace]
    refine ⟨fun i j => if i = 0 then
        (gP 0 j - (gP 0 j + gP 2 j) / 3) * u x 0 + (P x 0 - (P x 0 + P x 2) / 3) * G 0 j
          + (gP 1 j * u x 1 + P x 1 * G 1 j)
      else gP 1 j * u x 0 + P x 1 * G 0 j
        + ((gP 2 j - (gP 0 j + gP 2 j) / 3) * u x 1 + (P x 2 - (P x 0 + P x 2) / 3) * G 1 j), ?_, ?_⟩
    · intro i j
      have a0 := hP 0 j; have a1 := hP 1 j; have a2 := hP 2 j
      have b0 := hu 0 j; have b1 := hu 1 j
      have t0 := ((a0.sub ((a0.add a2).div_const 3)).mul b0).add (a1.mul b1)
      have t1 := (a1.mul b0).add ((a2.sub ((a0.add a2).div_const 3)).mul b1)
      simp only [e]
      fin_cases i
      · refine (t0.congr_of_eventuallyEq (Filter.Eventually.of_forall fun t => ?_)).congr_deriv ?_
        · simp
        · simp
      · refine (t1.congr_of_eventuallyEq (Filter.Eventually.of_forall fun t => ?_)).congr_deriv ?_
        · simp
        · simp
    · have hq : mixedEps Q = (0.5 : ℝ) • (G + Gᵀ) - (1 / 3 * G.trace) • 1 := by
        simp [strainRateTensor, equation, equationE] at hQ
        rw [← hQ]; norm_num
      have q00 := congrFun (congrFun hq 0) 0
      have q01 := congrFun (congrFun hq 0) 1
      have q11 := congrFun (congrFun hq 1) 1
      simp [mixedEps, Matrix.trace, Fin.sum_univ_two] at q00 q01 q11
      simp only [mixedStrainVolume, mixedEps, divDevZeta, Fin.sum_univ_two, dotProduct]
      simp [q00, q01, q11]
      ring

/-- A rotating velocity field and a test function with constant components. -/
example : IsPartials (fun x : Fin 2 → ℝ => ![-x 1, x 0]) ![1, 2] !![0, -1; 1, 0] ∧
    strainRateTensor { grad_u := some !![0, -1; 1, 0] } = .ok (mixedEps 0) := by
  constructor
  · intro i j
    fin_cases i <;> fin_cases j
    · simpa using hasDerivAt_const (0 : ℝ) (-2 : ℝ)
    · simpa using hasDerivAt_neg (0 : ℝ)
    · simpa using (hasDerivAt_id (0 : ℝ)).const_add 1
    · simpa using hasDerivAt_const (0 : ℝ) (1 : ℝ)
  · simp only [strainRateTensor, equation, equationE, mixedEps]
    simp
    ext i j
    fin_cases i <;> fin_cases j <;> simp [Matrix.trace]

/-- **C57** Heat part of the mixed form: likewise for the temperature gradient. -/
theorem C57_heat {T : (Fin 2 → ℝ) → ℝ} {P : (Fin 2 → ℝ) → Fin 5 → ℝ} {x g : Fin 2 → ℝ}
    {gP : Matrix (Fin 5) (Fin 2) ℝ} (hT : IsGrad T x g) (hP : IsPartials P x gP) {Q : Fin 5 → ℝ}
    (hQ : mixedGradT Q = g) :
    ∃ F : (Fin 2 → ℝ) → Fin 2 → ℝ, (∀ y ν, F y ⬝ᵥ ν = mixedHeatFacet (P y) (T y) ν) ∧
      ∃ J, IsPartials F x J ∧ J 0 0 + J 1 1 = mixedHeatVolume Q (P x) gP (T x) := by
  refine ⟨fun y => T y • mixedGradT (P y), ?_, ?_⟩
  · intro y ν
    rw [mixedHeatFacet, smul_dotProduct, smul_dotProduct, dotProduct_comm]
  · refine ⟨fun i j => g j * (if i = 0 then P x 3 else P x 4)
      + T x * (if i = 0 then gP 3 j else gP 4 j), ?_, ?_⟩
    · intro i j
      have t0 := (hT j).mul (hP 3 j)
      have t1 := (hT j).mul (hP 4 j)
      simp only [zero_smul, add_zero] at t0 t1
      fin_cases i
      · exact t0
      · exact t1
    · subst hQ
      simp [mixedHeatVolume, mixedGradT, divXi, dotProduct, Fin.sum_univ_two]
      ring

/-! ### C58 -/

/-- The intended modification of the normal derivative at an outflow, in the basis of normal and
tangential vector: the derivatives of the tangential stress and of the normal heat flux are set
to zero, the others are kept. Here for the normal `(1, 0)`. -/
def outflowTarget (g : Fin 5 → ℝ) : Fin 5 → ℝ := ![g 0, 0, g 2, 0, g 4]

/-- **C58** On a boundary with normal `(1, 0)` the viscous terms of an outflow lose the normal
derivative of the strain component `ε₁₁` (which should be kept), for all derivatives. -/
theorem C58_fails_outflow (g : Fin 5 → ℝ) :
    cbcGradQ .outflow ![1, 0] ![0, 1] g = ![g 0, 0, 0, 0, g 4] ∧
    (g 2 ≠ 0 → cbcGradQ .outflow ![1, 0] ![0, 1] g ≠ outflowTarget g) := by
  have h : cbcGradQ .outflow ![1, 0] ![0, 1] g = ![g 0, 0, 0, 0, g 4] := by
    funext i
    fin_cases i <;>
      simp [cbcGradQ, flat, Matrix.mul_apply, Fin.sum_univ_two, Matrix.mulVec, dotProduct,
        Matrix.transpose_apply]
  refine ⟨h, fun hg he => ?_⟩
  rw [h] at he
  have := congrFun he 2
  simp [outflowTarget] at this
  exact hg this.symm

/-- **C58** On the same boundary the inflow and farfield targets replace the normal derivative of
`ε₁₁` by that of `ε₀₁`. -/
theorem C58_fails_inflow (g : Fin 5 → ℝ) (t : CbcTarget) (ht : t ≠ .outflow) :
    cbcGradQ t ![1, 0] ![0, 1] g = ![0, g 1, g 1, g 3, g 4] := by
  funext i
  fin_cases i <;>
    simp [cbcGradQ, flat, Matrix.mul_apply, Fin.sum_univ_two, Matrix.mulVec, dotProduct,
      Matrix.transpose_apply, ht]

/-- **C58** What does hold: without gradients there are no viscous terms, for every target and
every orthonormal or other frame. -/
theorem C58_uniform_partial {cfg : FlowCfg} (h : cfg.Accepted) (hv : cfg.visc ≠ .inviscid)
    (hM : 0 < cfg.Ma) {S : GasState 2} (hS : IdealGas cfg.γ S) (Q : Fin 5 → ℝ) (t : CbcTarget)
    (nrm tng : Fin 2 → ℝ) :
    cbcViscousTerms cfg t (conservativeDict S) (strainHeatFields Q) 0 0 nrm tng = .ok 0 := by
  obtain ⟨μ, hμ, μ0⟩ := visc_pos h hv (U := conservativeDict S) rfl hS.T_pos
  obtain ⟨r, hr, r0⟩ := ref_pos h hv hM
  obtain ⟨τ, hτ, -⟩ := C31_stress_of_strain (dU := strainHeatFields Q) rfl hμ hr
  have h0 : cbcGradQ t nrm tng 0 = 0 := by
    have z : !![(0 : ℝ), 0; 0, 0] = 0 := by ext i j; fin_cases i <;> fin_cases j <;> rfl
    funext i
    cases t <;> fin_cases i <;>
      simp [cbcGradQ, flat, z, Matrix.mulVec, dotProduct]
  have hJ : ∀ d, ∃ J, conservativeDiffusiveJacobian cfg (conservativeDict S) (strainHeatFields Q) d
      = .ok J := by
    intro d
    simp [conservativeDiffusiveJacobian, conservativeDiffusiveJacobianX,
      conservativeDiffusiveJacobianY, hτ, density, EOS.density, storedVelocity, conservativeDict,
      equation, equationE, bind, Except.bind]
    simp [conservativeDict] at hτ
    simp [hτ]
  have hMx : ∀ d, ∃ J, mixedDiffusiveJacobian cfg (conservativeDict S) d = .ok J := by
    intro d
    simp [mixedDiffusiveJacobian, mixedDiffusiveJacobianX, mixedDiffusiveJacobianY, hμ, hr,
      prandtl_eq hv, storedVelocity, bind, Except.bind]
    simp [conservativeDict]
  obtain ⟨J1, e1⟩ := hJ tng
  obtain ⟨J2, e2⟩ := hJ nrm
  obtain ⟨M1, e3⟩ := hMx tng
  obtain ⟨M2, e4⟩ := hMx nrm
  simp [cbcViscousTerms, e1, e2, e3, e4, bind, Except.bind, h0]

/-- The derivative of the viscous flux (with frozen viscosity) when the conservative variables
change by `a` and the mixed variables by `b`. -/
theorem viscous_direction {cfg : FlowCfg} (hv : cfg.visc ≠ .inviscid) {w : Fin 4 → ℝ}
    (w0 : w 0 ≠ 0) {U : Flow 2} (hρ : U.rho = some (w 0))
    (hu : U.u = some ![w 1 / w 0, w 2 / w 0]) {μ r : ℝ}
    (hμ : viscosity cfg U = .ok μ) (hr : cfg.referenceReynolds = .ok r) (d : Fin 2 → ℝ)
    (q : Fin 5 → ℝ) :
    ∃ J M, conservativeDiffusiveJacobian cfg U (strainHeatFields q) d = .ok J ∧
      mixedDiffusiveJacobian cfg U d = .ok M ∧
      ∀ a b i, HasDerivAt (fun s : ℝ => viscousFlux2 (μ / r) cfg.Pr d (w + s • a) (q + s • b) i)
        ((J *ᵥ a + M *ᵥ b) i) 0 := by
  refine ⟨_, _, consDiffJac_eq hρ hu hμ hr q d, mixedJac_eq hv hu hμ hr d, fun a b i => ?_⟩
  have lin : ∀ x y : ℝ, HasDerivAt (fun s : ℝ => x + s * y) y 0 := fun x y => by
    simpa using ((hasDerivAt_id (0 : ℝ)).mul_const y).const_add x
  have quo : ∀ x y : ℝ, HasDerivAt (fun s : ℝ => (x + s * y) / (w 0 + s * a 0))
      ((y * w 0 - x * a 0) / w 0 ^ 2) 0 := by
    intro x y
    refine ((lin x y).fun_div (lin (w 0) (a 0)) (by simpa using w0)).congr_deriv ?_
    simp
  simp only [viscousFlux2_eq]
  have st : ∀ x y x' y' : ℝ, HasDerivAt (fun s : ℝ => 2 * (μ / r) * (x + s * x') * d 0
      + 2 * (μ / r) * (y + s * y') * d 1) (2 * (μ / r) * x' * d 0 + 2 * (μ / r) * y' * d 1) 0 :=
    fun x y x' y' => (((lin x x').const_mul _).mul_const _).add
      (((lin y y').const_mul _).mul_const _)
  fin_cases i
  · refine (hasDerivAt_const (0 : ℝ) (0 : ℝ)).congr_deriv ?_
    simp [Matrix.mulVec, dotProduct, Fin.sum_univ_succ]
  · refine (st (q 0) (q 1) (b 0) (b 1)).congr_deriv ?_
    simp [Matrix.mulVec, dotProduct, Fin.sum_univ_succ]
    ring
  · refine (st (q 1) (q 2) (b 1) (b 2)).congr_deriv ?_
    simp [Matrix.mulVec, dotProduct, Fin.sum_univ_succ]
    ring
  · refine (((((st (q 0) (q 1) (b 0) (b 1)).mul (quo (w 1) (a 1))).add
      ((st (q 1) (q 2) (b 1) (b 2)).mul (quo (w 2) (a 2)))).add
      ((((lin (q 3) (b 3)).mul_const (d 0)).add ((lin (q 4) (b 4)).mul_const (d 1))).const_mul
        (μ / r / cfg.Pr)))).congr_deriv ?_
    simp [Matrix.mulVec, dotProduct, Fin.sum_univ_succ]
    field_simp
    ring

/-- **C58** What the viscous terms are: the derivative of the tangential viscous flux in tangential
direction plus the derivative of the normal viscous flux in normal direction, where the normal
derivative of the mixed variables is replaced by the conditioned one (`cbcGradQ`, whose
components are wrong: `C58_fails_outflow`, `C58_fails_inflow`). Viscosity frozen. -/
theorem C58_terms_partial {cfg : FlowCfg} (h : cfg.Accepted) (hv : cfg.visc ≠ .inviscid)
    (hM : 0 < cfg.Ma) {S : GasState 2} (hS : IdealGas cfg.γ S) (Q : Fin 5 → ℝ) (t : CbcTarget)
    (gU : Matrix (Fin 4) (Fin 2) ℝ) (gQ : Matrix (Fin 5) (Fin 2) ℝ) (nrm tng : Fin 2 → ℝ) :
    ∃ (v A B : Fin 4 → ℝ) (μ r : ℝ), viscosity cfg (conservativeDict S) = .ok μ ∧
      cfg.referenceReynolds = .ok r ∧
      cbcViscousTerms cfg t (conservativeDict S) (strainHeatFields Q) gU gQ nrm tng = .ok v ∧
      v = A + B ∧
      ∀ w : Fin 4 → ℝ, w = consVec S.rho S.rho_u S.rho_E → ∀ i,
        HasDerivAt (fun s : ℝ => viscousFlux2 (μ / r) cfg.Pr tng (w + s • (gU *ᵥ tng))
          (Q + s • (gQ *ᵥ tng)) i) (A i) 0 ∧
        HasDerivAt (fun s : ℝ => viscousFlux2 (μ / r) cfg.Pr nrm (w + s • (gU *ᵥ nrm))
          (Q + s • cbcGradQ t nrm tng (gQ *ᵥ nrm)) i) (B i) 0 := by
  obtain ⟨μ, hμ, μ0⟩ := visc_pos h hv (U := conservativeDict S) rfl hS.T_pos
  obtain ⟨r, hr, r0⟩ := ref_pos h hv hM
  have hu : (conservativeDict S).u = some ![consVec S.rho S.rho_u S.rho_E 1 / S.rho,
      consVec S.rho S.rho_u S.rho_E 2 / S.rho] := by
    have e : S.u = ![S.rho_u 0 / S.rho, S.rho_u 1 / S.rho] := by
      have := hS.rho_pos.ne'
      rw [hS.momentum]
      funext i
      fin_cases i <;> simp <;> field_simp
    rw [conservativeDict, e]
    rfl
  obtain ⟨J1, M1, e1, e3, d1⟩ := viscous_direction hv (w := consVec S.rho S.rho_u S.rho_E)
    hS.rho_pos.ne' (U := conservativeDict S) rfl hu hμ hr tng Q
  obtain ⟨J2, M2, e2, e4, d2⟩ := viscous_direction hv (w := consVec S.rho S.rho_u S.rho_E)
    hS.rho_pos.ne' (U := conservativeDict S) rfl hu hμ hr nrm Q
  refine ⟨J1 *ᵥ (gU *ᵥ tng) + J2 *ᵥ (gU *ᵥ nrm) + M1 *ᵥ (gQ *ᵥ tng)
    + M2 *ᵥ cbcGradQ t nrm tng (gQ *ᵥ nrm), J1 *ᵥ (gU *ᵥ tng) + M1 *ᵥ (gQ *ᵥ tng),
    J2 *ᵥ (gU *ᵥ nrm) + M2 *ᵥ cbcGradQ t nrm tng (gQ *ᵥ nrm), μ, r, hμ, hr, ?_, ?_, ?_⟩
  · simp only [cbcViscousTerms, e1, e2, e3, e4, bind, Except.bind]
  · abel
  · rintro w rfl i
    exact ⟨d1 _ _ i, d2 _ _ i⟩

end Dream
