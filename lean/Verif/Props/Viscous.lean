import Verif.Props.Farfield
import Mathlib.Analysis.Calculus.Deriv.Mul
import Mathlib.Analysis.Calculus.Deriv.Inv
import Mathlib.Analysis.Calculus.Deriv.Add
import Mathlib.Analysis.SpecialFunctions.Pow.Deriv
import Mathlib.Algebra.Order.Chebyshev

/-!
# C31: viscous stress and heat flux; C32: diffusive Jacobians
-/

namespace Dream
open Matrix Spec

variable {n : ℕ}

/-- The viscosity of an accepted viscous configuration at a positive temperature exists and is
positive, and so is the reference Reynolds number. -/
theorem visc_pos {cfg : FlowCfg} (h : cfg.Accepted) (hv : cfg.visc ≠ .inviscid) {U : Flow n}
    {T : ℝ} (hT : U.T = some T) (T0 : 0 < T) : ∃ μ, viscosity cfg U = .ok μ ∧ 0 < μ := by
  have hγ := h.gamma
  have hc := farC_pos h
  have g1 : 0 < cfg.γ - 1 := by linarith
  cases hv' : cfg.visc with
  | inviscid => exact absurd hv' hv
  | constant => exact ⟨1, (C30_other_laws cfg U).1 hv', one_pos⟩
  | sutherland Tm =>
    exact ⟨_, viscosity_sutherland h hv' hT T0,
      sutherland_pos (div_pos (h.tm Tm hv') h.tref) (by positivity)⟩

theorem ref_pos {cfg : FlowCfg} (h : cfg.Accepted) (hv : cfg.visc ≠ .inviscid)
    (hM : 0 < cfg.Ma) : ∃ r, cfg.referenceReynolds = .ok r ∧ 0 < r := by
  have hc := farC_pos h
  have hR := h.reynolds
  refine ⟨cfg.Re / (cfg.Ma * farC cfg), ?_, by positivity⟩
  unfold FlowCfg.referenceReynolds FlowCfg.reynolds
  cases hv' : cfg.visc with
  | inviscid => exact absurd hv' hv
  | constant => simp [bind, Except.bind, mag_eq h]
  | sutherland Tm => simp [bind, Except.bind, mag_eq h]

theorem prandtl_eq {cfg : FlowCfg} (hv : cfg.visc ≠ .inviscid) : cfg.prandtl = .ok cfg.Pr := by
  unfold FlowCfg.prandtl
  cases hv' : cfg.visc with
  | inviscid => exact absurd hv' hv
  | constant => rfl
  | sutherland Tm => rfl

/-- **C31** The strain rate computed from a velocity gradient is the symmetric part minus a
third of the divergence; it is symmetric, and trace free in three dimensions (in two
dimensions exactly for divergence free flows). -/
theorem C31_strain {dU : Grads n} (he : dU.eps = none) {G : Matrix (Fin n) (Fin n) ℝ}
    (hG : dU.grad_u = some G) :
    ∃ ε, strainRateTensor dU = .ok ε ∧ (∀ i j, ε i j = ε j i) ∧
      (∀ i j, 2 * ε i j = G i j + G j i - if i = j then 2 / 3 * ∑ k, G k k else 0) ∧
      (∑ i, ε i i = (1 - n / 3) * ∑ i, G i i) ∧ (n = 3 → ∑ i, ε i i = 0) := by
  refine ⟨(0.5 : ℝ) • (G + Gᵀ) - (1 / 3 * G.trace) • (1 : Matrix (Fin n) (Fin n) ℝ), ?_, ?_, ?_, ?_⟩
  · simp [strainRateTensor, he, hG, equation, equationE]
  · intro i j
    simp only [Matrix.sub_apply, Matrix.smul_apply, Matrix.add_apply, Matrix.transpose_apply,
      Matrix.one_apply, smul_eq_mul, eq_comm (a := i)]
    ring
  · intro i j
    simp only [Matrix.sub_apply, Matrix.smul_apply, Matrix.add_apply, Matrix.transpose_apply,
      Matrix.one_apply, smul_eq_mul, Matrix.trace, Matrix.diag]
    split_ifs <;> ring
  · have key : ∑ i, ((0.5 : ℝ) • (G + Gᵀ) - (1 / 3 * G.trace) • (1 : Matrix (Fin n) (Fin n) ℝ)) i i
        = (1 - n / 3) * ∑ i, G i i := by
      simp only [Matrix.sub_apply, Matrix.smul_apply, Matrix.add_apply, Matrix.transpose_apply,
        Matrix.one_apply_eq, smul_eq_mul, Matrix.trace, Matrix.diag, Finset.sum_sub_distrib,
        ← Finset.mul_sum, Finset.sum_add_distrib, Finset.sum_const, Finset.card_univ,
        Fintype.card_fin, nsmul_eq_mul]
      ring
    refine ⟨key, fun h3 => ?_⟩
    have h3' : (n : ℝ) = 3 := by exact_mod_cast h3
    rw [key, h3']; norm_num

/-- **C31** The viscous stress is that of a Newtonian fluid with viscosity `mu / Re_ref`. -/
theorem C31_stress {cfg : FlowCfg} {U : Flow n} {dU : Grads n} (he : dU.eps = none)
    {G : Matrix (Fin n) (Fin n) ℝ} (hG : dU.grad_u = some G) {μ r : ℝ}
    (hμ : viscosity cfg U = .ok μ) (hr : cfg.referenceReynolds = .ok r) :
    deviatoricStressTensor cfg U dU = .ok (newtonianStress (μ / r) G) := by
  obtain ⟨ε, hε, -, h2, -⟩ := C31_strain he hG
  unfold deviatoricStressTensor
  rw [hμ, hr, hε]
  simp only [bind, Except.bind]
  congr 1
  ext i j
  simp only [Matrix.smul_apply, smul_eq_mul, newtonianStress, Matrix.of_apply]
  rw [← h2 i j]; ring

theorem dissipation_nonneg (hn : n ≤ 3) {μ : ℝ} (hμ : 0 ≤ μ) (G : Matrix (Fin n) (Fin n) ℝ) :
    0 ≤ ∑ i, ∑ j, newtonianStress μ G i j * G i j := by
  have e1 : ∑ i, ∑ j, newtonianStress μ G i j * G i j
      = μ * (∑ i, ∑ j, (G i j + G j i) * G i j - 2 / 3 * (∑ k, G k k) ^ 2) := by
    have : ∀ i j, newtonianStress μ G i j * G i j
        = μ * ((G i j + G j i) * G i j) - (if i = j then μ * (2 / 3 * ∑ k, G k k) * G i j else 0) := by
      intro i j
      simp only [newtonianStress, Matrix.of_apply]
      split_ifs <;> ring
    simp only [this, Finset.sum_sub_distrib, Finset.sum_ite_eq, Finset.mem_univ, if_true,
      ← Finset.mul_sum]
    ring
  have e2 : ∑ i, ∑ j, (G i j + G j i) * G i j = ∑ i, ∑ j, 1 / 2 * (G i j + G j i) ^ 2 := by
    have h1 : ∑ i, ∑ j, (G i j + G j i) * G i j = ∑ i, ∑ j, (G i j + G j i) * G j i := by
      rw [Finset.sum_comm]
      refine Finset.sum_congr rfl fun i _ => Finset.sum_congr rfl fun j _ => by ring
    have h2 : ∑ i, ∑ j, 1 / 2 * (G i j + G j i) ^ 2
        = 1 / 2 * (∑ i, ∑ j, (G i j + G j i) * G i j + ∑ i, ∑ j, (G i j + G j i) * G j i) := by
      simp only [← Finset.sum_add_distrib, Finset.mul_sum]
      refine Finset.sum_congr rfl fun i _ => Finset.sum_congr rfl fun j _ => by ring
    rw [h2, ← h1]; ring
  have e3 : 2 * ∑ i, (G i i) ^ 2 ≤ ∑ i, ∑ j, 1 / 2 * (G i j + G j i) ^ 2 := by
    rw [Finset.mul_sum]
    refine Finset.sum_le_sum fun i _ => ?_
    calc 2 * G i i ^ 2 = 1 / 2 * (G i i + G i i) ^ 2 := by ring
      _ ≤ _ := Finset.single_le_sum (f := fun j => 1 / 2 * (G i j + G j i) ^ 2)
          (fun j _ => by positivity) (Finset.mem_univ i)
  have e4 : (∑ i, G i i) ^ 2 ≤ n * ∑ i, (G i i) ^ 2 := by
    have := sq_sum_le_card_mul_sum_sq (s := (Finset.univ : Finset (Fin n))) (f := fun i => G i i)
    simpa using this
  have hn' : (n : ℝ) ≤ 3 := by exact_mod_cast hn
  have e5 : 0 ≤ ∑ i, (G i i) ^ 2 := Finset.sum_nonneg fun i _ => sq_nonneg _
  rw [e1, e2]
  refine mul_nonneg hμ ?_
  nlinarith

/-- **C31** In two and three dimensions the viscous stress computed from a velocity gradient
dissipates: `τ : ∇u ≥ 0` for every velocity gradient and every viscous configuration. -/
theorem C31_dissipation {cfg : FlowCfg} (h : cfg.Accepted) (hv : cfg.visc ≠ .inviscid)
    (hM : 0 < cfg.Ma) (hn : n ≤ 3) {U : Flow n} {T : ℝ} (hT : U.T = some T) (T0 : 0 < T)
    {dU : Grads n} (he : dU.eps = none) {G : Matrix (Fin n) (Fin n) ℝ} (hG : dU.grad_u = some G) :
    ∃ τ, deviatoricStressTensor cfg U dU = .ok τ ∧ (∀ i j, τ i j = τ j i) ∧
      0 ≤ ∑ i, ∑ j, τ i j * G i j := by
  obtain ⟨μ, hμ, μ0⟩ := visc_pos h hv hT T0
  obtain ⟨r, hr, r0⟩ := ref_pos h hv hM
  refine ⟨_, C31_stress he hG hμ hr, ?_, dissipation_nonneg hn (by positivity) G⟩
  intro i j
  simp only [newtonianStress, Matrix.of_apply, eq_comm (a := i)]
  ring

/-- **C31** The stress of a strain rate supplied directly (the mixed variable) is
`2 mu / Re_ref` times it, and symmetric when the strain rate is. -/
theorem C31_stress_of_strain {cfg : FlowCfg} {U : Flow n} {dU : Grads n}
    {ε : Matrix (Fin n) (Fin n) ℝ} (he : dU.eps = some ε) {μ r : ℝ}
    (hμ : viscosity cfg U = .ok μ) (hr : cfg.referenceReynolds = .ok r) :
    ∃ τ, deviatoricStressTensor cfg U dU = .ok τ ∧ (∀ i j, τ i j = 2 * (μ / r) * ε i j) ∧
      ((∀ i j, ε i j = ε j i) → ∀ i j, τ i j = τ j i) := by
  refine ⟨(2 * μ / r) • ε, ?_, fun i j => ?_, fun hs i j => ?_⟩
  · simp [deviatoricStressTensor, hμ, hr, strainRateTensor, he, equation, equationE, bind,
      Except.bind]
  · simp only [Matrix.smul_apply, smul_eq_mul]; ring
  · simp only [Matrix.smul_apply, smul_eq_mul, hs i j]

/-- **C31** Heat flows from hot to cold: the heat flux is a negative multiple of the
temperature gradient, so its component along the gradient is negative unless the gradient
vanishes. -/
theorem C31_heat {cfg : FlowCfg} (h : cfg.Accepted) (hv : cfg.visc ≠ .inviscid)
    (hM : 0 < cfg.Ma) {U : Flow n} {T : ℝ} (hT : U.T = some T) (T0 : 0 < T)
    {dU : Grads n} {g : Fin n → ℝ} (hg : dU.grad_T = some g) :
    ∃ q κ, heatFlux cfg U dU = .ok q ∧ 0 < κ ∧ (∀ i, q i = -κ * g i) ∧
      ∑ i, q i * g i ≤ 0 ∧ (g ≠ 0 → ∑ i, q i * g i < 0) := by
  obtain ⟨μ, hμ, μ0⟩ := visc_pos h hv hT T0
  obtain ⟨r, hr, r0⟩ := ref_pos h hv hM
  have hP := h.prandtl
  have hκ : 0 < μ / (r * cfg.Pr) := by positivity
  have hs : ∑ i, ((-μ / (r * cfg.Pr)) • g) i * g i = -(μ / (r * cfg.Pr)) * (g ⬝ᵥ g) := by
    simp only [Pi.smul_apply, smul_eq_mul, dotProduct, Finset.mul_sum]
    refine Finset.sum_congr rfl fun i _ => by ring
  have h0 : 0 ≤ g ⬝ᵥ g := Finset.sum_nonneg fun i _ => mul_self_nonneg _
  refine ⟨(-μ / (r * cfg.Pr)) • g, μ / (r * cfg.Pr), ?_, hκ, fun i => ?_, ?_, fun hne => ?_⟩
  · simp [heatFlux, hμ, hr, prandtl_eq hv, hg, bind, Except.bind]
  · simp only [Pi.smul_apply, smul_eq_mul]; ring
  · rw [hs]; nlinarith
  · have : 0 < g ⬝ᵥ g := lt_of_le_of_ne h0 fun e => hne (dotProduct_self_eq_zero.1 e.symm)
    rw [hs]; nlinarith

theorem flux_mulVec {τ : Matrix (Fin n) (Fin n) ℝ} (hsym : ∀ i j, τ i j = τ j i) {κ : ℝ}
    {q g u d : Fin n → ℝ} (hq : ∀ i, q i = -κ * g i) :
    (Matrix.of (Fin.cons (fun _ => 0) (Fin.snoc (fun i => τ i) (τ *ᵥ u - q)))
      : Matrix (Fin (n + 2)) (Fin n) ℝ) *ᵥ d = viscousFlux τ κ g u d := by
  funext k
  refine Fin.cases ?_ (fun k => ?_) k
  · simp [viscousFlux, Matrix.mulVec, dotProduct]
  · refine Fin.lastCases ?_ (fun i => ?_) k
    · simp only [viscousFlux, Matrix.mulVec, dotProduct, Matrix.of_apply, Fin.cons_succ,
        Fin.snoc_last, Pi.sub_apply, hq]
      simp only [sub_mul, Finset.sum_sub_distrib, Finset.mul_sum, Finset.sum_mul]
      rw [Finset.sum_comm, sub_eq_add_neg, ← Finset.sum_neg_distrib]
      congr 1
      · refine Finset.sum_congr rfl fun i _ => Finset.sum_congr rfl fun j _ => ?_
        rw [hsym j i]; ring
      · refine Finset.sum_congr rfl fun i _ => ?_
        ring
    · simp only [viscousFlux, Matrix.mulVec, dotProduct, Matrix.of_apply, Fin.cons_succ,
        Fin.snoc_castSucc]

/-- **C31** The diffusive flux through a face is the viscous flux of the Navier-Stokes
equations: no mass flux, the viscous force, and its work plus the conducted heat, with
viscosity `mu / Re_ref` and heat conductivity `mu / (Re_ref Pr)`. -/
theorem C31_flux {cfg : FlowCfg} (hv : cfg.visc ≠ .inviscid) {U : Flow n} {u : Fin n → ℝ}
    (hu : velocity U = .ok u) {dU : Grads n} {g : Fin n → ℝ} (hg : dU.grad_T = some g)
    (he : dU.eps = none) {G : Matrix (Fin n) (Fin n) ℝ} (hG : dU.grad_u = some G) {μ r : ℝ}
    (hμ : viscosity cfg U = .ok μ) (hr : cfg.referenceReynolds = .ok r) (d : Fin n → ℝ) :
    ∃ F, diffusiveFlux cfg U dU = .ok F ∧
      F *ᵥ d = viscousFlux (newtonianStress (μ / r) G) (μ / (r * cfg.Pr)) g u d := by
  have hq : heatFlux cfg U dU = .ok ((-μ / (r * cfg.Pr)) • g) := by
    simp [heatFlux, hμ, hr, prandtl_eq hv, hg, bind, Except.bind]
  refine ⟨_, by
    simp only [diffusiveFlux, hu, C31_stress he hG hμ hr, hq, bind, Except.bind]; rfl, ?_⟩
  refine flux_mulVec (fun i j => ?_) (fun i => ?_)
  · simp only [newtonianStress, Matrix.of_apply, eq_comm (a := i)]; ring
  · simp only [Pi.smul_apply, smul_eq_mul]; ring

/-- **C31** The same with a symmetric strain rate supplied directly. -/
theorem C31_flux_of_strain {cfg : FlowCfg} (hv : cfg.visc ≠ .inviscid) {U : Flow n}
    {u : Fin n → ℝ} (hu : velocity U = .ok u) {dU : Grads n} {g : Fin n → ℝ}
    (hg : dU.grad_T = some g) {ε : Matrix (Fin n) (Fin n) ℝ} (he : dU.eps = some ε)
    (hε : ∀ i j, ε i j = ε j i) {μ r : ℝ} (hμ : viscosity cfg U = .ok μ)
    (hr : cfg.referenceReynolds = .ok r) (d : Fin n → ℝ) :
    ∃ F, diffusiveFlux cfg U dU = .ok F ∧
      F *ᵥ d = viscousFlux ((2 * (μ / r)) • ε) (μ / (r * cfg.Pr)) g u d := by
  have hq : heatFlux cfg U dU = .ok ((-μ / (r * cfg.Pr)) • g) := by
    simp [heatFlux, hμ, hr, prandtl_eq hv, hg, bind, Except.bind]
  have hτ : deviatoricStressTensor cfg U dU = .ok ((2 * (μ / r)) • ε) := by
    simp [deviatoricStressTensor, hμ, hr, strainRateTensor, he, equation, equationE, bind,
      Except.bind, mul_div_assoc]
  refine ⟨_, by simp only [diffusiveFlux, hu, hτ, hq, bind, Except.bind]; rfl, ?_⟩
  refine flux_mulVec (fun i j => ?_) (fun i => ?_)
  · simp only [Matrix.smul_apply, smul_eq_mul, hε i j]
  · simp only [Pi.smul_apply, smul_eq_mul]; ring

example : ∃ τ, deviatoricStressTensor demoCfg ({ T := some 2 } : Flow 2)
    { grad_u := some !![1, 2; 3, 4] } = .ok τ ∧ (∀ i j, τ i j = τ j i) ∧
      0 ≤ ∑ i, ∑ j, τ i j * (!![1, 2; 3, 4] : Matrix (Fin 2) (Fin 2) ℝ) i j :=
  C31_dissipation demoCfg_accepted (by simp [demoCfg]) (by norm_num [demoCfg]) (by norm_num) rfl
    (by norm_num) rfl rfl

example : ∃ q κ, heatFlux demoCfg ({ T := some 2 } : Flow 2) { grad_T := some ![1, -2] } = .ok q ∧
    0 < κ ∧ (∀ i, q i = -κ * (![1, -2] : Fin 2 → ℝ) i) ∧
      ∑ i, q i * (![1, -2] : Fin 2 → ℝ) i ≤ 0 ∧
      ((![1, -2] : Fin 2 → ℝ) ≠ 0 → ∑ i, q i * (![1, -2] : Fin 2 → ℝ) i < 0) :=
  C31_heat demoCfg_accepted (by simp [demoCfg]) (by norm_num [demoCfg]) rfl (by norm_num) rfl

/-! ### C32 -/

/-- The viscous flux in two dimensions as a function of the conservative variables
`w = (ρ, ρu, ρv, ρE)` and of the mixed variables `q = (εxx, εxy, εyy, ∂xT, ∂yT)`, for a given
viscosity `μ` and Prandtl number. -/
noncomputable def viscousFlux2 (μ Pr : ℝ) (d : Fin 2 → ℝ) (w : Fin 4 → ℝ) (q : Fin 5 → ℝ) :
    Fin 4 → ℝ :=
  viscousFlux (n := 2) !![2 * μ * q 0, 2 * μ * q 1; 2 * μ * q 1, 2 * μ * q 2] (μ / Pr) ![q 3, q 4]
    ![w 1 / w 0, w 2 / w 0] d

theorem viscousFlux2_eq (μ Pr : ℝ) (d : Fin 2 → ℝ) (w : Fin 4 → ℝ) (q : Fin 5 → ℝ) :
    viscousFlux2 μ Pr d w q = ![0, 2 * μ * q 0 * d 0 + 2 * μ * q 1 * d 1,
      2 * μ * q 1 * d 0 + 2 * μ * q 2 * d 1,
      (2 * μ * q 0 * d 0 + 2 * μ * q 1 * d 1) * (w 1 / w 0)
        + (2 * μ * q 1 * d 0 + 2 * μ * q 2 * d 1) * (w 2 / w 0)
        + μ / Pr * (q 3 * d 0 + q 4 * d 1)] := by
  funext i
  simp only [viscousFlux2, viscousFlux, Fin.sum_univ_two]
  fin_cases i <;> rfl

/-- **C32** `viscousFlux2` with `μ = mu / Re_ref` is the flux the code computes from the
conservative and the mixed variables. -/
theorem C32_flux {cfg : FlowCfg} (hv : cfg.visc ≠ .inviscid) {w : Fin 4 → ℝ}
    {q : Fin 5 → ℝ} {U : Flow 2} (hu : U.u = some ![w 1 / w 0, w 2 / w 0]) {μ r : ℝ}
    (hμ : viscosity cfg U = .ok μ) (hr : cfg.referenceReynolds = .ok r) (d : Fin 2 → ℝ) :
    ∃ F, diffusiveFlux cfg U (strainHeatFields q) = .ok F ∧
      F *ᵥ d = viscousFlux2 (μ / r) cfg.Pr d w q := by
  have hvel : velocity U = .ok ![w 1 / w 0, w 2 / w 0] := by
    simp [velocity, hu, equation, equationE]
  obtain ⟨F, hF, e⟩ := C31_flux_of_strain (dU := strainHeatFields q) hv hvel rfl rfl
    (fun i j => by fin_cases i <;> fin_cases j <;> simp) hμ hr d
  refine ⟨F, hF, e.trans ?_⟩
  unfold viscousFlux2
  congr 1
  · ext i j; fin_cases i <;> fin_cases j <;> simp
  · rw [div_div]

theorem mixedJac_eq {cfg : FlowCfg} (hv : cfg.visc ≠ .inviscid) {U : Flow 2} {u : Fin 2 → ℝ}
    (hu : U.u = some u) {μ r : ℝ} (hμ : viscosity cfg U = .ok μ)
    (hr : cfg.referenceReynolds = .ok r) (d : Fin 2 → ℝ) :
    mixedDiffusiveJacobian cfg U d = .ok ((μ / r) • !![0, 0, 0, 0, 0;
      2 * d 0, 2 * d 1, 0, 0, 0;
      0, 2 * d 0, 2 * d 1, 0, 0;
      2 * u 0 * d 0, 2 * u 1 * d 0 + 2 * u 0 * d 1, 2 * u 1 * d 1, d 0 / cfg.Pr,
        d 1 / cfg.Pr]) := by
  simp only [mixedDiffusiveJacobian, mixedDiffusiveJacobianX, mixedDiffusiveJacobianY,
    storedVelocity, hu, hμ, hr, prandtl_eq hv, bind, Except.bind]
  congr 1
  ext i j
  fin_cases i <;> fin_cases j <;> simp <;> ring

theorem consDiffJac_eq {cfg : FlowCfg} {U : Flow 2} {ρ : ℝ} (hρ : U.rho = some ρ)
    {u : Fin 2 → ℝ} (hu : U.u = some u) {μ r : ℝ} (hμ : viscosity cfg U = .ok μ)
    (hr : cfg.referenceReynolds = .ok r) (q : Fin 5 → ℝ) (d : Fin 2 → ℝ) :
    conservativeDiffusiveJacobian cfg U (strainHeatFields q) d = .ok !![0, 0, 0, 0;
      0, 0, 0, 0;
      0, 0, 0, 0;
      -((2 * (μ / r) * q 0 * d 0 + 2 * (μ / r) * q 1 * d 1) * (u 0 / ρ)
        + (2 * (μ / r) * q 1 * d 0 + 2 * (μ / r) * q 2 * d 1) * (u 1 / ρ)),
      (2 * (μ / r) * q 0 * d 0 + 2 * (μ / r) * q 1 * d 1) / ρ,
      (2 * (μ / r) * q 1 * d 0 + 2 * (μ / r) * q 2 * d 1) / ρ, 0] := by
  have hτ : deviatoricStressTensor cfg U (strainHeatFields q)
      = .ok ((2 * μ / r) • !![q 0, q 1; q 1, q 2]) := by
    simp [deviatoricStressTensor, hμ, hr, strainRateTensor, strainHeatFields, equation, equationE,
      bind, Except.bind]
  have hd : density cfg.γ U = .ok ρ := by simp [density, EOS.density, hρ, equation, equationE]
  simp only [conservativeDiffusiveJacobian, conservativeDiffusiveJacobianX,
    conservativeDiffusiveJacobianY, storedVelocity, hu, hτ, hd, bind, Except.bind]
  congr 1
  ext i j
  fin_cases i <;> fin_cases j <;> simp <;> ring

/-- **C32** The mixed diffusive Jacobian is the matrix of the partial derivatives of the
diffusive flux with respect to the mixed variables, for every viscosity law. -/
theorem C32_mixed {cfg : FlowCfg} (hv : cfg.visc ≠ .inviscid) {w : Fin 4 → ℝ}
    {U : Flow 2} (hu : U.u = some ![w 1 / w 0, w 2 / w 0]) {μ r : ℝ}
    (hμ : viscosity cfg U = .ok μ) (hr : cfg.referenceReynolds = .ok r) (d : Fin 2 → ℝ)
    (q : Fin 5 → ℝ) :
    ∃ J, mixedDiffusiveJacobian cfg U d = .ok J ∧
      IsPartials (fun q => viscousFlux2 (μ / r) cfg.Pr d w q) q J := by
  refine ⟨_, mixedJac_eq hv hu hμ hr d, fun i j => ?_⟩
  simp only [viscousFlux2_eq]
  have hlin : ∀ a b : ℝ, HasDerivAt (fun t : ℝ => a + b * t) b 0 := fun a b => by
    simpa using ((hasDerivAt_id (0 : ℝ)).const_mul b).const_add a
  have key : ∀ (f : ℝ → ℝ) (b : ℝ), (∀ t, f t = f 0 + b * t) → HasDerivAt f b 0 := by
    intro f b hf
    have := hlin (f 0) b
    rwa [show (fun t : ℝ => f 0 + b * t) = f from funext fun t => (hf t).symm] at this
  refine key _ _ fun t => ?_
  fin_cases i <;> fin_cases j <;> simp <;> ring

/-- With the viscosity frozen the conservative diffusive Jacobian is the matrix of the
partial derivatives of the diffusive flux with respect to the conservative variables. -/
theorem frozen_conservative {cfg : FlowCfg} {w : Fin 4 → ℝ}
    (w0 : w 0 ≠ 0) {U : Flow 2} (hρ : U.rho = some (w 0))
    (hu : U.u = some ![w 1 / w 0, w 2 / w 0]) {μ r : ℝ}
    (hμ : viscosity cfg U = .ok μ) (hr : cfg.referenceReynolds = .ok r) (d : Fin 2 → ℝ)
    (q : Fin 5 → ℝ) :
    ∃ J, conservativeDiffusiveJacobian cfg U (strainHeatFields q) d = .ok J ∧
      IsPartials (fun w => viscousFlux2 (μ / r) cfg.Pr d w q) w J := by
  refine ⟨_, consDiffJac_eq hρ hu hμ hr q d, fun i j => ?_⟩
  simp only [viscousFlux2_eq]
  have hconst : ∀ (f : ℝ → ℝ) (b : ℝ), b = 0 → (∀ t, f t = f 0) → HasDerivAt f b 0 := by
    rintro f b rfl hf
    have : f = fun _ => f 0 := funext hf
    rw [this]; exact hasDerivAt_const _ _
  have hlin : ∀ (f : ℝ → ℝ) (b : ℝ), (∀ t, f t = f 0 + b * t) → HasDerivAt f b 0 := by
    intro f b hf
    have : HasDerivAt (fun t : ℝ => f 0 + b * t) b 0 := by
      simpa using ((hasDerivAt_id (0 : ℝ)).const_mul b).const_add (f 0)
    rwa [show (fun t : ℝ => f 0 + b * t) = f from funext fun t => (hf t).symm] at this
  set A := 2 * (μ / r) * q 0 * d 0 + 2 * (μ / r) * q 1 * d 1
  set B := 2 * (μ / r) * q 1 * d 0 + 2 * (μ / r) * q 2 * d 1
  set C := μ / r / cfg.Pr * (q 3 * d 0 + q 4 * d 1)
  have hinv : ∀ a : ℝ, HasDerivAt (fun t : ℝ => a / (w 0 + t)) (-(a / w 0 ^ 2)) 0 := by
    intro a
    have h1 : HasDerivAt (fun t : ℝ => w 0 + t) 1 0 := by
      simpa using (hasDerivAt_id (0 : ℝ)).const_add (w 0)
    have h2 := (h1.inv (by simpa using w0)).const_mul a
    simp only [add_zero] at h2
    refine HasDerivAt.congr_deriv (by simpa [div_eq_mul_inv] using h2) ?_
    field_simp
  have h0 : HasDerivAt (fun t : ℝ => A * (w 1 / (w 0 + t)) + B * (w 2 / (w 0 + t)) + C)
      (-(A * (w 1 / w 0 / w 0) + B * (w 2 / w 0 / w 0))) 0 := by
    refine HasDerivAt.congr_deriv
      ((((hinv (w 1)).const_mul A).add ((hinv (w 2)).const_mul B)).add_const C) ?_
    field_simp; ring
  fin_cases i
  · refine hconst _ _ ?_ fun t => ?_ <;> fin_cases j <;> simp
  · refine hconst _ _ ?_ fun t => ?_ <;> fin_cases j <;> simp
  · refine hconst _ _ ?_ fun t => ?_ <;> fin_cases j <;> simp
  · fin_cases j
    · refine (h0.congr_of_eventuallyEq (Filter.Eventually.of_forall fun t => ?_)).congr_deriv ?_
      · simp
      · simp
    · refine hlin _ _ fun t => ?_
      simp; field_simp; ring
    · refine hlin _ _ fun t => ?_
      simp; field_simp; ring
    · refine hlin _ _ fun t => ?_
      simp

/-- The diffusive flux in direction `d` that the code computes from the conservative vector
`w` and the mixed vector `q`: recover the fields, compute the flux, multiply by `d`. -/
noncomputable def codeDiffusiveFlux (cfg : FlowCfg) (d : Fin 2 → ℝ) (q : Fin 5 → ℝ)
    (w : Fin 4 → ℝ) : Except PyErr (Fin 4 → ℝ) := do
  let U ← getConservativeFields cfg.γ (w 0) ![w 1, w 2] (w 3)
  let F ← diffusiveFlux cfg U (strainHeatFields q)
  .ok (F *ᵥ d)

/-- Temperature of a conservative vector in two dimensions. -/
noncomputable def tempOf (γ : ℝ) (w : Fin 4 → ℝ) : ℝ :=
  γ * (w 3 / w 0 - (w 1 ^ 2 + w 2 ^ 2) / (2 * w 0 ^ 2))

theorem fields_of {γ : ℝ} (hγ : 1 < γ) {w : Fin 4 → ℝ} (w0 : w 0 ≠ 0) :
    ∃ U, getConservativeFields γ (w 0) ![w 1, w 2] (w 3) = .ok U ∧
      U.rho = some (w 0) ∧ U.u = some ![w 1 / w 0, w 2 / w 0] ∧ U.T = some (tempOf γ w) := by
  have g1 : γ - 1 ≠ 0 := by linarith
  simp only [getConservativeFields, velocity, kineticEnergy, innerEnergy, EOS.innerEnergy,
    pressure, EOS.pressure, temperature, EOS.temperature, speedOfSound, EOS.speedOfSound, equation,
    equationE, bind, Except.bind, Option.orElse_eq_orElse, Option.orElse_none, Option.orElse_some,
    Option.bind_some, Option.bind_none, Except.ok.injEq, exists_eq_left', true_and,
    Option.some.injEq]
  constructor
  · funext i; fin_cases i <;> simp [div_eq_inv_mul]
  · simp [dotProduct, Fin.sum_univ_two, tempOf]
    field_simp

/-- **C32** With constant viscosity the conservative diffusive Jacobian is the matrix of the
partial derivatives of the diffusive flux with respect to the conservative variables, at every
state with non-zero density. The full claim, for every viscosity law, is false:
`C32_fails_sutherland`. -/
theorem C32_conservative_partial {cfg : FlowCfg} (hγ : 1 < cfg.γ) (hv : cfg.visc = .constant)
    {w : Fin 4 → ℝ} (w0 : w 0 ≠ 0) (q : Fin 5 → ℝ) (d : Fin 2 → ℝ) :
    ∃ (U : Flow 2) (J : Matrix (Fin 4) (Fin 4) ℝ) (f : (Fin 4 → ℝ) → Fin 4 → ℝ),
      getConservativeFields cfg.γ (w 0) ![w 1, w 2] (w 3) = .ok U ∧
      conservativeDiffusiveJacobian cfg U (strainHeatFields q) d = .ok J ∧
      (∀ w', w' 0 ≠ 0 → codeDiffusiveFlux cfg d q w' = .ok (f w')) ∧ IsPartials f w J := by
  have hv' : cfg.visc ≠ .inviscid := by rw [hv]; simp
  have hr : cfg.referenceReynolds = .ok (cfg.Re / cfg.scaling.velocityMagnitude cfg.Ma) := by
    simp [FlowCfg.referenceReynolds, FlowCfg.reynolds, hv, bind, Except.bind]
  obtain ⟨U, hU, hρ, hu, -⟩ := fields_of hγ w0
  obtain ⟨J, hJ, hp⟩ := frozen_conservative w0 hρ hu ((C30_other_laws cfg U).1 hv) hr d q
  refine ⟨U, J, _, hU, hJ, fun w' h0 => ?_, hp⟩
  obtain ⟨U', hU', -, hu', -⟩ := fields_of hγ h0
  obtain ⟨F, hF, e⟩ := C32_flux hv' (q := q) hu' ((C30_other_laws cfg U').1 hv) hr d
  simp only [codeDiffusiveFlux, hU', hF, bind, Except.bind, e]

example : ∃ (U : Flow 2) (J : Matrix (Fin 4) (Fin 4) ℝ) (f : (Fin 4 → ℝ) → Fin 4 → ℝ),
    getConservativeFields (7 / 5) 2 ![1, 3] 10 = .ok U ∧
    conservativeDiffusiveJacobian { demoCfg with visc := .constant } U
      (strainHeatFields ![1, 2, 3, 4, 5]) ![0, 1] = .ok J ∧
    (∀ w', w' 0 ≠ 0 → codeDiffusiveFlux { demoCfg with visc := .constant } ![0, 1]
      ![1, 2, 3, 4, 5] w' = .ok (f w')) ∧ IsPartials f ![2, 1, 3, 10] J :=
  C32_conservative_partial (cfg := { demoCfg with visc := .constant }) (w := ![2, 1, 3, 10])
    (by norm_num [demoCfg]) rfl (by norm_num) _ _

/-- **C32** With Sutherland viscosity the conservative diffusive Jacobian is not the derivative
of the diffusive flux: it has no entry for the change of the viscosity with temperature. -/
theorem C32_fails_sutherland :
    ∃ (cfg : FlowCfg) (w : Fin 4 → ℝ) (q : Fin 5 → ℝ) (d : Fin 2 → ℝ) (U : Flow 2)
      (J : Matrix (Fin 4) (Fin 4) ℝ),
      cfg.Accepted ∧ 0 < w 0 ∧ 0 < tempOf cfg.γ w ∧
      getConservativeFields cfg.γ (w 0) ![w 1, w 2] (w 3) = .ok U ∧
      conservativeDiffusiveJacobian cfg U (strainHeatFields q) d = .ok J ∧
      ∀ f : (Fin 4 → ℝ) → Fin 4 → ℝ,
        (∀ w', 0 < w' 0 → 0 < tempOf cfg.γ w' → codeDiffusiveFlux cfg d q w' = .ok (f w')) →
        ¬ IsPartials f w J := by
  let cfg : FlowCfg := { γ := 2, Ma := 1, Re := 1, Pr := 1, scaling := .acoustic,
                         visc := .sutherland 1, Tref := 1 }
  have hA : cfg.Accepted := by constructor <;> simp [cfg]
  have hv : cfg.visc ≠ .inviscid := by simp [cfg]
  have hr : cfg.referenceReynolds = .ok 1 := by
    simp [FlowCfg.referenceReynolds, FlowCfg.reynolds, cfg, bind, Except.bind,
      Scaling.velocityMagnitude]
  have hγ : 1 < cfg.γ := hA.gamma
  have hvis : ∀ (U : Flow 2) (T : ℝ), U.T = some T → 0 < T →
      viscosity cfg U = .ok (sutherland 1 T) := by
    intro U T hT T0
    rw [viscosity_sutherland hA rfl hT T0]
    simp only [farC, cfg]; norm_num
  let w : Fin 4 → ℝ := ![1, 0, 0, 1 / 2]
  have hw : tempOf cfg.γ w = 1 := by simp [tempOf, w, cfg]
  obtain ⟨U, hU, hρ, hu, hT⟩ := fields_of hγ (w := w) (by simp [w])
  have hμ := hvis U _ hT (by rw [hw]; norm_num)
  refine ⟨cfg, w, ![1, 0, 0, 0, 0], ![1, 0], U, _, hA, by simp [w], by rw [hw]; norm_num, hU,
    consDiffJac_eq hρ hu hμ hr _ _, fun f hf hp => ?_⟩
  have h13 := hp 1 3
  simp only [Matrix.of_apply, Matrix.cons_val', Matrix.cons_val_one, Matrix.cons_val] at h13
  have hline : ∀ t : ℝ, -(1 / 4) < t →
      f (w + t • Pi.single 3 1) 1 = 2 * sutherland 1 (1 + 2 * t) := by
    intro t ht
    have hT' : tempOf cfg.γ (w + t • Pi.single 3 1) = 1 + 2 * t := by
      simp [tempOf, w, cfg]; ring
    have hpos : 0 < tempOf cfg.γ (w + t • Pi.single 3 1) := by rw [hT']; linarith
    have h0 : (w + t • (Pi.single 3 1 : Fin 4 → ℝ)) 0 = 1 := by simp [w]
    obtain ⟨U', hU', -, hu', hTT⟩ := fields_of hγ (w := w + t • Pi.single 3 1) (by rw [h0]; simp)
    obtain ⟨F, hF, e⟩ := C32_flux hv (q := ![1, 0, 0, 0, 0]) hu' (hvis U' _ hTT hpos) hr ![1, 0]
    have h1 := hf _ (by rw [h0]; norm_num) hpos
    simp only [codeDiffusiveFlux, hU', hF, bind, Except.bind, e, Except.ok.injEq] at h1
    rw [← h1, viscousFlux2_eq, hT']
    simp
  have hd : HasDerivAt (fun t : ℝ => 2 * sutherland 1 (1 + 2 * t)) 4 0 := by
    have h1 : HasDerivAt (fun t : ℝ => 1 + 2 * t) 2 0 := by
      simpa using ((hasDerivAt_id (0 : ℝ)).const_mul 2).const_add 1
    have h2 : HasDerivAt (fun t : ℝ => (1 + 2 * t) ^ (3 / 2 : ℝ)) 3 0 := by
      have := h1.rpow_const (p := (3 / 2 : ℝ)) (Or.inl (by norm_num))
      refine this.congr_deriv ?_
      norm_num
    have h3 : HasDerivAt (fun t : ℝ => (1 + 2 * t) + 1) 2 0 := h1.add_const 1
    have h4 := ((h2.mul_const (1 + 1)).div h3 (by norm_num)).const_mul 2
    refine HasDerivAt.congr_deriv (h4.congr_of_eventuallyEq
      (Filter.Eventually.of_forall fun t => rfl)) ?_
    norm_num
  have hd' : HasDerivAt (fun t : ℝ => f (w + t • Pi.single 3 1) 1) 4 0 := by
    refine hd.congr_of_eventuallyEq ?_
    filter_upwards [lt_mem_nhds (show (-(1 / 4) : ℝ) < 0 by norm_num)] with t ht
    exact hline t ht
  have := hd'.unique h13
  norm_num at this

end Dream
