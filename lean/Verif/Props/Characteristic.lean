import Verif.Lemmas.CharApi
import Mathlib.Analysis.Calculus.Deriv.Prod
import Mathlib.Analysis.Calculus.FDeriv.Pi

/-!
# C25, C26, C27: characteristic transformation, Jacobians and their splitting
-/

namespace Dream
open Matrix Spec

variable {γ rho c : ℝ} {u d : Fin 2 → ℝ} {U : Flow 2}

/-- **C25** For every dictionary with density and velocity the matrices between primitive and
conservative variables are returned and are inverse to each other. -/
theorem C25_primitive_conservative (hγ : 1 < γ) (hr : U.rho = some rho) (hu : U.u = some u)
    (r0 : 0 < rho) :
    ∃ M Minv, conservativeFromPrimitive γ U = .ok M ∧ primitiveFromConservative γ U = .ok Minv ∧
      M * Minv = 1 ∧ Minv * M = 1 :=
  ⟨_, _, consFromPrim hr hu, primFromCons hr hu, M_mul_Minv r0.ne' (by linarith),
    Minv_mul_M r0.ne' (by linarith)⟩

/-- **C25** Likewise between characteristic and primitive variables, for every unit normal. -/
theorem C25_characteristic_primitive (hr : U.rho = some rho) (hc : U.c = some c)
    (r0 : 0 < rho) (c0 : 0 < c) (hd : d 0 ^ 2 + d 1 ^ 2 = 1) :
    ∃ L Linv, primitiveFromCharacteristic U d = .ok L ∧ characteristicFromPrimitive U d = .ok Linv ∧
      L * Linv = 1 ∧ Linv * L = 1 :=
  ⟨_, _, primFromChar hr hc, charFromPrim hr hc, L_mul_Linv r0.ne' c0.ne' hd,
    Linv_mul_L r0.ne' c0.ne' hd⟩

/-- **C25** The matrices between characteristic and conservative variables are the products
of the former ones and inverse to each other. -/
theorem C25_characteristic_conservative (hγ : 1 < γ) (hr : U.rho = some rho) (hu : U.u = some u)
    (hc : U.c = some c) (r0 : 0 < rho) (c0 : 0 < c) (hd : d 0 ^ 2 + d 1 ^ 2 = 1) :
    ∃ M Minv L Linv P Pinv, conservativeFromPrimitive γ U = .ok M ∧
      primitiveFromConservative γ U = .ok Minv ∧ primitiveFromCharacteristic U d = .ok L ∧
      characteristicFromPrimitive U d = .ok Linv ∧ conservativeFromCharacteristic γ U d = .ok P ∧
      characteristicFromConservative γ U d = .ok Pinv ∧
      P = M * L ∧ Pinv = Linv * Minv ∧ P * Pinv = 1 ∧ Pinv * P = 1 :=
  ⟨_, _, _, _, _, _, consFromPrim hr hu, primFromCons hr hu, primFromChar hr hc,
    charFromPrim hr hc, consFromChar hr hu hc, charFromCons hr hu hc, P_eq r0.ne' c0.ne',
    Pinv_eq r0.ne', P_mul_Pinv r0.ne' c0.ne' (by linarith) hd,
    Pinv_mul_P r0.ne' c0.ne' (by linarith) hd⟩

/-- **C25** In any other dimension none of the matrices is returned. -/
theorem C25_other_dimensions {n : ℕ} (hn : n ≠ 2) (V : Flow n) (e : Fin n → ℝ) :
    (∃ x, conservativeFromPrimitive γ V = .error x) ∧
    (∃ x, primitiveFromConservative γ V = .error x) ∧
    (∃ x, primitiveFromCharacteristic V e = .error x) ∧
    (∃ x, characteristicFromPrimitive V e = .error x) ∧
    (∃ x, conservativeFromCharacteristic γ V e = .error x) ∧
    (∃ x, characteristicFromConservative γ V e = .error x) := by
  have h : ∀ (p : Prop) [Decidable p] (α : Type) (a b : PyErr),
      ∃ x, (if p then Except.error a else Except.error b : Except PyErr α) = .error x := by
    intro p _ α a b; split_ifs <;> exact ⟨_, rfl⟩
  rcases n with _ | _ | _ | k
  · simp only [conservativeFromPrimitive, primitiveFromConservative, primitiveFromCharacteristic,
      characteristicFromPrimitive, conservativeFromCharacteristic, characteristicFromConservative]
    exact ⟨h _ _ _ _, h _ _ _ _, h _ _ _ _, h _ _ _ _, h _ _ _ _, h _ _ _ _⟩
  · simp only [conservativeFromPrimitive, primitiveFromConservative, primitiveFromCharacteristic,
      characteristicFromPrimitive, conservativeFromCharacteristic, characteristicFromConservative]
    exact ⟨h _ _ _ _, h _ _ _ _, h _ _ _ _, h _ _ _ _, h _ _ _ _, h _ _ _ _⟩
  · exact absurd rfl hn
  · simp only [conservativeFromPrimitive, primitiveFromConservative, primitiveFromCharacteristic,
      characteristicFromPrimitive, conservativeFromCharacteristic, characteristicFromConservative]
    exact ⟨h _ _ _ _, h _ _ _ _, h _ _ _ _, h _ _ _ _, h _ _ _ _, h _ _ _ _⟩

/-- A state satisfying the hypotheses of the C25 theorems: `ρ = 2`, `u = (1,1)`, `c = 1`, normal
`(3/5, 4/5)`. -/
example : ∃ U : Flow 2, U.rho = some 2 ∧ U.u = some ![1, 1] ∧ U.c = some 1 ∧
    ((![3/5, 4/5] : Fin 2 → ℝ) 0) ^ 2 + ((![3/5, 4/5] : Fin 2 → ℝ) 1) ^ 2 = 1 :=
  ⟨{ rho := some 2, u := some ![1, 1], c := some 1 }, rfl, rfl, rfl, by norm_num⟩

section Jacobian
variable {S : GasState 2}

/-- Relation between total energy and speed of sound. -/
theorem energy_sound (hS : IdealGas γ S) :
    γ * (γ - 1) * (S.E - (S.u ⬝ᵥ S.u) / 2) = S.c ^ 2 := by
  have := hS.c_sq
  rw [this, hS.total, hS.kinetic]; ring

/-- **C26** The directional conservative Jacobian of a consistent state is returned, equals
the combination of the x- and y-Jacobians with the components of the normal, and has the
documented characteristic velocities as eigenvalues with the columns of the characteristic
transformation as eigenvectors. -/
theorem C26_conservative_diagonalised (hS : IdealGas γ S) (hr : U.rho = some S.rho)
    (hu : U.u = some S.u) (hc : U.c = some S.c) (hE : U.E = some S.E)
    (hd : d 0 ^ 2 + d 1 ^ 2 = 1) :
    ∃ A Ax Ay P Pinv, conservativeConvectiveJacobian γ U d none = .ok A ∧
      conservativeConvectiveJacobianX γ U = .ok Ax ∧ conservativeConvectiveJacobianY γ U = .ok Ay ∧
      conservativeFromCharacteristic γ U d = .ok P ∧
      characteristicFromConservative γ U d = .ok Pinv ∧
      A = d 0 • Ax + d 1 • Ay ∧
      A * P = P * diagonal ![S.u ⬝ᵥ d - S.c, S.u ⬝ᵥ d, S.u ⬝ᵥ d, S.u ⬝ᵥ d + S.c] ∧
      A = P * diagonal ![S.u ⬝ᵥ d - S.c, S.u ⬝ᵥ d, S.u ⬝ᵥ d, S.u ⬝ᵥ d + S.c] * Pinv := by
  have r0 := hS.rho_pos.ne'
  have c0 := hS.sound_pos.ne'
  have g0 : γ - 1 ≠ 0 := by have := hS.gamma; linarith
  refine ⟨_, matA γ S.E S.u, matB γ S.E S.u, _, _, consJac_eq hr hu hc id none (by simp), ?_, ?_,
    consFromChar hr hu hc, charFromCons hr hu hc, ?_, ?_, rfl⟩
  · simp [conservativeConvectiveJacobianX, hu, hE, equation, equationE]
  · simp [conservativeConvectiveJacobianY, hu, hE, equation, equationE]
  · exact consN_eq r0 c0 g0 hd (energy_sound hS)
  · exact mulDiag (Pinv_mul_P r0 c0 g0 hd) _

/-- **C26** The same for the primitive Jacobian. -/
theorem C26_primitive_diagonalised (hS : IdealGas γ S) (hr : U.rho = some S.rho)
    (hu : U.u = some S.u) (hc : U.c = some S.c) (hd : d 0 ^ 2 + d 1 ^ 2 = 1) :
    ∃ A Ax Ay L, primitiveConvectiveJacobian U d none = .ok A ∧
      primitiveConvectiveJacobianX U = .ok Ax ∧ primitiveConvectiveJacobianY U = .ok Ay ∧
      primitiveFromCharacteristic U d = .ok L ∧
      A = d 0 • Ax + d 1 • Ay ∧
      A * L = L * diagonal ![S.u ⬝ᵥ d - S.c, S.u ⬝ᵥ d, S.u ⬝ᵥ d, S.u ⬝ᵥ d + S.c] := by
  have r0 := hS.rho_pos.ne'
  have c0 := hS.sound_pos.ne'
  refine ⟨_, matPrimX S.rho S.c S.u, matPrimY S.rho S.c S.u, _,
    primJac_eq hr hu hc id none (by simp), ?_, ?_, primFromChar hr hc, ?_, ?_⟩
  · simp [primitiveConvectiveJacobianX, hr, hu, hc, equation, equationE]
  · simp [primitiveConvectiveJacobianY, hr, hu, hc, equation, equationE]
  · exact primN_eq r0 c0 hd
  · exact mulDiag (Linv_mul_L r0 c0 hd) _

/-- **C26** Transforming the primitive Jacobian to conservative variables gives the
conservative Jacobian. -/
theorem C26_primitive_to_conservative (hS : IdealGas γ S) (hr : U.rho = some S.rho)
    (hu : U.u = some S.u) (hc : U.c = some S.c) :
    ∃ A B, primitiveConvectiveJacobian U d none = .ok A ∧
      conservativeConvectiveJacobian γ U d none = .ok B ∧
      transformPrimitiveToConservative γ A U = .ok B := by
  have r0 := hS.rho_pos.ne'
  have c0 := hS.sound_pos.ne'
  refine ⟨_, _, primJac_eq hr hu hc id none (by simp), consJac_eq hr hu hc id none (by simp), ?_⟩
  unfold transformPrimitiveToConservative
  rw [consFromPrim hr hu, primFromCons hr hu, P_eq r0 c0, Pinv_eq r0]
  simp only [bind, Except.bind, Matrix.mul_assoc]

/-- Rows of the model's flux matrix times a normal. -/
theorem fluxMat_mulVec {n : ℕ} {γ : ℝ} {S : GasState n} (hS : IdealGas γ S) (e : Fin n → ℝ) :
    (Matrix.of (Fin.cons S.rho_u (Fin.snoc (fun i => ((1 / S.rho) • vecMulVec S.rho_u S.rho_u
      + S.p • (1 : Matrix (Fin n) (Fin n) ℝ)) i) (S.rho_H • S.u))) :
      Matrix (Fin (n + 2)) (Fin n) ℝ) *ᵥ e = eulerFlux γ e S.rho S.rho_u S.rho_E := by
  have r0 := hS.rho_pos.ne'
  have hp : (γ - 1) * (S.rho_E - (S.rho_u ⬝ᵥ S.rho_u) / (2 * S.rho)) = S.p := by gas_done hS
  have hH : S.rho_H = S.rho_E + S.p := by gas_done hS
  have hu : S.rho_u ⬝ᵥ e = S.rho * (S.u ⬝ᵥ e) := by rw [hS.momentum, smul_dotProduct, smul_eq_mul]
  have hv (k : Fin n) : ((((1 / S.rho) • vecMulVec S.rho_u S.rho_u
      + S.p • (1 : Matrix (Fin n) (Fin n) ℝ)) k : Fin n → ℝ)) ⬝ᵥ e
      = S.rho_u k * (S.rho_u ⬝ᵥ e) / S.rho + S.p * e k := by
    have : (((1 / S.rho) • vecMulVec S.rho_u S.rho_u
        + S.p • (1 : Matrix (Fin n) (Fin n) ℝ)) k : Fin n → ℝ)
        = (S.rho_u k / S.rho) • S.rho_u + S.p • Pi.single k 1 := by
      funext l
      simp [vecMulVec_apply, Matrix.one_apply, Pi.single_apply, eq_comm]
      ring
    rw [this, add_dotProduct, smul_dotProduct, smul_dotProduct, single_dotProduct]
    simp only [smul_eq_mul]
    ring
  funext i
  refine Fin.cases ?_ (fun j => ?_) i
  · simp [eulerFlux, mulVec]
  · refine Fin.lastCases ?_ (fun k => ?_) j
    · simp only [eulerFlux, mulVec, Matrix.of_apply, Fin.cons_succ, Fin.snoc_last, hp]
      rw [smul_dotProduct, smul_eq_mul, hH, hu]
      field_simp
    · simp only [eulerFlux, mulVec, Matrix.of_apply, Fin.cons_succ, Fin.snoc_castSucc, hp]
      exact hv k

/-- **C26** In any dimension and for any supplied fields of a consistent state, the convective
flux, if it can be computed, is the flux of the Euler equations at the conservative variables. -/
theorem C26_flux {n : ℕ} {γ : ℝ} {S : GasState n} {U : Flow n} (hS : IdealGas γ S) (hU : U.From S)
    {F : Matrix (Fin (n + 2)) (Fin n) ℝ} (h : convectiveFlux γ U = .ok F) (e : Fin n → ℝ) :
    F *ᵥ e = eulerFlux γ e S.rho S.rho_u S.rho_E := by
  unfold convectiveFlux at h
  cases h1 : density γ U with
  | error x => simp [h1, bind, Except.bind] at h
  | ok a =>
  cases h2 : momentum U with
  | error x => simp [h1, h2, bind, Except.bind] at h
  | ok b =>
  cases h3 : enthalpy U with
  | error x => simp [h1, h2, h3, bind, Except.bind] at h
  | ok b' =>
  cases h4 : velocity U with
  | error x => simp [h1, h2, h3, h4, bind, Except.bind] at h
  | ok v =>
  cases h5 : pressure γ U with
  | error x => simp [h1, h2, h3, h4, h5, bind, Except.bind] at h
  | ok q =>
    simp only [h1, h2, h3, h4, h5, bind, Except.bind, Except.ok.injEq] at h
    subst h
    rw [C21_density hS hU h1, C21_momentum hS hU h2, C21_enthalpy hS hU h3,
      C21_velocity hS hU h4, C21_pressure hS hU h5]
    exact fluxMat_mulVec hS e

/-- **C26** It can be computed from the fields recovered from the conservative variables. -/
theorem C26_flux_conservative {n : ℕ} {γ : ℝ} {S : GasState n} (hS : IdealGas γ S)
    (e : Fin n → ℝ) :
    ∃ F, convectiveFlux γ (conservativeDict S) = .ok F ∧
      F *ᵥ e = eulerFlux γ e S.rho S.rho_u S.rho_E := by
  have hU : (conservativeDict S).From S := by constructor <;> simp [conservativeDict]
  obtain ⟨F, hF⟩ : ∃ F, convectiveFlux γ (conservativeDict S) = .ok F := by
    simp [convectiveFlux, conservativeDict, density, EOS.density, momentum, enthalpy,
      velocity, pressure, EOS.pressure, equation, equationE, bind, Except.bind]
  exact ⟨F, hF, C26_flux hS hU hF e⟩

theorem eulerFlux2_apply (γ : ℝ) (d : Fin 2 → ℝ) (w : Fin 4 → ℝ) :
    eulerFlux2 γ d w = ![w 1 * d 0 + w 2 * d 1,
      w 1 * (w 1 * d 0 + w 2 * d 1) / w 0
        + (γ - 1) * (w 3 - (w 1 * w 1 + w 2 * w 2) / (2 * w 0)) * d 0,
      w 2 * (w 1 * d 0 + w 2 * d 1) / w 0
        + (γ - 1) * (w 3 - (w 1 * w 1 + w 2 * w 2) / (2 * w 0)) * d 1,
      (w 3 + (γ - 1) * (w 3 - (w 1 * w 1 + w 2 * w 2) / (2 * w 0)))
        * (w 1 * d 0 + w 2 * d 1) / w 0] := by
  funext i
  fin_cases i
  · simp [eulerFlux2, eulerFlux, dotProduct, Fin.sum_univ_two]
  · simp [eulerFlux2, eulerFlux, dotProduct, Fin.sum_univ_two, Fin.snoc]
  · simp only [eulerFlux2, eulerFlux, dotProduct, Fin.sum_univ_two]; rfl
  · simp only [eulerFlux2, eulerFlux, dotProduct, Fin.sum_univ_two]; rfl

/-- Derivative of the flux along a line. -/
theorem eulerFlux2_line (γ : ℝ) (d : Fin 2 → ℝ) (w v : Fin 4 → ℝ) (h0 : w 0 ≠ 0) :
    HasDerivAt (fun t : ℝ => eulerFlux2 γ d (w + t • v))
      (consN γ (w 3 / w 0) ![w 1 / w 0, w 2 / w 0] d *ᵥ v) 0 := by
  have hk (k : Fin 4) : HasDerivAt (fun t : ℝ => (w + t • v) k) (v k) 0 := by
    simpa using ((hasDerivAt_id (0 : ℝ)).mul_const (v k)).const_add (w k)
  have e0 (k : Fin 4) : (w + (0 : ℝ) • v) k = w k := by simp
  have hm := ((hk 1).mul_const (d 0)).add ((hk 2).mul_const (d 1))
  have h00 : (2 : ℝ) * (w + (0 : ℝ) • v) 0 ≠ 0 := by simpa using h0
  have h01 : (w + (0 : ℝ) • v) 0 ≠ 0 := by simpa using h0
  have hp := ((hk 3).sub ((((hk 1).mul (hk 1)).add ((hk 2).mul (hk 2))).div
    ((hk 0).const_mul 2) h00)).const_mul (γ - 1)
  rw [hasDerivAt_pi]
  simp only [eulerFlux2_apply]
  intro i
  fin_cases i
  · refine HasDerivAt.congr_deriv (hm) ?_
    simp [consN, matA, matB, mulVec, dotProduct, Fin.sum_univ_succ]
    ring
  · refine HasDerivAt.congr_deriv ((((hk 1).mul hm).div (hk 0) h01).add (hp.mul_const (d 0))) ?_
    simp [consN, matA, matB, mulVec, dotProduct, Fin.sum_univ_succ]
    field_simp
    ring
  · refine HasDerivAt.congr_deriv ((((hk 2).mul hm).div (hk 0) h01).add (hp.mul_const (d 1))) ?_
    simp [consN, matA, matB, mulVec, dotProduct, Fin.sum_univ_succ]
    field_simp
    ring
  · refine HasDerivAt.congr_deriv ((((hk 3).add hp).mul hm).div (hk 0) h01) ?_
    simp [consN, matA, matB, mulVec, dotProduct, Fin.sum_univ_succ]
    field_simp
    ring

theorem eulerFlux2_differentiable (γ : ℝ) (d : Fin 2 → ℝ) (w : Fin 4 → ℝ) (h0 : w 0 ≠ 0) :
    DifferentiableAt ℝ (eulerFlux2 γ d) w := by
  have hf : eulerFlux2 γ d = fun w => ![w 1 * d 0 + w 2 * d 1,
      w 1 * (w 1 * d 0 + w 2 * d 1) / w 0
        + (γ - 1) * (w 3 - (w 1 * w 1 + w 2 * w 2) / (2 * w 0)) * d 0,
      w 2 * (w 1 * d 0 + w 2 * d 1) / w 0
        + (γ - 1) * (w 3 - (w 1 * w 1 + w 2 * w 2) / (2 * w 0)) * d 1,
      (w 3 + (γ - 1) * (w 3 - (w 1 * w 1 + w 2 * w 2) / (2 * w 0)))
        * (w 1 * d 0 + w 2 * d 1) / w 0] := funext fun w => eulerFlux2_apply γ d w
  rw [hf, differentiableAt_pi]
  intro i
  have h2 : 2 * w 0 ≠ 0 := by simpa using h0
  fin_cases i <;> simp <;> fun_prop (disch := assumption)

/-- **C26** The directional conservative Jacobian is the (Fréchet) derivative of the normal
Euler flux with respect to the conservative variables. -/
theorem C26_jacobian_is_derivative (hS : IdealGas γ S) (hr : U.rho = some S.rho)
    (hu : U.u = some S.u) (hc : U.c = some S.c) (hd : d 0 ^ 2 + d 1 ^ 2 = 1) :
    ∃ A, conservativeConvectiveJacobian γ U d none = .ok A ∧
      HasFDerivAt (eulerFlux2 γ d) (LinearMap.toContinuousLinearMap (Matrix.mulVecLin A))
        ![S.rho, S.rho_u 0, S.rho_u 1, S.rho_E] := by
  have r0 := hS.rho_pos.ne'
  have c0 := hS.sound_pos.ne'
  have g0 : γ - 1 ≠ 0 := by have := hS.gamma; linarith
  refine ⟨_, consJac_eq hr hu hc id none (by simp), ?_⟩
  set w : Fin 4 → ℝ := ![S.rho, S.rho_u 0, S.rho_u 1, S.rho_E] with hw
  have hw0 : w 0 ≠ 0 := r0
  have hA : (matP γ S.rho S.c S.u d * diagonal (fun i => id (lams S.c S.u d i))
      * matPinv γ S.rho S.c S.u d) = consN γ (w 3 / w 0) ![w 1 / w 0, w 2 / w 0] d := by
    have e1 : w 3 / w 0 = S.E := by
      change S.rho_E / S.rho = S.E
      rw [hS.rho_E]; field_simp
    have e2 : ![w 1 / w 0, w 2 / w 0] = S.u := by
      have hm := hS.momentum
      funext i
      fin_cases i
      · change S.rho_u 0 / S.rho = S.u 0
        rw [hm]; simp [r0]
      · change S.rho_u 1 / S.rho = S.u 1
        rw [hm]; simp [r0]
    rw [e1, e2]
    exact consN_eq r0 c0 g0 hd (energy_sound hS)
  rw [hA]
  have hD := (eulerFlux2_differentiable γ d w hw0).hasFDerivAt
  convert hD using 1
  ext v : 1
  have h1 := eulerFlux2_line γ d w v hw0
  have hl : HasDerivAt (fun t : ℝ => w + t • v) v 0 := by
    simpa using ((hasDerivAt_id (0 : ℝ)).smul_const v).const_add w
  have hD' : HasFDerivAt (eulerFlux2 γ d) (fderiv ℝ (eulerFlux2 γ d) w) (w + (0 : ℝ) • v) := by
    simpa using hD
  have h2 : HasDerivAt (fun t : ℝ => eulerFlux2 γ d (w + t • v))
      (fderiv ℝ (eulerFlux2 γ d) w v) 0 := by
    have h3 := hD'.comp_hasDerivAt (0 : ℝ) hl
    exact h3
  exact h1.unique h2

end Jacobian

end Dream
