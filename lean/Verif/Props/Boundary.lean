import Verif.Model.Boundary
import Verif.Props.Splitting

/-!
# C33: boundary conditions are satisfied by the states they describe
-/

namespace Dream
open Matrix Spec

variable {n : ℕ} {γ : ℝ} {S : GasState n}

theorem consVec_inj {a a' : ℝ} {m m' : Fin n → ℝ} {e e' : ℝ} :
    consVec a m e = consVec a' m' e' ↔ a = a' ∧ m = m' ∧ e = e' := by
  unfold consVec
  rw [Fin.cons_inj]
  constructor
  · rintro ⟨rfl, h⟩
    refine ⟨rfl, ?_, ?_⟩
    · funext i
      have := congrFun h i.castSucc
      simpa using this
    · have := congrFun h (Fin.last n)
      simpa using this
  · rintro ⟨rfl, rfl, rfl⟩; exact ⟨rfl, rfl⟩

theorem dictState (γ : ℝ) (S : GasState n) :
    density γ (conservativeDict S) = .ok S.rho ∧ momentum (conservativeDict S) = .ok S.rho_u ∧
    energy γ (conservativeDict S) = .ok S.rho_E := by
  simp [conservativeDict, density, EOS.density, momentum, energy, equation, equationE]

theorem stateVec_dict (γ : ℝ) (S : GasState n) :
    stateVec γ (conservativeDict S) = .ok (consVec S.rho S.rho_u S.rho_E) := by
  obtain ⟨h1, h2, h3⟩ := dictState γ S
  simp [stateVec, h1, h2, h3, bind, Except.bind]

/-- **C33** Inviscid wall and symmetry: for every interior state and unit normal the residual
vanishes exactly for the trace with the density and energy of the interior, no normal
momentum, and the tangential momentum of the interior. -/
theorem C33_inviscid_wall {nrm : Fin n → ℝ} (hn : nrm ⬝ᵥ nrm = 1) (ρ e : ℝ) (m : Fin n → ℝ) :
    ∃ R, inviscidWallResidual γ nrm (conservativeDict S) (consVec ρ m e) = .ok R ∧
      (R = 0 ↔ ρ = S.rho ∧ e = S.rho_E ∧ m ⬝ᵥ nrm = 0 ∧
        ∀ t, t ⬝ᵥ nrm = 0 → m ⬝ᵥ t = S.rho_u ⬝ᵥ t) := by
  obtain ⟨h1, h2, h3⟩ := dictState γ S
  refine ⟨_, by simp only [inviscidWallResidual, h1, h2, h3, bind, Except.bind]; rfl, ?_⟩
  rw [sub_eq_zero, consVec_inj]
  constructor
  · rintro ⟨rfl, rfl, rfl⟩
    refine ⟨rfl, rfl, ?_, fun t ht => ?_⟩
    · rw [sub_dotProduct, smul_dotProduct, hn]; simp
    · rw [sub_dotProduct, smul_dotProduct, dotProduct_comm nrm t, ht]; simp
  · rintro ⟨rfl, rfl, h0, ht⟩
    refine ⟨rfl, ?_, rfl⟩
    have key : ∀ t : Fin n → ℝ, (m - (S.rho_u - (S.rho_u ⬝ᵥ nrm) • nrm)) ⬝ᵥ t = 0 := by
      intro t
      have e1 : (t - (t ⬝ᵥ nrm) • nrm) ⬝ᵥ nrm = 0 := by
        rw [sub_dotProduct, smul_dotProduct, hn]; simp
      have e2 := ht _ e1
      simp only [dotProduct_sub, dotProduct_smul, smul_eq_mul, h0, mul_zero, sub_zero] at e2
      simp only [sub_dotProduct, smul_dotProduct, smul_eq_mul, e2, dotProduct_comm nrm t]
      ring
    have := key (m - (S.rho_u - (S.rho_u ⬝ᵥ nrm) • nrm))
    exact sub_eq_zero.1 (dotProduct_self_eq_zero.1 this)

/-- **C33** Isothermal wall: for every interior state and positive wall temperature the
residual vanishes exactly for the trace of a gas state at rest with the density of the interior
and the prescribed temperature. -/
theorem C33_isothermal_wall (hS : IdealGas γ S) {bc : Flow n} {Tw : ℝ} (hbc : bc.T = some Tw)
    (hT : 0 < Tw) (ρ e : ℝ) (m : Fin n → ℝ) :
    ∃ R, isothermalWallResidual γ bc (conservativeDict S) (consVec ρ m e) = .ok R ∧
      (R = 0 ↔ ∃ W : GasState n, IdealGas γ W ∧ W.rho = ρ ∧ W.rho_u = m ∧ W.rho_E = e ∧
        W.rho = S.rho ∧ W.u = 0 ∧ W.T = Tw) := by
  have hγ := hS.gamma
  have g0 : γ ≠ 0 := by linarith
  have r0 := hS.rho_pos
  refine ⟨consVec ρ m e - consVec S.rho 0 (S.rho * Tw / γ), ?_, ?_⟩
  · simp [isothermalWallResidual, given, hbc, conservativeDict, density, EOS.density, momentum,
      innerEnergy, EOS.innerEnergy, equation, equationE, bind, Except.bind]
    rfl
  rw [sub_eq_zero, consVec_inj]
  constructor
  · rintro ⟨rfl, rfl, rfl⟩
    refine ⟨GasState.of γ S.rho 0 (Tw / γ), IdealGas.of hγ r0 (by positivity), rfl, ?_, ?_, rfl,
      rfl, ?_⟩
    · simp [GasState.of]
    · simp [GasState.of, mul_div_assoc]
    · simp only [GasState.of]; field_simp
  · rintro ⟨W, hW, rfl, rfl, rfl, h1, h2, h3⟩
    refine ⟨h1, ?_, ?_⟩
    · rw [hW.momentum, h2, smul_zero]
    · rw [hW.rho_E, hW.total, hW.kinetic, h2, h1, ← h3, hW.caloric]
      simp; field_simp

/-- **C33** Outflow: for every interior state and positive prescribed pressure the residual
vanishes exactly for the trace of the gas state with the density and velocity of the interior
and the prescribed pressure. -/
theorem C33_outflow (hS : IdealGas γ S) {bc : Flow n} {p : ℝ} (hbc : bc.p = some p)
    (hp : 0 < p) (ρ e : ℝ) (m : Fin n → ℝ) :
    ∃ R, outflowResidual γ bc (conservativeDict S) (consVec ρ m e) = .ok R ∧
      (R = 0 ↔ ∃ W : GasState n, IdealGas γ W ∧ W.rho = ρ ∧ W.rho_u = m ∧ W.rho_E = e ∧
        W.rho = S.rho ∧ W.u = S.u ∧ W.p = p) := by
  have hγ := hS.gamma
  have g1 : 0 < γ - 1 := by linarith
  have r0 := hS.rho_pos
  refine ⟨consVec ρ m e - consVec S.rho S.rho_u (p / (γ - 1) + S.rho_Ek), ?_, ?_⟩
  · simp [outflowResidual, outflowState, stateVec, given, hbc, conservativeDict, density,
      EOS.density, momentum, energy, innerEnergy, EOS.innerEnergy, kineticEnergy, equation,
      equationE, bind, Except.bind]
  rw [sub_eq_zero, consVec_inj]
  constructor
  · rintro ⟨rfl, rfl, rfl⟩
    refine ⟨GasState.of γ S.rho S.u (p / (γ - 1) / S.rho), IdealGas.of hγ r0 (by positivity), rfl,
      ?_, ?_, rfl, rfl, ?_⟩
    · simp [GasState.of, hS.momentum]
    · simp only [GasState.of]; rw [hS.rho_Ek, hS.kinetic]; field_simp
    · simp only [GasState.of]; field_simp
  · rintro ⟨W, hW, rfl, rfl, rfl, h1, h2, rfl⟩
    refine ⟨h1, ?_, ?_⟩
    · rw [hW.momentum, hS.momentum, h1, h2]
    · rw [hW.rho_E, hW.total, hW.kinetic, hS.rho_Ek, hS.kinetic, h2, hW.p_eq, h1]
      field_simp

example : ∃ R, outflowResidual (7 / 5) { p := some 3 } (conservativeDict airState)
    (consVec 1 ![1, 2] 3) = .ok R ∧ (R = 0 ↔ ∃ W : GasState 2, IdealGas (7 / 5) W ∧ W.rho = 1 ∧
      W.rho_u = ![1, 2] ∧ W.rho_E = 3 ∧ W.rho = airState.rho ∧ W.u = airState.u ∧ W.p = 3) :=
  C33_outflow airState_ideal rfl (by norm_num) _ _ _

/-- **C33** The adiabatic wall can never be built, in any dimension and with any mixed method:
either the mixed method is refused or the two vectors it subtracts have different lengths. -/
theorem C33_fails_adiabatic (n : ℕ) (m : MixedMethod) : ∃ e, adiabaticWall n m = .error e := by
  unfold adiabaticWall
  by_cases h : m = .strainHeat
  · have hne : (adiabaticDims n).1 ≠ (adiabaticDims n).2 := by
      simp only [adiabaticDims]
      nlinarith
    simp [h, hne]
  · simp [h]

/-- **C33** Sponge layer: where the sponge function does not vanish the residual vanishes
exactly for the target state. -/
theorem C33_sponge {σ : ℝ} (hσ : σ ≠ 0) {target : Flow n} {wt : Fin (n + 2) → ℝ}
    (ht : stateVec γ target = .ok wt) (w : Fin (n + 2) → ℝ) :
    ∃ R, spongeResidual γ σ target w = .ok R ∧ (R = 0 ↔ w = wt) := by
  refine ⟨σ • (w - wt), by simp [spongeResidual, ht, bind, Except.bind], ?_⟩
  rw [smul_eq_zero, sub_eq_zero]
  simp [hσ]

/-! ### Farfield, two dimensions -/

variable {rho c : ℝ} {u d : Fin 2 → ℝ} {U : Flow 2}

theorem consId_eq (hr : U.rho = some rho) (hu : U.u = some u) (hc : U.c = some c) (f : ℝ → ℝ)
    (type : Option String)
    (h : (type = some "incoming" ∧ f = negInd) ∨ (type = some "outgoing" ∧ f = posInd)) :
    conservativeConvectiveIdentity γ U d type = .ok (matP γ rho c u d *
      diagonal (fun i => f (lams c u d i)) * matPinv γ rho c u d) := by
  unfold conservativeConvectiveIdentity
  rw [charId_eq hu hc f type h]
  exact transCons hr hu hc _

theorem conj_mulVec {P Q : Matrix (Fin 4) (Fin 4) ℝ} (v x : Fin 4 → ℝ) :
    (P * diagonal v * Q) *ᵥ x = P *ᵥ fun i => v i * (Q *ᵥ x) i := by
  rw [Matrix.mul_assoc, ← Matrix.mulVec_mulVec, ← Matrix.mulVec_mulVec]
  congr 1
  funext i
  rw [mulVec_diagonal]

theorem mulVec_inj_of {P Q : Matrix (Fin 4) (Fin 4) ℝ} (h : Q * P = 1) {x y : Fin 4 → ℝ} :
    P *ᵥ x = P *ᵥ y ↔ x = y := by
  constructor
  · intro e
    have := congrArg (fun v => Q *ᵥ v) e
    simpa [Matrix.mulVec_mulVec, h] using this
  · rintro rfl; rfl

/-- **C33** Farfield with convective Jacobians: for every trace with positive density and speed
of sound, every interior and every farfield state, the residual vanishes exactly when the
outgoing part of `Û - U` and the incoming part of `Û - U∞` vanish; in particular when interior,
trace and farfield coincide. -/
theorem C33_farfield_jacobian (hγ : 1 < γ) (hr : U.rho = some rho) (hu : U.u = some u)
    (hc : U.c = some c) (r0 : 0 < rho) (c0 : 0 < c) (hd : d 0 ^ 2 + d 1 ^ 2 = 1)
    {bc : Flow 2} {winf : Fin 4 → ℝ} (hbc : stateVec γ bc = .ok winf) (w wHat : Fin 4 → ℝ) :
    ∃ R Ain Aout, farfieldResidual γ false bc d w wHat U = .ok R ∧
      conservativeConvectiveJacobian γ U d (some "incoming") = .ok Ain ∧
      conservativeConvectiveJacobian γ U d (some "outgoing") = .ok Aout ∧
      (R = 0 ↔ Aout *ᵥ (wHat - w) = 0 ∧ Ain *ᵥ (wHat - winf) = 0) ∧
      (w = wHat → winf = wHat → R = 0) := by
  have hP := Pinv_mul_P (u := u) r0.ne' c0.ne' (γ := γ) (by linarith) hd
  have hin := consJac_eq (γ := γ) (d := d) hr hu hc (fun x => min x 0) (some "incoming") (by simp)
  have hout := consJac_eq (γ := γ) (d := d) hr hu hc (fun x => max x 0) (some "outgoing") (by simp)
  refine ⟨_, _, _, by
    simp only [farfieldResidual, hbc, hin, hout, bind, Except.bind]; rfl, hin, hout, ?_, ?_⟩
  · constructor
    · intro h
      rw [sub_eq_zero, conj_mulVec, conj_mulVec, mulVec_inj_of hP] at h
      have hz : (fun i => max (lams c u d i) 0 * (matPinv γ rho c u d *ᵥ (wHat - w)) i) = 0 ∧
          (fun i => min (lams c u d i) 0 * (matPinv γ rho c u d *ᵥ (wHat - winf)) i) = 0 := by
        constructor
        · funext i
          rcases le_total (lams c u d i) 0 with hl | hl
          · simp [max_eq_right hl]
          · have := congrFun h i
            simp only [min_eq_right hl, zero_mul] at this
            simpa using this
        · funext i
          rcases le_total (lams c u d i) 0 with hl | hl
          · have := congrFun h i
            simp only [max_eq_right hl, zero_mul] at this
            simpa using this.symm
          · simp [min_eq_right hl]
      rw [conj_mulVec, conj_mulVec, hz.1, hz.2]
      simp
    · rintro ⟨h1, h2⟩
      rw [h1, h2, sub_zero]
  · rintro rfl rfl
    simp

/-- **C33** Farfield with characteristic identities (the default): the residual vanishes when
interior, trace and farfield coincide, provided no characteristic velocity is zero. -/
theorem C33_farfield_identity_partial (hγ : 1 < γ) (hr : U.rho = some rho) (hu : U.u = some u)
    (hc : U.c = some c) (r0 : 0 < rho) (c0 : 0 < c) (hd : d 0 ^ 2 + d 1 ^ 2 = 1)
    (hl : ∀ i, lams c u d i ≠ 0) {bc : Flow 2} {w : Fin 4 → ℝ} (hbc : stateVec γ bc = .ok w) :
    farfieldResidual γ true bc d w w U = .ok 0 := by
  have hP := Pinv_mul_P (u := u) r0.ne' c0.ne' (γ := γ) (by linarith) hd
  have hin := consId_eq (γ := γ) (d := d) hr hu hc negInd (some "incoming") (by simp)
  have hout := consId_eq (γ := γ) (d := d) hr hu hc posInd (some "outgoing") (by simp)
  simp only [farfieldResidual, hbc, hin, hout, bind, Except.bind, if_true]
  congr 1
  rw [sub_sub, ← Matrix.add_mulVec, conj_add, add_comm (diagonal _), diag_sum_one.2 hl,
    Matrix.mul_one, mul_eq_one_comm.1 hP, Matrix.one_mulVec, sub_self]

/-- **C33** It does not vanish for any uniform flow parallel to the boundary (in particular not
for the fluid at rest): the entropy component of the state is lost. -/
theorem C33_fails_farfield_identity {S : GasState 2} (hS : IdealGas γ S)
    (hd : d 0 ^ 2 + d 1 ^ 2 = 1) (hun : S.u ⬝ᵥ d = 0) :
    ∃ R, farfieldResidual γ true (conservativeDict S) d (consVec S.rho S.rho_u S.rho_E)
      (consVec S.rho S.rho_u S.rho_E) (conservativeDict S) = .ok R ∧ R ≠ 0 := by
  have hγ := hS.gamma
  have r0 := hS.rho_pos
  have c0 := hS.sound_pos
  have hP := Pinv_mul_P (u := S.u) r0.ne' c0.ne' (γ := γ) (by linarith) hd
  have hin := consId_eq (γ := γ) (d := d) (U := conservativeDict S) (rho := S.rho) (c := S.c)
    (u := S.u) rfl rfl rfl negInd (some "incoming") (by simp)
  have hout := consId_eq (γ := γ) (d := d) (U := conservativeDict S) (rho := S.rho) (c := S.c)
    (u := S.u) rfl rfl rfl posInd (some "outgoing") (by simp)
  refine ⟨_, by
    simp only [farfieldResidual, stateVec_dict, hin, hout, bind, Except.bind, if_true]; rfl, ?_⟩
  intro h
  rw [conj_mulVec, conj_mulVec] at h
  have h' := congrArg (fun v => (matPinv γ S.rho S.c S.u d *ᵥ v) 1) h
  simp only [Matrix.mulVec_sub, Matrix.mulVec_zero, Pi.sub_apply, Pi.zero_apply] at h'
  rw [Matrix.mulVec_mulVec, Matrix.mulVec_mulVec, hP, Matrix.one_mulVec, Matrix.one_mulVec] at h'
  have l1 : lams S.c S.u d 1 = 0 := by simpa [lams] using hun
  simp only [l1, posInd, negInd, lt_irrefl, if_false, zero_mul, sub_zero] at h'
  have hw : consVec S.rho S.rho_u S.rho_E = ![S.rho, S.rho * S.u 0, S.rho * S.u 1, S.rho_E] := by
    rw [hS.momentum]
    funext i; fin_cases i <;> rfl
  rw [hw] at h'
  have e2 := hS.c_sq
  have E0 := hS.Ei_pos
  simp only [matPinv, Matrix.mulVec, dotProduct, Fin.sum_univ_four, Fin.sum_univ_two, hS.rho_E,
    hS.total, hS.kinetic] at h'
  simp [e2] at h'
  have : (γ - 1) ^ 2 * (S.rho * S.Ei) = 0 := by linear_combination h'
  have g1 : 0 < γ - 1 := by linarith
  have : 0 < (γ - 1) ^ 2 * (S.rho * S.Ei) := by positivity
  linarith

/-- A gas at rest. -/
noncomputable def restState : GasState 2 := GasState.of (7 / 5) 1 0 1

theorem restState_ideal : IdealGas (7 / 5) restState :=
  IdealGas.of (by norm_num) (by norm_num) (by norm_num)

example : ∃ R, farfieldResidual (7 / 5) true (conservativeDict restState) ![1, 0]
    (consVec restState.rho restState.rho_u restState.rho_E)
    (consVec restState.rho restState.rho_u restState.rho_E) (conservativeDict restState) = .ok R ∧
    R ≠ 0 :=
  C33_fails_farfield_identity restState_ideal (by simp) (by simp [restState, GasState.of])

/-! ### Characteristic boundary conditions -/

/-- **C33** Targets of the characteristic conditions: when interior and prescribed fields
belong to the same gas state, every target is that state. -/
theorem C33_cbc_target {S : GasState n} (hS : IdealGas γ S) (t : CbcTarget) :
    cbcState γ t (conservativeDict S) (conservativeDict S)
      = .ok (consVec S.rho S.rho_u S.rho_E) := by
  have hγ := hS.gamma
  have g0 : γ ≠ 0 := by linarith
  have g1 : γ - 1 ≠ 0 := by linarith
  have e4 : S.p / (γ - 1) + S.rho_Ek = S.rho_E := by gas_done hS
  cases t with
  | farfield => exact stateVec_dict γ S
  | outflow =>
    simp [cbcState, outflowState, stateVec, given, conservativeDict, density, EOS.density, momentum,
      energy, innerEnergy, EOS.innerEnergy, kineticEnergy, equation, equationE, bind, Except.bind,
      e4]
  | massInflow =>
    simp [cbcState, stateVec, given, conservativeDict, density, EOS.density, momentum,
      energy, innerEnergy, EOS.innerEnergy, kineticEnergy, equation, equationE, bind, Except.bind,
      e4]
  | temperatureInflow =>
    have e5 : S.rho * S.T / γ + 2⁻¹ * S.rho * (S.u ⬝ᵥ S.u) = S.rho_E := by
      rw [hS.rho_E, hS.total, hS.kinetic, hS.caloric]; field_simp
    simp [cbcState, stateVec, given, isentropicDensity, specificKineticEnergy, conservativeDict,
      density, EOS.density, momentum, energy, innerEnergy, EOS.innerEnergy, kineticEnergy, equation,
      equationE, bind, Except.bind, div_self hS.p_pos.ne', Real.one_rpow, e5, hS.momentum]

/-- **C33** The target `temperature_inflow` does not prescribe the temperature: whenever the
prescribed fields contain density and pressure, the target state does not depend on the
prescribed temperature; its energy is that of the interior temperature. -/
theorem C33_fails_temperature_inflow {bc U : Flow n} {ρ p q : ℝ} (h1 : bc.rho = some ρ)
    (h2 : bc.p = some p) (h3 : U.p = some q) (Tw : Option ℝ) :
    cbcState γ .temperatureInflow { bc with T := Tw } U = cbcState γ .temperatureInflow bc U := by
  have : isentropicDensity γ U { bc with T := Tw } = isentropicDensity γ U bc := by
    simp [isentropicDensity, h1, h2, h3]
  simp only [cbcState, this]

/-- **C33** Characteristic conditions: in a uniform flow equal to the prescribed state at both
time levels the residual vanishes for every target, relaxation matrix, time step and tangential
factor, provided no characteristic velocity is zero. -/
theorem C33_cbc_partial {S : GasState 2} (hS : IdealGas γ S) (hd : d 0 ^ 2 + d 1 ^ 2 = 1)
    (hl : ∀ i, lams S.c S.u d i ≠ 0) (t : CbcTarget) (D : Matrix (Fin 4) (Fin 4) ℝ) (β dt : ℝ)
    (tng : Fin 2 → ℝ) :
    cbcResidual γ t (conservativeDict S) (conservativeDict S) (conservativeDict S) D β dt d tng
      (consVec S.rho S.rho_u S.rho_E) (consVec S.rho S.rho_u S.rho_E)
      (consVec S.rho S.rho_u S.rho_E) 0 = .ok 0 := by
  have hγ := hS.gamma
  have r0 := hS.rho_pos
  have c0 := hS.sound_pos
  have hP := Pinv_mul_P (u := S.u) r0.ne' c0.ne' (γ := γ) (by linarith) hd
  have hin := consId_eq (γ := γ) (d := d) (U := conservativeDict S) (rho := S.rho) (c := S.c)
    (u := S.u) rfl rfl rfl negInd (some "incoming") (by simp)
  have hout := consId_eq (γ := γ) (d := d) (U := conservativeDict S) (rho := S.rho) (c := S.c)
    (u := S.u) rfl rfl rfl posInd (some "outgoing") (by simp)
  have hB := consJac_eq (γ := γ) (d := tng) (U := conservativeDict S) (rho := S.rho) (c := S.c)
    (u := S.u) rfl rfl rfl id none (by simp)
  have hD := transCons (γ := γ) (d := d) (U := conservativeDict S) (rho := S.rho) (c := S.c)
    (u := S.u) rfl rfl rfl D
  simp only [cbcResidual, C33_cbc_target hS, hD, hin, hout, hB, bind, Except.bind]
  congr 1
  rw [sub_self, Matrix.mulVec_zero, Matrix.mulVec_zero, Matrix.mulVec_zero, Matrix.mulVec_zero,
    smul_zero, smul_zero, sub_zero, add_zero, sub_sub, ← Matrix.add_mulVec, conj_add,
    add_comm (diagonal _), diag_sum_one.2 hl, Matrix.mul_one, mul_eq_one_comm.1 hP,
    Matrix.one_mulVec, sub_self]

end Dream
