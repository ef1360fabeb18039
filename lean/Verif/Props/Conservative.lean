import Verif.Props.ThermoGrad

/-!
# C24: conservative fields round trip
-/

namespace Dream
open Matrix Spec

variable {n : ℕ} {γ : ℝ} {S : GasState n}

/-- The dictionary with the nine fields that `get_conservative_fields` sets, taken from `S`. -/
def conservativeDict (S : GasState n) : Flow n :=
  { rho := some S.rho, u := some S.u, rho_u := some S.rho_u, rho_E := some S.rho_E,
    rho_Ek := some S.rho_Ek, rho_Ei := some S.rho_Ei, p := some S.p, T := some S.T,
    c := some S.c }

/-- **C24** The fields recovered from the conservative variables of a consistent state are
that state's fields; no other field is set. -/
theorem C24_fields (hS : IdealGas γ S) :
    getConservativeFields γ S.rho S.rho_u S.rho_E = .ok (conservativeDict S) := by
  have r0 := hS.rho_pos.ne'
  have hγ := hS.gamma
  have g1 : γ - 1 ≠ 0 := by linarith
  have e1 : S.rho⁻¹ • S.rho_u = S.u := by rw [hS.momentum, inv_smul_smul₀ r0]
  have e2 : 2⁻¹ * S.rho * (S.u ⬝ᵥ S.u) = S.rho_Ek := by rw [hS.rho_Ek, hS.kinetic]; ring
  have e3 : S.rho_E - S.rho_Ek = S.rho_Ei := by gas_done hS
  have e4 : (γ - 1) * S.rho_Ei = S.p := by gas_done hS
  have e5 : γ / (γ - 1) * S.p / S.rho = S.T := by gas_done hS
  have e6 : √(γ * S.p / S.rho) = S.c := by
    rw [mul_div_assoc, ← hS.sound, Real.sqrt_sq hS.sound_pos.le]
  simp [getConservativeFields, velocity, kineticEnergy, innerEnergy, EOS.innerEnergy, pressure,
    EOS.pressure, temperature, EOS.temperature, speedOfSound, EOS.speedOfSound, equation,
    equationE, bind, Except.bind, conservativeDict, e1, e2, e3, e4, e5, e6]

/-- **C24** Every conservative vector with positive density and positive inner energy
belongs to exactly one consistent state, so `C24_fields` covers all admissible vectors. -/
theorem C24_admissible (hγ : 1 < γ) {rho : ℝ} {m : Fin n → ℝ} {e : ℝ} (hr : 0 < rho)
    (he : (m ⬝ᵥ m) / (2 * rho) < e) :
    ∃! S : GasState n, IdealGas γ S ∧ S.rho = rho ∧ S.rho_u = m ∧ S.rho_E = e := by
  have hr0 := hr.ne'
  refine ⟨GasState.of γ rho (rho⁻¹ • m) (e / rho - (m ⬝ᵥ m) / (2 * rho ^ 2)), ⟨?_, rfl, ?_, ?_⟩, ?_⟩
  · refine IdealGas.of hγ hr ?_
    have : e / rho - (m ⬝ᵥ m) / (2 * rho ^ 2) = (e - (m ⬝ᵥ m) / (2 * rho)) / rho := by
      field_simp
    rw [this]
    exact div_pos (by linarith) hr
  · simp [GasState.of, hr0]
  · simp only [GasState.of, smul_dotProduct, dotProduct_smul, smul_eq_mul]
    field_simp; ring
  · rintro S ⟨hS, rfl, rfl, rfl⟩
    have hu : S.rho⁻¹ • S.rho_u = S.u := by rw [hS.momentum, inv_smul_smul₀ hr0]
    have hE : S.rho_E / S.rho - (S.rho_u ⬝ᵥ S.rho_u) / (2 * S.rho ^ 2) = S.Ei := by gas_done hS
    rw [hu, hE]
    exact hS.eq_of

/-- **C24** From conservative variables to fields and back: for all admissible vectors the
rebuilt conservative vector is the original one. -/
theorem C24_round_trip (hγ : 1 < γ) {rho : ℝ} {m : Fin n → ℝ} {e : ℝ} (hr : 0 < rho)
    (he : (m ⬝ᵥ m) / (2 * rho) < e) :
    ∃ U, getConservativeFields γ rho m e = .ok U ∧ conservativeVector γ U = .ok (rho, m, e) := by
  obtain ⟨S, ⟨hS, rfl, rfl, rfl⟩, -⟩ := C24_admissible hγ hr he
  refine ⟨_, C24_fields hS, ?_⟩
  simp [conservativeVector, conservativeDict, density, EOS.density, momentum, energy, equation,
    equationE, bind, Except.bind]

/-- **C24** From any supplied fields of a consistent state to the conservative vector used as
initial condition and back: the recovered fields are those of the state. -/
theorem C24_initial_round_trip {U : Flow n} (hS : IdealGas γ S) (hU : U.From S)
    {w : ℝ × (Fin n → ℝ) × ℝ} (h : conservativeVector γ U = .ok w) :
    getConservativeFields γ w.1 w.2.1 w.2.2 = .ok (conservativeDict S) := by
  unfold conservativeVector at h
  cases h1 : density γ U with
  | error e => simp [h1, bind, Except.bind] at h
  | ok a =>
    cases h2 : momentum U with
    | error e => simp [h1, h2, bind, Except.bind] at h
    | ok b =>
      cases h3 : energy γ U with
      | error e => simp [h1, h2, h3, bind, Except.bind] at h
      | ok c =>
        simp only [h1, h2, h3, bind, Except.bind, Except.ok.injEq] at h
        subst h
        rw [C21_density hS hU h1, C21_momentum hS hU h2, C21_energy hS hU h3]
        exact C24_fields hS

/-- **C24** Likewise for gradients: the gradient fields recovered from the gradients of the
conservative variables are the gradients of the quantities. -/
theorem C24_gradient_fields {S : (Fin n → ℝ) → GasState n} {x : Fin n → ℝ}
    (hS : ∀ y, IdealGas γ (S y)) {g1 : Fin n → ℝ} {g2 : Matrix (Fin n) (Fin n) ℝ} {g3 : Fin n → ℝ}
    (h1 : IsGrad (fun y => (S y).rho) x g1) (h2 : IsJac (fun y => (S y).rho_u) x g2)
    (h3 : IsGrad (fun y => (S y).rho_E) x g3) :
    ∃ D gu gk gi gp gT,
      getConservativeGradientFields γ (conservativeDict (S x)) g1 g2 g3 = .ok D ∧
      D.grad_u = some gu ∧ IsJac (fun y => (S y).u) x gu ∧
      D.grad_rho_Ek = some gk ∧ IsGrad (fun y => (S y).rho_Ek) x gk ∧
      D.grad_rho_Ei = some gi ∧ IsGrad (fun y => (S y).rho_Ei) x gi ∧
      D.grad_p = some gp ∧ IsGrad (fun y => (S y).p) x gp ∧
      D.grad_T = some gT ∧ IsGrad (fun y => (S y).T) x gT := by
  have hU : (conservativeDict (S x)).From (S x) := by
    constructor <;> simp [conservativeDict]
  set D0 : Grads n := { grad_rho := some g1, grad_rho_u := some g2, grad_rho_E := some g3 } with hD0
  have f0 : D0.From S x := by
    constructor <;> simp [hD0, h1, h2, h3]
  obtain ⟨gu, hu⟩ : ∃ gu, velocityGradient (conservativeDict (S x)) D0 = .ok gu := by
    simp [velocityGradient, conservativeDict, hD0, equation, equationE]
  have hgu := C23_velocity_gradient hS hU f0 hu
  set D1 := { D0 with grad_u := some gu } with hD1
  have f1 : D1.From S x := by constructor <;> simp [hD1, hD0, h1, h2, h3, hgu]
  obtain ⟨gk, hk⟩ : ∃ g, kineticEnergyGradient (conservativeDict (S x)) D1 = .ok g := by
    simp [kineticEnergyGradient, conservativeDict, hD1, hD0, equation, equationE]
  have hgk := C23_kinetic_energy_gradient hS hU f1 hk
  set D2 := { D1 with grad_rho_Ek := some gk } with hD2
  have f2 : D2.From S x := by constructor <;> simp [hD2, hD1, hD0, h1, h2, h3, hgu, hgk]
  obtain ⟨gi, hi⟩ : ∃ g, innerEnergyGradient D2 = .ok g := by
    simp [innerEnergyGradient, hD2, hD1, hD0, equation, equationE]
  have hgi := C23_inner_energy_gradient hS f2 hi
  set D3 := { D2 with grad_rho_Ei := some gi } with hD3
  have f3 : D3.From S x := by constructor <;> simp [hD3, hD2, hD1, hD0, h1, h2, h3, hgu, hgk, hgi]
  obtain ⟨gp, hp⟩ : ∃ g, pressureGradient γ (conservativeDict (S x)) D3 = .ok g := by
    simp [pressureGradient, EOS.pressureGradient, conservativeDict, hD3, hD2, hD1, hD0, equation,
      equationE]
  have hgp := C23_pressure_gradient hS hU f3 hp
  set D4 := { D3 with grad_p := some gp } with hD4
  have f4 : D4.From S x := by
    constructor <;> simp [hD4, hD3, hD2, hD1, hD0, h1, h2, h3, hgu, hgk, hgi, hgp]
  obtain ⟨gT, hT⟩ : ∃ g, temperatureGradient γ (conservativeDict (S x)) D4 = .ok g := by
    simp [temperatureGradient, EOS.temperatureGradient, conservativeDict, hD4, hD3, hD2, hD1, hD0,
      equation, equationE]
  have hgT := C23_temperature_gradient hS hU f4 hT
  refine ⟨{ D4 with grad_T := some gT }, gu, gk, gi, gp, gT, ?_, rfl, hgu, rfl, hgk, rfl, hgi,
    rfl, hgp, rfl, hgT⟩
  simp only [getConservativeGradientFields, bind, Except.bind]
  rw [show velocityGradient (conservativeDict (S x))
    { grad_rho := some g1, grad_rho_u := some g2, grad_rho_E := some g3 } = .ok gu from hu]
  simp only
  rw [show kineticEnergyGradient (conservativeDict (S x))
    { grad_rho := some g1, grad_rho_u := some g2, grad_rho_E := some g3, grad_u := some gu }
      = .ok gk from hk]
  simp only
  rw [show innerEnergyGradient
    { grad_rho := some g1, grad_rho_u := some g2, grad_rho_E := some g3, grad_u := some gu,
      grad_rho_Ek := some gk } = .ok gi from hi]
  simp only
  rw [show pressureGradient γ (conservativeDict (S x))
    { grad_rho := some g1, grad_rho_u := some g2, grad_rho_E := some g3, grad_u := some gu,
      grad_rho_Ek := some gk, grad_rho_Ei := some gi } = .ok gp from hp]
  simp only
  rw [show temperatureGradient γ (conservativeDict (S x))
    { grad_rho := some g1, grad_rho_u := some g2, grad_rho_E := some g3, grad_u := some gu,
      grad_rho_Ek := some gk, grad_rho_Ei := some gi, grad_p := some gp } = .ok gT from hT]

/-- The hypotheses of `C24_admissible` and `C24_round_trip` hold for `ρ = 2`, `ρu = (2, 2)`,
`ρE = 39/7` with `γ = 7/5`. -/
example : (1 : ℝ) < 7 / 5 ∧ (0 : ℝ) < 2 ∧ ((![2, 2] : Fin 2 → ℝ) ⬝ᵥ ![2, 2]) / (2 * 2) < 39 / 7 := by
  norm_num [dotProduct, Fin.sum_univ_two]

/-- `C24_initial_round_trip` on the state of air given by density, velocity and pressure. -/
example : conservativeVector (7 / 5)
    ({ rho := some 2, u := some ![1, 1], p := some (10 / 7) } : Flow 2)
      = .ok (2, ![2, 2], 39 / 7) := by
  norm_num [conservativeVector, density, EOS.density, momentum, energy, innerEnergy,
    EOS.innerEnergy, kineticEnergy, equation, equationE, bind, Except.bind, dotProduct,
    Fin.sum_univ_two]

end Dream
