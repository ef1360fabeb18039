import Verif.Lemmas.Flow

/-!
# C21: derived quantities do not depend on which fields are supplied

`IdealGas γ S` says that `S` is a consistent ideal-gas state, `U.From S` that the
dictionary `U` holds any subset of the fields of `S`. Each theorem says that a derived
quantity, if it is computed at all, has the value it has in `S`.
-/

namespace Dream
open Matrix Spec

variable {n : ℕ} {γ : ℝ} {U : Flow n} {S : GasState n}

/-- **C21** The density does not depend on the supplied fields. -/
theorem C21_density (hS : IdealGas γ S) (hU : U.From S) {v : ℝ}
    (h : density γ U = .ok v) : v = S.rho := by
  simp only [density, EOS.density, equation_ok, orElse_some, bind_some] at h
  rcases h with h | ⟨-, ⟨p, h_p, T, h_T, h⟩ | ⟨-, ⟨p, h_p, c, h_c, h⟩ | ⟨-, rho_Ei, h_rho_Ei, T, h_T, h⟩⟩⟩
  · exact hU.rho _ h
  · obtain rfl := hU.p _ h_p; obtain rfl := hU.T _ h_T; obtain rfl := Option.some.inj h
    gas_done hS
  · obtain rfl := hU.p _ h_p; obtain rfl := hU.c _ h_c; obtain rfl := Option.some.inj h
    gas_done hS
  · obtain rfl := hU.rho_Ei _ h_rho_Ei; obtain rfl := hU.T _ h_T; obtain rfl := Option.some.inj h
    gas_done hS

/-- **C21** The pressure does not depend on the supplied fields. -/
theorem C21_pressure (hS : IdealGas γ S) (hU : U.From S) {v : ℝ}
    (h : pressure γ U = .ok v) : v = S.p := by
  simp only [pressure, EOS.pressure, equation_ok, orElse_some, bind_some] at h
  rcases h with h | ⟨-, ⟨rho, h_rho, T, h_T, h⟩ | ⟨-, ⟨rho_Ei, h_rho_Ei, h⟩ | ⟨-, rho, h_rho, c, h_c, h⟩⟩⟩
  · exact hU.p _ h
  · obtain rfl := hU.rho _ h_rho; obtain rfl := hU.T _ h_T; obtain rfl := Option.some.inj h
    gas_done hS
  · obtain rfl := hU.rho_Ei _ h_rho_Ei; obtain rfl := Option.some.inj h
    gas_done hS
  · obtain rfl := hU.rho _ h_rho; obtain rfl := hU.c _ h_c; obtain rfl := Option.some.inj h
    gas_done hS

/-- **C21** The temperature does not depend on the supplied fields. -/
theorem C21_temperature (hS : IdealGas γ S) (hU : U.From S) {v : ℝ}
    (h : temperature γ U = .ok v) : v = S.T := by
  simp only [temperature, EOS.temperature, equation_ok, orElse_some, bind_some] at h
  rcases h with h | ⟨-, ⟨p, h_p, rho, h_rho, h⟩ | ⟨-, ⟨Ei, h_Ei, h⟩ | ⟨-, c, h_c, h⟩⟩⟩
  · exact hU.T _ h
  · obtain rfl := hU.p _ h_p; obtain rfl := hU.rho _ h_rho; obtain rfl := Option.some.inj h
    gas_done hS
  · obtain rfl := hU.Ei _ h_Ei; obtain rfl := Option.some.inj h
    gas_done hS
  · obtain rfl := hU.c _ h_c; obtain rfl := Option.some.inj h
    gas_done hS

/-- **C21** The velocity does not depend on the supplied fields. -/
theorem C21_velocity (hS : IdealGas γ S) (hU : U.From S) {v : Fin n → ℝ}
    (h : velocity U = .ok v) : v = S.u := by
  simp only [velocity, equation_ok, orElse_some, bind_some] at h
  rcases h with h | ⟨-, rho, h_rho, rho_u, h_rho_u, h⟩
  · exact hU.u _ h
  · obtain rfl := hU.rho _ h_rho; obtain rfl := hU.rho_u _ h_rho_u; obtain rfl := Option.some.inj h
    gas_done hS

/-- **C21** The momentum does not depend on the supplied fields. -/
theorem C21_momentum (hS : IdealGas γ S) (hU : U.From S) {v : Fin n → ℝ}
    (h : momentum U = .ok v) : v = S.rho_u := by
  simp only [momentum, equation_ok, orElse_some, bind_some] at h
  rcases h with h | ⟨-, rho, h_rho, u, h_u, h⟩
  · exact hU.rho_u _ h
  · obtain rfl := hU.rho _ h_rho; obtain rfl := hU.u _ h_u; obtain rfl := Option.some.inj h
    gas_done hS

/-- **C21** The kinetic energy does not depend on the supplied fields. -/
theorem C21_kinetic_energy (hS : IdealGas γ S) (hU : U.From S) {v : ℝ}
    (h : kineticEnergy U = .ok v) : v = S.rho_Ek := by
  simp only [kineticEnergy, equation_ok, orElse_some, bind_some] at h
  rcases h with h | ⟨-, ⟨rho, h_rho, u, h_u, h⟩ | ⟨-, ⟨rho, h_rho, rho_u, h_rho_u, h⟩ | ⟨-, ⟨rho_E, h_rho_E, rho_Ei, h_rho_Ei, h⟩ | ⟨-, rho, h_rho, Ek, h_Ek, h⟩⟩⟩⟩
  · exact hU.rho_Ek _ h
  · obtain rfl := hU.rho _ h_rho; obtain rfl := hU.u _ h_u; obtain rfl := Option.some.inj h
    gas_done hS
  · obtain rfl := hU.rho _ h_rho; obtain rfl := hU.rho_u _ h_rho_u; obtain rfl := Option.some.inj h
    gas_done hS
  · obtain rfl := hU.rho_E _ h_rho_E; obtain rfl := hU.rho_Ei _ h_rho_Ei; obtain rfl := Option.some.inj h
    gas_done hS
  · obtain rfl := hU.rho _ h_rho; obtain rfl := hU.Ek _ h_Ek; obtain rfl := Option.some.inj h
    gas_done hS

/-- **C21** The specific kinetic energy does not depend on the supplied fields. -/
theorem C21_specific_kinetic_energy (hS : IdealGas γ S) (hU : U.From S) {v : ℝ}
    (h : specificKineticEnergy U = .ok v) : v = S.Ek := by
  simp only [specificKineticEnergy, equation_ok, orElse_some, bind_some] at h
  rcases h with h | ⟨-, ⟨u, h_u, h⟩ | ⟨-, ⟨rho, h_rho, rho_u, h_rho_u, h⟩ | ⟨-, ⟨rho, h_rho, rho_Ek, h_rho_Ek, h⟩ | ⟨-, E, h_E, Ei, h_Ei, h⟩⟩⟩⟩
  · exact hU.Ek _ h
  · obtain rfl := hU.u _ h_u; obtain rfl := Option.some.inj h
    gas_done hS
  · obtain rfl := hU.rho _ h_rho; obtain rfl := hU.rho_u _ h_rho_u; obtain rfl := Option.some.inj h
    gas_done hS
  · obtain rfl := hU.rho _ h_rho; obtain rfl := hU.rho_Ek _ h_rho_Ek; obtain rfl := Option.some.inj h
    gas_done hS
  · obtain rfl := hU.E _ h_E; obtain rfl := hU.Ei _ h_Ei; obtain rfl := Option.some.inj h
    gas_done hS

/-- **C21** The specific energy does not depend on the supplied fields. -/
theorem C21_specific_energy (hS : IdealGas γ S) (hU : U.From S) {v : ℝ}
    (h : specificEnergy U = .ok v) : v = S.E := by
  simp only [specificEnergy, equation_ok, orElse_some, bind_some] at h
  rcases h with h | ⟨-, ⟨rho, h_rho, rho_E, h_rho_E, h⟩ | ⟨-, Ei, h_Ei, Ek, h_Ek, h⟩⟩
  · exact hU.E _ h
  · obtain rfl := hU.rho _ h_rho; obtain rfl := hU.rho_E _ h_rho_E; obtain rfl := Option.some.inj h
    gas_done hS
  · obtain rfl := hU.Ei _ h_Ei; obtain rfl := hU.Ek _ h_Ek; obtain rfl := Option.some.inj h
    gas_done hS

/-- **C21** The enthalpy does not depend on the supplied fields. -/
theorem C21_enthalpy (hS : IdealGas γ S) (hU : U.From S) {v : ℝ}
    (h : enthalpy U = .ok v) : v = S.rho_H := by
  simp only [enthalpy, equation_ok, orElse_some, bind_some] at h
  rcases h with h | ⟨-, ⟨rho_E, h_rho_E, p, h_p, h⟩ | ⟨-, rho, h_rho, H, h_H, h⟩⟩
  · exact hU.rho_H _ h
  · obtain rfl := hU.rho_E _ h_rho_E; obtain rfl := hU.p _ h_p; obtain rfl := Option.some.inj h
    gas_done hS
  · obtain rfl := hU.rho _ h_rho; obtain rfl := hU.H _ h_H; obtain rfl := Option.some.inj h
    gas_done hS

/-- **C21** The inner energy does not depend on the supplied fields. -/
theorem C21_inner_energy (hS : IdealGas γ S) (hU : U.From S) {v : ℝ}
    (h : innerEnergy γ U = .ok v) : v = S.rho_Ei := by
  simp only [innerEnergy, EOS.innerEnergy, equation_ok, orElse_some, bind_some] at h
  rcases h with (h | ⟨-, ⟨p, h_p, h⟩ | ⟨-, rho, h_rho, T, h_T, h⟩⟩) |
    ⟨-, rho_E, h_rho_E, rho_Ek, h_rho_Ek, h⟩
  · exact hU.rho_Ei _ h
  · obtain rfl := hU.p _ h_p; obtain rfl := Option.some.inj h
    gas_done hS
  · obtain rfl := hU.rho _ h_rho; obtain rfl := hU.T _ h_T; obtain rfl := Option.some.inj h
    gas_done hS
  · obtain rfl := hU.rho_E _ h_rho_E; obtain rfl := hU.rho_Ek _ h_rho_Ek
    obtain rfl := Option.some.inj h
    gas_done hS

/-- **C21** The specific inner energy does not depend on the supplied fields. -/
theorem C21_specific_inner_energy (hS : IdealGas γ S) (hU : U.From S) {v : ℝ}
    (h : specificInnerEnergy γ U = .ok v) : v = S.Ei := by
  simp only [specificInnerEnergy, EOS.specificInnerEnergy, equation_ok, orElse_some,
    bind_some] at h
  rcases h with (h | ⟨-, ⟨T, h_T, h⟩ | ⟨-, rho, h_rho, p, h_p, h⟩⟩) |
    ⟨-, ⟨rho, h_rho, rho_Ei, h_rho_Ei, h⟩ | ⟨-, E, h_E, Ek, h_Ek, h⟩⟩
  · exact hU.Ei _ h
  · obtain rfl := hU.T _ h_T; obtain rfl := Option.some.inj h
    gas_done hS
  · obtain rfl := hU.rho _ h_rho; obtain rfl := hU.p _ h_p; obtain rfl := Option.some.inj h
    gas_done hS
  · obtain rfl := hU.rho _ h_rho; obtain rfl := hU.rho_Ei _ h_rho_Ei
    obtain rfl := Option.some.inj h
    gas_done hS
  · obtain rfl := hU.E _ h_E; obtain rfl := hU.Ek _ h_Ek
    obtain rfl := Option.some.inj h
    gas_done hS

/-- **C21** The total energy does not depend on the supplied fields. -/
theorem C21_energy (hS : IdealGas γ S) (hU : U.From S) {v : ℝ}
    (h : energy γ U = .ok v) : v = S.rho_E := by
  unfold energy at h
  split at h
  next e he =>
    simp only [equationE, Except.ok.injEq] at h
    subst h
    simp only [orElse_some, bind_some] at he
    rcases he with h | ⟨-, ⟨rho, h_rho, E, h_E, h⟩ | ⟨-, rho_Ei, h_rho_Ei, rho_Ek, h_rho_Ek, h⟩⟩
    · exact hU.rho_E _ h
    · obtain rfl := hU.rho _ h_rho; obtain rfl := hU.E _ h_E; obtain rfl := Option.some.inj h
      gas_done hS
    · obtain rfl := hU.rho_Ei _ h_rho_Ei; obtain rfl := hU.rho_Ek _ h_rho_Ek
      obtain rfl := Option.some.inj h
      gas_done hS
  next =>
    cases hi : innerEnergy γ U with
    | error e => simp [hi, bind, Except.bind, equationE] at h
    | ok a =>
      cases hk : kineticEnergy U with
      | error e => simp [hi, hk, bind, Except.bind, equationE] at h
      | ok b =>
        simp only [hi, hk, bind, Except.bind, equationE, Except.ok.injEq] at h
        subst h
        rw [C21_inner_energy hS hU hi, C21_kinetic_energy hS hU hk]
        gas_done hS

/-- **C21** The specific enthalpy, if computed, does not depend on the supplied fields. -/
theorem C21_specific_enthalpy (hS : IdealGas γ S) (hU : U.From S) {v : ℝ}
    (h : specificEnthalpy U = .ok v) : v = S.H := by
  unfold specificEnthalpy at h
  split at h
  next e he =>
    simp only [equationE, Except.ok.injEq] at h
    subst h
    simp only [orElse_some, bind_some] at he
    rcases he with h | ⟨-, rho, h_rho, rho_H, h_rho_H, h⟩
    · exact hU.H _ h
    · obtain rfl := hU.rho _ h_rho; obtain rfl := hU.rho_H _ h_rho_H
      obtain rfl := Option.some.inj h
      gas_done hS
  next =>
    split at h
    next rho _ p h_rho _ h_p =>
      split at h
      next E h_E =>
        simp only [equationE, Except.ok.injEq] at h
        subst h
        obtain rfl := hU.rho _ h_rho; obtain rfl := hU.E _ h_E; obtain rfl := hU.p _ h_p
        gas_done hS
      next => simp [equationE] at h
    next => simp [equationE] at h

/-- The fields from which the speed of sound comes out right. -/
def SoundDocumented (U : Flow n) : Prop :=
  U.c.isSome ∨ (U.rho.isSome ∧ U.p.isSome) ∨ U.T.isSome

/-- **C21** (part) The speed of sound does not depend on the supplied fields as long as
`c`, or density and pressure, or the temperature is among them. Missing: the case in which
it is computed from the specific inner energy alone, see `C21_fails_speed_of_sound`. -/
theorem C21_speed_of_sound_partial (hS : IdealGas γ S) (hU : U.From S)
    (hd : SoundDocumented U) {v : ℝ} (h : speedOfSound γ U = .ok v) : v = S.c := by
  simp only [speedOfSound, EOS.speedOfSound, equation_ok, orElse_some, bind_some] at h
  rcases h with h | ⟨hc, ⟨rho, h_rho, p, h_p, h⟩ | ⟨hrp, ⟨T, h_T, h⟩ | ⟨hT, Ei, h_Ei, h⟩⟩⟩
  · exact hU.c _ h
  · obtain rfl := hU.rho _ h_rho; obtain rfl := hU.p _ h_p; obtain rfl := Option.some.inj h
    rw [mul_div_assoc, ← hS.sound, Real.sqrt_sq hS.sound_pos.le]
  · obtain rfl := hU.T _ h_T; obtain rfl := Option.some.inj h
    rw [hS.c_eq, hS.caloric]; congr 1; ring
  · exfalso
    have hT' : U.T = none := by
      cases hh : U.T with
      | none => rfl
      | some x => simp [hh] at hT
    rcases hd with hd | ⟨h1, h2⟩ | hd
    · simp [hc] at hd
    · obtain ⟨a, ha⟩ := Option.isSome_iff_exists.1 h1
      obtain ⟨b, hb⟩ := Option.isSome_iff_exists.1 h2
      simp [ha, hb] at hrp
    · simp [hT'] at hd

/-- **C21** (violation, quantified) Whenever the speed of sound of a consistent state is
computed from the specific inner energy alone, the result is the true value divided by the
heat capacity ratio, hence always wrong. -/
theorem C21_fails_speed_of_sound (hS : IdealGas γ S) :
    ({ Ei := some S.Ei } : Flow n).From S ∧
    speedOfSound γ ({ Ei := some S.Ei } : Flow n) = .ok (S.c / γ) ∧ S.c / γ ≠ S.c := by
  have hγ := hS.gamma
  refine ⟨by constructor <;> simp, ?_, ?_⟩
  · have h : (γ - 1) * S.Ei / γ = (S.c / γ) ^ 2 := by
      rw [div_pow, hS.c_sq]; field_simp
    have : 0 ≤ S.c / γ := div_nonneg hS.sound_pos.le (by linarith)
    simp [speedOfSound, EOS.speedOfSound, equation, equationE, h, Real.sqrt_sq this]
  · have := hS.sound_pos
    intro h
    rw [div_eq_iff (by linarith)] at h
    nlinarith

/-- **C21** (part) The local Mach number is `|u|/c` of the state, under the same proviso on
the speed of sound. -/
theorem C21_local_mach_number_partial (hS : IdealGas γ S) (hU : U.From S)
    (hd : SoundDocumented U) {v : ℝ} (h : localMachNumber γ U = .ok v) :
    v = √(S.u ⬝ᵥ S.u) / S.c := by
  unfold localMachNumber at h
  cases hu : velocity U with
  | error e => simp [hu, bind, Except.bind] at h
  | ok a =>
    cases hk : speedOfSound γ U with
    | error e => simp [hu, hk, bind, Except.bind] at h
    | ok b =>
      simp only [hu, hk, bind, Except.bind, Except.ok.injEq] at h
      rw [← h, C21_velocity hS hU hu, C21_speed_of_sound_partial hS hU hd hk]

/-- A consistent state of air (`γ = 7/5`) moving with velocity `(1, 1)`, with `ρ = 2`,
`Eᵢ = 25/14`, `T = 5/2`, `c = 1`, `p = 10/7`. -/
noncomputable def airState : GasState 2 where
  rho := 2
  u := ![1, 1]
  rho_u := ![2, 2]
  p := 10 / 7
  T := 5 / 2
  rho_E := 39 / 7
  E := 39 / 14
  rho_Ei := 25 / 7
  Ei := 25 / 14
  rho_Ek := 2
  Ek := 1
  rho_H := 7
  H := 7 / 2
  c := 1

/-- The hypothesis `IdealGas` of the C21-C24 theorems is met by a non-trivial state. -/
theorem airState_ideal : IdealGas (7 / 5) airState := by
  constructor <;> norm_num [airState, dotProduct, Fin.sum_univ_two]

/-- `C21_density` on the state of air, supplied with pressure and speed of sound only. -/
example : ({ p := some (10 / 7), c := some 1 } : Flow 2).From airState ∧
    density (7 / 5) ({ p := some (10 / 7), c := some 1 } : Flow 2) = .ok 2 := by
  refine ⟨by constructor <;> simp [airState], ?_⟩
  norm_num [density, EOS.density, equation, equationE]

/-- `C21_energy` on the state of air, through the computed inner and kinetic energies. -/
example : energy (7 / 5) ({ rho := some 2, rho_u := some ![2, 2], T := some (5 / 2) } : Flow 2)
    = .ok (39 / 7) := by
  norm_num [energy, innerEnergy, EOS.innerEnergy, kineticEnergy, equation, equationE, bind,
    Except.bind, dotProduct, Fin.sum_univ_two]

/-- `C21_speed_of_sound_partial`: hypotheses met by density and pressure. -/
example : SoundDocumented ({ rho := some 2, p := some (10 / 7) } : Flow 2) := by
  simp [SoundDocumented]

end Dream
