import Verif.Lemmas.Flow
import Mathlib.Tactic.Tauto

/-!
# C22: a quantity is computed, or refused with ValueError

`Available U.Has combos` says that one of the listed combinations of fields is completely
present in the dictionary `U`.
-/

namespace Dream
open Matrix Spec

set_option linter.unusedSimpArgs false

variable {n : ℕ}

/-- The field is present in the dictionary. -/
def Flow.Has (U : Flow n) : Fld → Prop
  | .rho => U.rho.isSome
  | .u => U.u.isSome
  | .rho_u => U.rho_u.isSome
  | .p => U.p.isSome
  | .T => U.T.isSome
  | .rho_E => U.rho_E.isSome
  | .E => U.E.isSome
  | .rho_Ei => U.rho_Ei.isSome
  | .Ei => U.Ei.isSome
  | .rho_Ek => U.rho_Ek.isSome
  | .Ek => U.Ek.isSome
  | .rho_H => U.rho_H.isSome
  | .H => U.H.isSome
  | .c => U.c.isSome

theorem equation_error_isSome {α} {r : Option α} {e : PyErr} :
    equation r = .error e ↔ ¬ r.isSome ∧ e = .valueError := by
  cases r <;> simp [equation_error]

theorem orElse_isSome {α} {a b : Option α} : (a <|> b).isSome ↔ a.isSome ∨ b.isSome := by
  cases a <;> simp

theorem bind_isSome1 {α β} {x : Option α} {f : α → β} :
    (do let a ← x; some (f a)).isSome ↔ x.isSome := by
  cases x <;> simp

theorem bind_isSome2 {α β δ} {x : Option α} {y : Option β} {f : α → β → δ} :
    (do let a ← x; let b ← y; some (f a b)).isSome ↔ x.isSome ∧ y.isSome := by
  cases x <;> cases y <;> simp

variable (γ : ℝ) (U : Flow n) (e : PyErr)

/-- **C22** `density` fails only with `ValueError`, and exactly when no combination is complete. -/
theorem C22_density : density γ U = .error e ↔ e = .valueError ∧ ¬ Available U.Has densityCombos := by
  simp only [density, EOS.density, equation_error_isSome, orElse_isSome, bind_isSome1, bind_isSome2, Available,
    densityCombos, List.mem_cons, List.not_mem_nil, or_false, exists_eq_or_imp, exists_eq_left,
    forall_eq_or_imp, forall_eq, Flow.Has]
  tauto

/-- **C22** `pressure` fails only with `ValueError`, and exactly when no combination is complete. -/
theorem C22_pressure : pressure γ U = .error e ↔ e = .valueError ∧ ¬ Available U.Has pressureCombos := by
  simp only [pressure, EOS.pressure, equation_error_isSome, orElse_isSome, bind_isSome1, bind_isSome2, Available,
    pressureCombos, List.mem_cons, List.not_mem_nil, or_false, exists_eq_or_imp, exists_eq_left,
    forall_eq_or_imp, forall_eq, Flow.Has]
  tauto

/-- **C22** `temperature` fails only with `ValueError`, and exactly when no combination is complete. -/
theorem C22_temperature : temperature γ U = .error e ↔ e = .valueError ∧ ¬ Available U.Has temperatureCombos := by
  simp only [temperature, EOS.temperature, equation_error_isSome, orElse_isSome, bind_isSome1, bind_isSome2, Available,
    temperatureCombos, List.mem_cons, List.not_mem_nil, or_false, exists_eq_or_imp, exists_eq_left,
    forall_eq_or_imp, forall_eq, Flow.Has]
  tauto

/-- **C22** `inner_energy` fails only with `ValueError`, and exactly when no combination is complete. -/
theorem C22_inner_energy : innerEnergy γ U = .error e ↔ e = .valueError ∧ ¬ Available U.Has innerEnergyCombos := by
  simp only [innerEnergy, EOS.innerEnergy, equation_error_isSome, orElse_isSome, bind_isSome1, bind_isSome2, Available,
    innerEnergyCombos, List.mem_cons, List.not_mem_nil, or_false, exists_eq_or_imp, exists_eq_left,
    forall_eq_or_imp, forall_eq, Flow.Has]
  tauto

/-- **C22** `specific_inner_energy` fails only with `ValueError`, and exactly when no combination is complete. -/
theorem C22_specific_inner_energy : specificInnerEnergy γ U = .error e ↔ e = .valueError ∧ ¬ Available U.Has specificInnerEnergyCombos := by
  simp only [specificInnerEnergy, EOS.specificInnerEnergy, equation_error_isSome, orElse_isSome, bind_isSome1, bind_isSome2, Available,
    specificInnerEnergyCombos, List.mem_cons, List.not_mem_nil, or_false, exists_eq_or_imp, exists_eq_left,
    forall_eq_or_imp, forall_eq, Flow.Has]
  tauto

/-- **C22** `speed_of_sound` fails only with `ValueError`, and exactly when no combination is complete. -/
theorem C22_speed_of_sound : speedOfSound γ U = .error e ↔ e = .valueError ∧ ¬ Available U.Has speedOfSoundCombos := by
  simp only [speedOfSound, EOS.speedOfSound, equation_error_isSome, orElse_isSome, bind_isSome1, bind_isSome2, Available,
    speedOfSoundCombos, List.mem_cons, List.not_mem_nil, or_false, exists_eq_or_imp, exists_eq_left,
    forall_eq_or_imp, forall_eq, Flow.Has]
  tauto

/-- **C22** `velocity` fails only with `ValueError`, and exactly when no combination is complete. -/
theorem C22_velocity : velocity U = .error e ↔ e = .valueError ∧ ¬ Available U.Has velocityCombos := by
  simp only [velocity, equation_error_isSome, orElse_isSome, bind_isSome1, bind_isSome2, Available,
    velocityCombos, List.mem_cons, List.not_mem_nil, or_false, exists_eq_or_imp, exists_eq_left,
    forall_eq_or_imp, forall_eq, Flow.Has]
  tauto

/-- **C22** `momentum` fails only with `ValueError`, and exactly when no combination is complete. -/
theorem C22_momentum : momentum U = .error e ↔ e = .valueError ∧ ¬ Available U.Has momentumCombos := by
  simp only [momentum, equation_error_isSome, orElse_isSome, bind_isSome1, bind_isSome2, Available,
    momentumCombos, List.mem_cons, List.not_mem_nil, or_false, exists_eq_or_imp, exists_eq_left,
    forall_eq_or_imp, forall_eq, Flow.Has]
  tauto

/-- **C22** `kinetic_energy` fails only with `ValueError`, and exactly when no combination is complete. -/
theorem C22_kinetic_energy : kineticEnergy U = .error e ↔ e = .valueError ∧ ¬ Available U.Has kineticEnergyCombos := by
  simp only [kineticEnergy, equation_error_isSome, orElse_isSome, bind_isSome1, bind_isSome2, Available,
    kineticEnergyCombos, List.mem_cons, List.not_mem_nil, or_false, exists_eq_or_imp, exists_eq_left,
    forall_eq_or_imp, forall_eq, Flow.Has]
  tauto

/-- **C22** `specific_kinetic_energy` fails only with `ValueError`, and exactly when no combination is complete. -/
theorem C22_specific_kinetic_energy : specificKineticEnergy U = .error e ↔ e = .valueError ∧ ¬ Available U.Has specificKineticEnergyCombos := by
  simp only [specificKineticEnergy, equation_error_isSome, orElse_isSome, bind_isSome1, bind_isSome2, Available,
    specificKineticEnergyCombos, List.mem_cons, List.not_mem_nil, or_false, exists_eq_or_imp, exists_eq_left,
    forall_eq_or_imp, forall_eq, Flow.Has]
  tauto

/-- **C22** `specific_energy` fails only with `ValueError`, and exactly when no combination is complete. -/
theorem C22_specific_energy : specificEnergy U = .error e ↔ e = .valueError ∧ ¬ Available U.Has specificEnergyCombos := by
  simp only [specificEnergy, equation_error_isSome, orElse_isSome, bind_isSome1, bind_isSome2, Available,
    specificEnergyCombos, List.mem_cons, List.not_mem_nil, or_false, exists_eq_or_imp, exists_eq_left,
    forall_eq_or_imp, forall_eq, Flow.Has]
  tauto

/-- **C22** `enthalpy` fails only with `ValueError`, and exactly when no combination is complete. -/
theorem C22_enthalpy : enthalpy U = .error e ↔ e = .valueError ∧ ¬ Available U.Has enthalpyCombos := by
  simp only [enthalpy, equation_error_isSome, orElse_isSome, bind_isSome1, bind_isSome2, Available,
    enthalpyCombos, List.mem_cons, List.not_mem_nil, or_false, exists_eq_or_imp, exists_eq_left,
    forall_eq_or_imp, forall_eq, Flow.Has]
  tauto

/-- **C22** `energy` fails only with `ValueError`, and exactly when it is neither given nor
a product nor the sum of two parts that can be determined. -/
theorem C22_energy : energy γ U = .error e ↔ e = .valueError ∧ ¬ Available U.Has energyCombos := by
  have key : Available U.Has energyCombos ↔
      (U.rho_E.isSome ∨ (U.rho.isSome ∧ U.E.isSome) ∨
        (Available U.Has innerEnergyCombos ∧ Available U.Has kineticEnergyCombos)) := by
    constructor
    · rintro ⟨c, hc, h⟩
      simp only [energyCombos, both, List.mem_append, List.mem_cons, List.not_mem_nil, or_false,
        List.mem_flatMap, List.mem_map] at hc
      rcases hc with (rfl | rfl) | ⟨a, ha, b, hb, rfl⟩
      · exact .inl (h .rho_E (by simp))
      · exact .inr (.inl ⟨h .rho (by simp), h .E (by simp)⟩)
      · exact .inr (.inr ⟨⟨a, ha, fun f hf => h f (by simp [hf])⟩,
          ⟨b, hb, fun f hf => h f (by simp [hf])⟩⟩)
    · rintro (h | ⟨h1, h2⟩ | ⟨⟨a, ha, h1⟩, ⟨b, hb, h2⟩⟩)
      · exact ⟨[.rho_E], by simp [energyCombos], by simpa [Flow.Has] using h⟩
      · exact ⟨[.rho, .E], by simp [energyCombos], by simpa [Flow.Has] using ⟨h1, h2⟩⟩
      · refine ⟨a ++ b, ?_, ?_⟩
        · simp only [energyCombos, both, List.mem_append, List.mem_flatMap, List.mem_map]
          exact .inr ⟨a, ha, b, hb, rfl⟩
        · intro f hf
          rcases List.mem_append.1 hf with hf | hf
          · exact h1 f hf
          · exact h2 f hf
  rw [key]
  have hprod : (U.rho_Ei.isSome ∧ U.rho_Ek.isSome) →
      Available U.Has innerEnergyCombos ∧ Available U.Has kineticEnergyCombos := fun ⟨a, b⟩ =>
    ⟨⟨[.rho_Ei], by simp [innerEnergyCombos], by simpa [Flow.Has] using a⟩,
      ⟨[.rho_Ek], by simp [kineticEnergyCombos], by simpa [Flow.Has] using b⟩⟩
  unfold energy
  split
  next v hv =>
    have : (U.rho_E <|> (do let rho ← U.rho; let E ← U.E; some (rho * E)) <|>
      (do let rho_Ei ← U.rho_Ei; let rho_Ek ← U.rho_Ek; some (rho_Ei + rho_Ek))).isSome := by
      rw [hv]; rfl
    simp only [orElse_isSome, bind_isSome2] at this
    simp only [equationE, reduceCtorEq, false_iff]
    tauto
  next hv =>
    have : ¬ (U.rho_E <|> (do let rho ← U.rho; let E ← U.E; some (rho * E)) <|>
      (do let rho_Ei ← U.rho_Ei; let rho_Ek ← U.rho_Ek; some (rho_Ei + rho_Ek))).isSome := by
      rw [hv]; simp
    simp only [orElse_isSome, bind_isSome2] at this
    have hi := C22_inner_energy γ U
    have hk := C22_kinetic_energy U
    cases h1 : innerEnergy γ U with
    | error e1 =>
      have h1' := (hi e1).1 h1
      simp only [bind, Except.bind, equationE, Except.error.injEq]
      rw [eq_comm, h1'.1]
      tauto
    | ok a =>
      have h1' : Available U.Has innerEnergyCombos := by
        by_contra hn
        have := (hi .valueError).2 ⟨rfl, hn⟩
        simp [h1] at this
      cases h2 : kineticEnergy U with
      | error e2 =>
        have h2' := (hk e2).1 h2
        simp only [bind, Except.bind, equationE, Except.error.injEq]
        rw [eq_comm, h2'.1]
        tauto
      | ok b =>
        have h2' : Available U.Has kineticEnergyCombos := by
          by_contra hn
          have := (hk .valueError).2 ⟨rfl, hn⟩
          simp [h2] at this
        simp only [bind, Except.bind, equationE, reduceCtorEq, false_iff]
        tauto

/-- **C22** (part) `specific_enthalpy` is refused with `ValueError` exactly when no
combination is complete. Missing: it never fails otherwise, see
`C22_fails_specific_enthalpy`. -/
theorem C22_specific_enthalpy_partial :
    specificEnthalpy U = .error .valueError ↔ ¬ Available U.Has specificEnthalpyCombos := by
  simp only [Available, specificEnthalpyCombos, List.mem_cons, List.not_mem_nil, or_false,
    exists_eq_or_imp, exists_eq_left, forall_eq_or_imp, forall_eq, Flow.Has]
  obtain ⟨rho, u, rho_u, p, T, rho_E, E, rho_Ei, Ei, rho_Ek, Ek, rho_H, H, c⟩ := U
  cases H <;> cases rho <;> cases rho_H <;> cases rho_E <;> cases p <;> cases E <;>
    simp [specificEnthalpy, equationE]

/-- **C22** (violation) `specific_enthalpy` fails with `TypeError` exactly when density,
energy and pressure are present - a documented combination - while the specific energy, the
specific enthalpy and the enthalpy are absent. -/
theorem C22_fails_specific_enthalpy : specificEnthalpy U = .error .typeError ↔
    (U.rho.isSome ∧ U.rho_E.isSome ∧ U.p.isSome) ∧
      U.E = none ∧ U.H = none ∧ U.rho_H = none := by
  obtain ⟨rho, u, rho_u, p, T, rho_E, E, rho_Ei, Ei, rho_Ek, Ek, rho_H, H, c⟩ := U
  cases H <;> cases rho <;> cases rho_H <;> cases rho_E <;> cases p <;> cases E <;>
    simp [specificEnthalpy, equationE]

/-- A user supplying density, energy and pressure of a consistent state gets a `TypeError`. -/
example : specificEnthalpy ({ rho := some 2, rho_E := some (39 / 7), p := some (10 / 7) } : Flow 2)
    = .error .typeError := by simp [specificEnthalpy, equationE]

/-- `C22_energy`: a dictionary with velocity and temperature only is refused, adding the
density makes it available. -/
example : energy (7 / 5) ({ u := some ![1, 1], T := some 1 } : Flow 2) = .error .valueError :=
  (C22_energy _ _ _).2 ⟨rfl, by
    simp [Available, energyCombos, both, innerEnergyCombos, kineticEnergyCombos, Flow.Has]⟩

example : Available (Flow.Has ({ rho := some 2, u := some ![1, 1], T := some 1 } : Flow 2))
    energyCombos :=
  ⟨[.rho, .T, .rho, .u], by
    simp [energyCombos, both, innerEnergyCombos, kineticEnergyCombos], by simp [Flow.Has]⟩

end Dream
