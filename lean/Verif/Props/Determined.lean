import Verif.Props.Splitting

/-!
# C91: characteristic quantities are returned exactly if they can be computed
-/

noncomputable section

namespace Dream

/-- What a request for a quantity leads to: it is returned if everything it needs is given and it is
implemented; a missing field is reported as `ValueError`, a missing implementation as
`NotImplementedError`. -/
structure Answers {α : Type} (r : Except PyErr α) (given implemented : Prop) : Prop where
  value : given → implemented → ∃ a, r = .ok a
  notImplemented : given → ¬ implemented → r = .error .notImplemented
  missing : ¬ given → r = .error .valueError

theorem Answers.ok_iff {α : Type} {r : Except PyErr α} {g i : Prop} (h : Answers r g i) :
    (∃ a, r = .ok a) ↔ g ∧ i := by
  constructor
  · rintro ⟨a, ha⟩
    by_cases hg : g
    · by_cases hi : i
      · exact ⟨hg, hi⟩
      · rw [h.notImplemented hg hi] at ha; cases ha
    · rw [h.missing hg] at ha; cases ha
  · rintro ⟨hg, hi⟩; exact h.value hg hi

variable {n : ℕ} (γ : ℝ) (U : Flow n) (dU : Grads n) (d : Fin n → ℝ)

/-- **C91** The transformation matrices between the sets of variables. -/
theorem C91_transformations :
    Answers (conservativeFromPrimitive γ U) (U.rho.isSome ∧ U.u.isSome) (n = 2) ∧
    Answers (primitiveFromConservative γ U) (U.rho.isSome ∧ U.u.isSome) (n = 2) ∧
    Answers (primitiveFromCharacteristic U d) (U.rho.isSome ∧ U.c.isSome) (n = 2) ∧
    Answers (characteristicFromPrimitive U d) (U.rho.isSome ∧ U.c.isSome) (n = 2) ∧
    Answers (conservativeFromCharacteristic γ U d) (U.rho.isSome ∧ U.c.isSome ∧ U.u.isSome) (n = 2) ∧
    Answers (characteristicFromConservative γ U d) (U.rho.isSome ∧ U.c.isSome ∧ U.u.isSome) (n = 2) := by
  by_cases hn : n = 2
  · subst hn
    refine ⟨?_, ?_, ?_, ?_, ?_, ?_⟩ <;> refine ⟨fun h _ => ?_, fun _ h => absurd rfl h, fun h => ?_⟩ <;>
    simp only [conservativeFromPrimitive, primitiveFromConservative, primitiveFromCharacteristic,
      characteristicFromPrimitive, conservativeFromCharacteristic, characteristicFromConservative] <;>
    cases hr : U.rho <;> cases hu : U.u <;> cases hc : U.c <;>
    simp_all [equation, equationE]
  · refine ⟨?_, ?_, ?_, ?_, ?_, ?_⟩ <;>
    refine ⟨fun _ h => absurd h hn, fun h _ => ?_, fun h => ?_⟩
    · unfold conservativeFromPrimitive; split
      · exact absurd rfl hn
      · rw [if_pos h]
    · unfold conservativeFromPrimitive; split
      · exact absurd rfl hn
      · rw [if_neg h]
    · unfold primitiveFromConservative; split
      · exact absurd rfl hn
      · rw [if_pos h]
    · unfold primitiveFromConservative; split
      · exact absurd rfl hn
      · rw [if_neg h]
    · unfold primitiveFromCharacteristic; split
      · exact absurd rfl hn
      · rw [if_pos h]
    · unfold primitiveFromCharacteristic; split
      · exact absurd rfl hn
      · rw [if_neg h]
    · unfold characteristicFromPrimitive; split
      · exact absurd rfl hn
      · rw [if_pos h]
    · unfold characteristicFromPrimitive; split
      · exact absurd rfl hn
      · rw [if_neg h]
    · unfold conservativeFromCharacteristic; split
      · exact absurd rfl hn
      · rw [if_pos h]
    · unfold conservativeFromCharacteristic; split
      · exact absurd rfl hn
      · rw [if_neg h]
    · unfold characteristicFromConservative; split
      · exact absurd rfl hn
      · rw [if_pos h]
    · unfold characteristicFromConservative; split
      · exact absurd rfl hn
      · rw [if_neg h]

/-- **C91** The Jacobians along the axes. -/
theorem C91_jacobians :
    Answers (primitiveConvectiveJacobianX U) (U.u.isSome ∧ U.rho.isSome ∧ U.c.isSome) (n = 2) ∧
    Answers (primitiveConvectiveJacobianY U) (U.u.isSome ∧ U.rho.isSome ∧ U.c.isSome) (n = 2) ∧
    Answers (conservativeConvectiveJacobianX γ U) (U.u.isSome ∧ U.E.isSome) (n = 2) ∧
    Answers (conservativeConvectiveJacobianY γ U) (U.u.isSome ∧ U.E.isSome) (n = 2) := by
  by_cases hn : n = 2
  · subst hn
    refine ⟨?_, ?_, ?_, ?_⟩ <;> refine ⟨fun h _ => ?_, fun _ h => absurd rfl h, fun h => ?_⟩ <;>
    simp only [primitiveConvectiveJacobianX, primitiveConvectiveJacobianY,
      conservativeConvectiveJacobianX, conservativeConvectiveJacobianY] <;>
    cases hr : U.rho <;> cases hu : U.u <;> cases hc : U.c <;> cases hE : U.E <;>
    simp_all [equation, equationE]
  · refine ⟨?_, ?_, ?_, ?_⟩ <;>
    refine ⟨fun _ h => absurd h hn, fun h _ => ?_, fun h => ?_⟩
    · unfold primitiveConvectiveJacobianX; split
      · exact absurd rfl hn
      · rw [if_pos h]
    · unfold primitiveConvectiveJacobianX; split
      · exact absurd rfl hn
      · rw [if_neg h]
    · unfold primitiveConvectiveJacobianY; split
      · exact absurd rfl hn
      · rw [if_pos h]
    · unfold primitiveConvectiveJacobianY; split
      · exact absurd rfl hn
      · rw [if_neg h]
    · unfold conservativeConvectiveJacobianX; split
      · exact absurd rfl hn
      · rw [if_pos h]
    · unfold conservativeConvectiveJacobianX; split
      · exact absurd rfl hn
      · rw [if_neg h]
    · unfold conservativeConvectiveJacobianY; split
      · exact absurd rfl hn
      · rw [if_pos h]
    · unfold conservativeConvectiveJacobianY; split
      · exact absurd rfl hn
      · rw [if_neg h]

/-- The types a part of the characteristic velocities can be asked for with. -/
def velocityTypes : List (Option String) := [none, some "absolute", some "incoming", some "outgoing"]

/-- **C91** The characteristic velocities, in every dimension. -/
theorem C91_velocities (type : Option String) :
    Answers (characteristicVelocities U d type)
      (U.u.isSome ∧ U.c.isSome ∧ type ∈ velocityTypes) True := by
  unfold characteristicVelocities
  refine ⟨fun h _ => ?_, fun _ h => absurd trivial h, fun h => ?_⟩
  · obtain ⟨hu, hc, ht⟩ := h
    obtain ⟨u, hu⟩ := Option.isSome_iff_exists.1 hu
    obtain ⟨c, hc⟩ := Option.isSome_iff_exists.1 hc
    simp only [velocityTypes, List.mem_cons, List.not_mem_nil, or_false] at ht
    rw [hu, hc]
    rcases ht with rfl | rfl | rfl | rfl <;> exact ⟨_, rfl⟩
  · cases hu : U.u with
    | none => rfl
    | some u =>
      cases hc : U.c with
      | none => rfl
      | some c =>
        simp only [hu, hc, Option.isSome_some, true_and, velocityTypes, List.mem_cons,
          List.not_mem_nil, or_false, not_or] at h
        obtain ⟨h1, h2, h3, h4⟩ := h
        dsimp only
        split <;> simp_all

/-- **C91** The characteristic variables. -/
theorem C91_variables :
    Answers (characteristicVariables U dU d)
      (U.rho.isSome ∧ U.c.isSome ∧ dU.grad_rho.isSome ∧ dU.grad_p.isSome ∧ dU.grad_u.isSome) (n = 2) := by
  by_cases hn : n = 2
  · subst hn
    refine ⟨fun h _ => ?_, fun _ h => absurd rfl h, fun h => ?_⟩ <;>
    simp only [characteristicVariables] <;>
    cases hr : U.rho <;> cases hc : U.c <;> cases h1 : dU.grad_rho <;> cases h2 : dU.grad_p <;>
    cases h3 : dU.grad_u <;> simp_all [equation, equationE]
  · refine ⟨fun _ h => absurd h hn, fun h _ => ?_, fun h => ?_⟩
    · unfold characteristicVariables; split
      · exact absurd rfl hn
      · rw [if_pos h]
    · unfold characteristicVariables; split
      · exact absurd rfl hn
      · rw [if_neg h]

/-- **C91** The amplitudes: in two dimensions they are returned exactly if velocities and variables
can be computed, and anything missing is a `ValueError`; in other dimensions nothing is returned. -/
theorem C91_amplitudes (type : Option String) :
    (n = 2 → Answers (characteristicAmplitudes U dU d type)
      ((U.u.isSome ∧ U.c.isSome ∧ type ∈ velocityTypes) ∧ U.rho.isSome ∧ U.c.isSome ∧
        dU.grad_rho.isSome ∧ dU.grad_p.isSome ∧ dU.grad_u.isSome) True) ∧
    (n ≠ 2 → ∃ e, characteristicAmplitudes U dU d type = .error e ∧ (e = .valueError ∨ e = .notImplemented)) := by
  have hv := C91_velocities U d type
  have hw := C91_variables U dU d
  constructor
  · intro hn
    refine ⟨fun h _ => ?_, fun _ h => absurd trivial h, fun h => ?_⟩
    · obtain ⟨v, ev⟩ := hv.value h.1 trivial
      obtain ⟨w, ew⟩ := hw.value h.2 hn
      rw [characteristicAmplitudes, if_pos ⟨h.1.1, h.1.2.1⟩, ev, ew]
      exact ⟨_, rfl⟩
    · unfold characteristicAmplitudes
      by_cases hg : U.rho.isSome ∧ U.c.isSome ∧ dU.grad_rho.isSome ∧ dU.grad_p.isSome ∧ dU.grad_u.isSome
      · have hv' := hv.missing fun h' => h ⟨h', hg⟩
        obtain ⟨w, ew⟩ := hw.value hg hn
        rw [hv', ew]
        split_ifs <;> rfl
      · rw [hw.missing hg]
        split_ifs with hs
        · cases hvel : characteristicVelocities U d type with
          | ok v => rfl
          | error e =>
            have : ¬ (U.u.isSome ∧ U.c.isSome ∧ type ∈ velocityTypes) := fun h' => by
              obtain ⟨v, ev⟩ := hv.value h' trivial
              rw [ev] at hvel; cases hvel
            rw [hv.missing this] at hvel
            cases hvel; rfl
        · rfl
  · intro hn
    have key : ∃ e, characteristicVariables U dU d = .error e ∧ (e = .valueError ∨ e = .notImplemented) := by
      by_cases hg : U.rho.isSome ∧ U.c.isSome ∧ dU.grad_rho.isSome ∧ dU.grad_p.isSome ∧ dU.grad_u.isSome
      · exact ⟨_, hw.notImplemented hg hn, .inr rfl⟩
      · exact ⟨_, hw.missing hg, .inl rfl⟩
    obtain ⟨e, he, ht⟩ := key
    unfold characteristicAmplitudes
    rw [he]
    split_ifs with hs
    · by_cases hvt : type ∈ velocityTypes
      · obtain ⟨v, ev⟩ := hv.value ⟨hs.1, hs.2, hvt⟩ trivial
        rw [ev]
        exact ⟨e, rfl, ht⟩
      · rw [hv.missing fun h => hvt h.2.2]
        exact ⟨_, rfl, .inl rfl⟩
    · exact ⟨e, rfl, ht⟩

/-- **C91** The Jacobians in a direction and their parts. -/
theorem C91_directional (type : Option String) :
    Answers (primitiveConvectiveJacobian U d type)
      ((U.u.isSome ∧ U.c.isSome ∧ type ∈ velocityTypes) ∧ U.rho.isSome) (n = 2) ∧
    Answers (conservativeConvectiveJacobian γ U d type)
      ((U.u.isSome ∧ U.c.isSome ∧ type ∈ velocityTypes) ∧ U.rho.isSome) (n = 2) := by
  have hv := C91_velocities U d type
  obtain ⟨-, -, h1, h2, h3, h4⟩ := C91_transformations γ U d
  refine ⟨⟨fun h hn => ?_, fun h hn => ?_, fun h => ?_⟩, ⟨fun h hn => ?_, fun h hn => ?_, fun h => ?_⟩⟩
  · obtain ⟨v, ev⟩ := hv.value h.1 trivial
    obtain ⟨L, eL⟩ := h1.value ⟨h.2, h.1.2.1⟩ hn
    obtain ⟨L', eL'⟩ := h2.value ⟨h.2, h.1.2.1⟩ hn
    rw [primitiveConvectiveJacobian, ev]
    simp only [bind, Except.bind, transformCharacteristicToPrimitive, eL, eL']
    exact ⟨_, rfl⟩
  · obtain ⟨v, ev⟩ := hv.value h.1 trivial
    rw [primitiveConvectiveJacobian, ev]
    simp only [bind, Except.bind, transformCharacteristicToPrimitive,
      h1.notImplemented ⟨h.2, h.1.2.1⟩ hn]
  · rw [primitiveConvectiveJacobian]
    by_cases hg : U.u.isSome ∧ U.c.isSome ∧ type ∈ velocityTypes
    · obtain ⟨v, ev⟩ := hv.value hg trivial
      rw [ev]
      simp only [bind, Except.bind, transformCharacteristicToPrimitive,
        h1.missing fun h' => h ⟨hg, h'.1⟩]
    · rw [hv.missing hg]; rfl
  · obtain ⟨v, ev⟩ := hv.value h.1 trivial
    obtain ⟨L, eL⟩ := h3.value ⟨h.2, h.1.2.1, h.1.1⟩ hn
    obtain ⟨L', eL'⟩ := h4.value ⟨h.2, h.1.2.1, h.1.1⟩ hn
    rw [conservativeConvectiveJacobian, ev]
    simp only [bind, Except.bind, transformCharacteristicToConservative, eL, eL']
    exact ⟨_, rfl⟩
  · obtain ⟨v, ev⟩ := hv.value h.1 trivial
    rw [conservativeConvectiveJacobian, ev]
    simp only [bind, Except.bind, transformCharacteristicToConservative,
      h3.notImplemented ⟨h.2, h.1.2.1, h.1.1⟩ hn]
  · rw [conservativeConvectiveJacobian]
    by_cases hg : U.u.isSome ∧ U.c.isSome ∧ type ∈ velocityTypes
    · obtain ⟨v, ev⟩ := hv.value hg trivial
      rw [ev]
      simp only [bind, Except.bind, transformCharacteristicToConservative,
        h3.missing fun h' => h ⟨hg, h'.1⟩]
    · rw [hv.missing hg]; rfl

/-- **C91** The switches of the incoming and outgoing characteristics, as used in the characteristic
conditions. -/
theorem C91_identities (type : Option String) :
    Answers (characteristicIdentity U d type)
      (U.u.isSome ∧ U.c.isSome ∧ (type = some "incoming" ∨ type = some "outgoing")) True ∧
    Answers (primitiveConvectiveIdentity U d type)
      ((U.u.isSome ∧ U.c.isSome ∧ (type = some "incoming" ∨ type = some "outgoing")) ∧ U.rho.isSome)
      (n = 2) ∧
    Answers (conservativeConvectiveIdentity γ U d type)
      ((U.u.isSome ∧ U.c.isSome ∧ (type = some "incoming" ∨ type = some "outgoing")) ∧ U.rho.isSome)
      (n = 2) := by
  have hv := C91_velocities U d type
  obtain ⟨-, -, h1, h2, h3, h4⟩ := C91_transformations γ U d
  have hi : Answers (characteristicIdentity U d type)
      (U.u.isSome ∧ U.c.isSome ∧ (type = some "incoming" ∨ type = some "outgoing")) True := by
    refine ⟨fun h _ => ?_, fun _ h => absurd trivial h, fun h => ?_⟩
    · have hm : type ∈ velocityTypes := by
        rcases h.2.2 with rfl | rfl <;> simp [velocityTypes]
      obtain ⟨v, ev⟩ := hv.value ⟨h.1, h.2.1, hm⟩ trivial
      rw [characteristicIdentity, ev]
      rcases h.2.2 with rfl | rfl <;> exact ⟨_, rfl⟩
    · rw [characteristicIdentity]
      by_cases hg : U.u.isSome ∧ U.c.isSome ∧ type ∈ velocityTypes
      · obtain ⟨v, ev⟩ := hv.value hg trivial
        rw [ev]
        have : ¬ (type = some "incoming" ∨ type = some "outgoing") := fun h' => h ⟨hg.1, hg.2.1, h'⟩
        rw [not_or] at this
        simp only [bind, Except.bind]
        split <;> simp_all
      · rw [hv.missing hg]; rfl
  refine ⟨hi, ⟨fun h hn => ?_, fun h hn => ?_, fun h => ?_⟩, ⟨fun h hn => ?_, fun h hn => ?_, fun h => ?_⟩⟩
  · obtain ⟨v, ev⟩ := hi.value h.1 trivial
    obtain ⟨L, eL⟩ := h1.value ⟨h.2, h.1.2.1⟩ hn
    obtain ⟨L', eL'⟩ := h2.value ⟨h.2, h.1.2.1⟩ hn
    rw [primitiveConvectiveIdentity, ev]
    simp only [bind, Except.bind, transformCharacteristicToPrimitive, eL, eL']
    exact ⟨_, rfl⟩
  · obtain ⟨v, ev⟩ := hi.value h.1 trivial
    rw [primitiveConvectiveIdentity, ev]
    simp only [bind, Except.bind, transformCharacteristicToPrimitive,
      h1.notImplemented ⟨h.2, h.1.2.1⟩ hn]
  · rw [primitiveConvectiveIdentity]
    by_cases hg : U.u.isSome ∧ U.c.isSome ∧ (type = some "incoming" ∨ type = some "outgoing")
    · obtain ⟨v, ev⟩ := hi.value hg trivial
      rw [ev]
      simp only [bind, Except.bind, transformCharacteristicToPrimitive,
        h1.missing fun h' => h ⟨hg, h'.1⟩]
    · rw [hi.missing hg]; rfl
  · obtain ⟨v, ev⟩ := hi.value h.1 trivial
    obtain ⟨L, eL⟩ := h3.value ⟨h.2, h.1.2.1, h.1.1⟩ hn
    obtain ⟨L', eL'⟩ := h4.value ⟨h.2, h.1.2.1, h.1.1⟩ hn
    rw [conservativeConvectiveIdentity, ev]
    simp only [bind, Except.bind, transformCharacteristicToConservative, eL, eL']
    exact ⟨_, rfl⟩
  · obtain ⟨v, ev⟩ := hi.value h.1 trivial
    rw [conservativeConvectiveIdentity, ev]
    simp only [bind, Except.bind, transformCharacteristicToConservative,
      h3.notImplemented ⟨h.2, h.1.2.1, h.1.1⟩ hn]
  · rw [conservativeConvectiveIdentity]
    by_cases hg : U.u.isSome ∧ U.c.isSome ∧ (type = some "incoming" ∨ type = some "outgoing")
    · obtain ⟨v, ev⟩ := hi.value hg trivial
      rw [ev]
      simp only [bind, Except.bind, transformCharacteristicToConservative,
        h3.missing fun h' => h ⟨hg, h'.1⟩]
    · rw [hi.missing hg]; rfl

/-- C91, concrete instances: with density and velocity but without speed of sound the matrix `M` is
returned in two dimensions and not in three, and the velocities are a `ValueError`. -/
example : (∃ M, conservativeFromPrimitive (7 / 5) (n := 2) { rho := some 1, u := some ![1, 0] } = .ok M) ∧
    conservativeFromPrimitive (7 / 5) (n := 3) { rho := some 1, u := some ![1, 0, 0] }
      = .error .notImplemented ∧
    characteristicVelocities (n := 2) { rho := some 1, u := some ![1, 0] } ![1, 0] none
      = .error .valueError :=
  ⟨(C91_transformations _ _ ![1, 0]).1.value ⟨rfl, rfl⟩ rfl,
    (C91_transformations _ _ ![1, 0, 0]).1.notImplemented ⟨rfl, rfl⟩ (by decide),
    (C91_velocities _ _ _).missing (by simp)⟩

end Dream
