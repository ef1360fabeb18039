import Verif.Props.Boundary
import Verif.Props.Viscous

/-!
# C34: isentropic density; C48: relaxation factors; C49: dimensional states;
C54: pressure and force coefficients
-/

namespace Dream
open Matrix Spec

variable {n : ℕ} {γ : ℝ}

/-! ### C34 -/

theorem isentrope_p {ρ p ρr pr : ℝ} (hγ : 1 < γ) (hρ : 0 < ρ) (hp : 0 < p) (hρr : 0 < ρr)
    (hpr : 0 < pr) (h : p / ρ ^ γ = pr / ρr ^ γ) : ρr * (p / pr) ^ (1 / γ) = ρ := by
  have g0 : γ ≠ 0 := by linarith
  have a1 : (0 : ℝ) < ρ ^ γ := Real.rpow_pos_of_pos hρ _
  have a2 : (0 : ℝ) < ρr ^ γ := Real.rpow_pos_of_pos hρr _
  have e : p / pr = (ρ / ρr) ^ γ := by
    rw [Real.div_rpow hρ.le hρr.le]
    field_simp at h ⊢
    linarith
  rw [e, ← Real.rpow_mul (by positivity), mul_one_div_cancel g0, Real.rpow_one]
  field_simp

theorem isentrope_T {ρ T ρr Tr : ℝ} (hγ : 1 < γ) (hρ : 0 < ρ) (hT : 0 < T) (hρr : 0 < ρr)
    (hTr : 0 < Tr) (h : (γ - 1) / γ * (ρ * T) / ρ ^ γ = (γ - 1) / γ * (ρr * Tr) / ρr ^ γ) :
    ρr * (T / Tr) ^ (1 / (γ - 1)) = ρ := by
  have g1 : 0 < γ - 1 := by linarith
  have g0 : 0 < γ := by linarith
  have k (x : ℝ) (hx : 0 < x) : x ^ γ = x * x ^ (γ - 1) := by
    conv_lhs => rw [show γ = 1 + (γ - 1) by ring]
    rw [Real.rpow_add hx, Real.rpow_one]
  rw [k ρ hρ, k ρr hρr] at h
  have a1 : (0 : ℝ) < ρ ^ (γ - 1) := Real.rpow_pos_of_pos hρ _
  have a2 : (0 : ℝ) < ρr ^ (γ - 1) := Real.rpow_pos_of_pos hρr _
  have e : T / Tr = (ρ / ρr) ^ (γ - 1) := by
    rw [Real.div_rpow hρ.le hρr.le]
    field_simp at h ⊢
    linarith
  rw [e, ← Real.rpow_mul (by positivity), mul_one_div_cancel g1.ne', Real.rpow_one]
  field_simp

/-- **C34** For all gas states `S` and references `R` with the same entropy `p/ρ^γ`, and all
dictionaries of their fields, whatever `isentropic_density` computes is the density of `S`. -/
theorem C34_agrees {S R : GasState n} (hS : IdealGas γ S) (hR : IdealGas γ R)
    (hs : S.p / S.rho ^ γ = R.p / R.rho ^ γ) {U Uref : Flow n} (hU : U.From S)
    (hUr : Uref.From R) {r : ℝ} (h : isentropicDensity γ U Uref = .ok r) : r = S.rho := by
  have hγ := hS.gamma
  have hs' := hs
  rw [hS.gas_law, hR.gas_law] at hs'
  have e1 := isentrope_p hγ hS.rho_pos hS.p_pos hR.rho_pos hR.p_pos hs
  have e2 := isentrope_T hγ hS.rho_pos hS.T_pos hR.rho_pos hR.T_pos hs'
  have q1 := hU.p; have q2 := hU.T; have q3 := hUr.rho; have q4 := hUr.p; have q5 := hUr.T
  cases h1 : U.p <;> cases h2 : U.T <;> cases h3 : Uref.rho <;> cases h4 : Uref.p <;>
    cases h5 : Uref.T <;> rw [h1] at q1 <;> rw [h2] at q2 <;> rw [h3] at q3 <;> rw [h4] at q4 <;>
    rw [h5] at q5 <;> simp [isentropicDensity, equation, equationE, h1, h2, h3, h4, h5] at h q1 q2 q3 q4 q5
  all_goals subst_vars
  all_goals simp only [one_div] at e1 e2
  all_goals first | exact e1 | exact e2

/-- **C34** It computes a value whenever the reference has a density and both have a pressure or
both have a temperature, and raises `ValueError` otherwise. -/
theorem C34_answers (U Uref : Flow n) :
    ((∃ r, isentropicDensity γ U Uref = .ok r) ↔ Uref.rho.isSome ∧
      ((U.p.isSome ∧ Uref.p.isSome) ∨ (U.T.isSome ∧ Uref.T.isSome))) ∧
    (∀ e, isentropicDensity γ U Uref = .error e → e = .valueError) := by
  cases h1 : U.p <;> cases h2 : U.T <;> cases h3 : Uref.rho <;> cases h4 : Uref.p <;>
    cases h5 : Uref.T <;> simp [isentropicDensity, equation, equationE, h1, h2, h3, h4, h5]

/-- **C34** The result for a prescribed positive pressure, or for a prescribed positive
temperature, has the entropy of the reference. -/
theorem C34_entropy {R : GasState n} (hR : IdealGas γ R) {x : ℝ} (hx : 0 < x) :
    (∃ r, 0 < r ∧ isentropicDensity (n := n) γ { p := some x }
      { rho := some R.rho, p := some R.p } = .ok r ∧ x / r ^ γ = R.p / R.rho ^ γ) ∧
    (∃ r, 0 < r ∧ isentropicDensity (n := n) γ { T := some x }
      { rho := some R.rho, T := some R.T } = .ok r ∧
      ((γ - 1) / γ * (r * x)) / r ^ γ = R.p / R.rho ^ γ) := by
  have hγ := hR.gamma
  have g0 : 0 < γ := by linarith
  have g1 : 0 < γ - 1 := by linarith
  have r0 := hR.rho_pos
  have p0 := hR.p_pos
  have t0 := hR.T_pos
  refine ⟨⟨R.rho * (x / R.p) ^ (1 / γ), by positivity, rfl, ?_⟩,
    ⟨R.rho * (x / R.T) ^ (1 / (γ - 1)), by positivity, rfl, ?_⟩⟩
  · rw [Real.mul_rpow r0.le (by positivity), ← Real.rpow_mul (by positivity),
      one_div_mul_cancel g0.ne', Real.rpow_one]
    field_simp
  · set q := (x / R.T) ^ (1 / (γ - 1)) with hq
    have q0 : 0 < q := by positivity
    have k : q ^ γ = q * (x / R.T) := by
      conv_lhs => rw [show γ = 1 + (γ - 1) by ring]
      rw [Real.rpow_add q0, Real.rpow_one, hq, ← Real.rpow_mul (by positivity),
        one_div_mul_cancel g1.ne', Real.rpow_one]
    rw [Real.mul_rpow r0.le q0.le, k, hR.gas_law]
    have := Real.rpow_pos_of_pos r0 γ
    field_simp

example : ∃ r, isentropicDensity (n := 2) (7 / 5) { p := some airState.p }
    { rho := some airState.rho, p := some airState.p } = .ok r ∧ r = airState.rho := by
  refine ⟨_, rfl, C34_agrees (n := 2) airState_ideal airState_ideal rfl
    (U := { p := some airState.p }) (Uref := { rho := some airState.rho, p := some airState.p })
    ?_ ?_ rfl⟩ <;> constructor <;> simp

/-! ### C48 -/

/-- **C48** A scalar factor is used for every characteristic: the diagonal has `n+2` equal
entries for every mesh dimension the solver supports. -/
theorem C48_scalar (x dt : ℝ) :
    grcbcDiagonal 2 (.scalar x) (some dt) = .ok (List.replicate 4 (x / dt)) ∧
    grcbcDiagonal 3 (.scalar x) (some dt) = .ok (List.replicate 5 (x / dt)) := by
  constructor <;> simp [grcbcDiagonal, cbcFactors, relaxationFactor, characteristicNames, bind,
    Except.bind]

/-- **C48** A list of five factors is used in the order acoustic in, entropy, first and second
vorticity, acoustic out; in two dimensions the second vorticity is left out. -/
theorem C48_list (a e v w b dt : ℝ) :
    grcbcDiagonal 2 (.list [a, e, v, w, b]) (some dt) = .ok [a / dt, e / dt, v / dt, b / dt] ∧
    grcbcDiagonal 3 (.list [a, e, v, w, b]) (some dt)
      = .ok [a / dt, e / dt, v / dt, w / dt, b / dt] := by
  constructor <;> simp [grcbcDiagonal, cbcFactors, relaxationFactor, characteristicNames, bind,
    Except.bind]

/-- **C48** NSCBC weighs the factors with the acoustic speed `c (1 - M²)` for the acoustic
characteristics and with `c` for the others. -/
theorem C48_nscbc (a e v w b L c M : ℝ) :
    nscbcDiagonal 2 (.list [a, e, v, w, b]) L (some c) (some M)
      = .ok [a * (c * (1 - M ^ 2)) / L, e * c / L, v * c / L, b * (c * (1 - M ^ 2)) / L] ∧
    nscbcDiagonal 3 (.list [a, e, v, w, b]) L (some c) (some M)
      = .ok [a * (c * (1 - M ^ 2)) / L, e * c / L, v * c / L, w * c / L,
          b * (c * (1 - M ^ 2)) / L] := by
  constructor <;> simp [nscbcDiagonal, cbcFactors, relaxationFactor, characteristicNames, bind,
    Except.bind, List.replicate]

/-- **C48** Named factors are used for the field they name if all five are named in the order of
the characteristics (a full dictionary in any other order is not; see
`C48_fails_named`). -/
theorem C48_named_partial (a e v w b dt : ℝ) :
    grcbcDiagonal 3 (.dict [("acoustic_in", a), ("entropy", e), ("vorticity_0", v),
      ("vorticity_1", w), ("acoustic_out", b)]) (some dt)
      = .ok [a / dt, e / dt, v / dt, w / dt, b / dt] := by
  simp [grcbcDiagonal, cbcFactors, relaxationFactor, characteristicNames, bind, Except.bind]

/-- **C48** The names in a dictionary are ignored: any two dictionaries with the same values in
the same order give the same factors, whatever their keys. -/
theorem C48_fails_named (d d' : List (String × ℝ)) (h : d.map Prod.snd = d'.map Prod.snd) :
    relaxationFactor (.dict d) = relaxationFactor (.dict d') := by
  simp [relaxationFactor, h]

/-- In particular the factor named `entropy` ends up on the incoming acoustic wave. -/
example (x y : ℝ) : (relaxationFactor (.dict [("entropy", x), ("acoustic_in", y)]))
    = [("acoustic_in", x), ("entropy", y)] := rfl

/-- **C48** In two dimensions a list with one factor for each of the four characteristics loses
its last factor, and shorter lists raise `KeyError`. -/
theorem C48_fails_list2d (xs : List ℝ) (dt : ℝ) :
    (∀ a e v b, xs = [a, e, v, b] →
      grcbcDiagonal 2 (.list xs) (some dt) = .ok [a / dt, e / dt, v / dt]) ∧
    (xs.length < 4 → grcbcDiagonal 2 (.list xs) (some dt) = .error .keyError) := by
  constructor
  · rintro a e v b rfl
    simp [grcbcDiagonal, cbcFactors, relaxationFactor, characteristicNames, bind, Except.bind]
  · intro h
    rcases xs with _ | ⟨a, _ | ⟨e, _ | ⟨v, _ | ⟨b, t⟩⟩⟩⟩ <;>
      simp [grcbcDiagonal, cbcFactors, relaxationFactor, characteristicNames, bind,
        Except.bind] at h ⊢
    omega

/-- **C48** Without the time step, or without speed of sound and Mach number, building the
relaxation matrix raises `ValueError`, for all factors and dimensions. -/
theorem C48_refuses (dim : ℕ) (f : Factors) (L : ℝ) (c M : Option ℝ) :
    grcbcDiagonal dim f none = .error .valueError ∧
    (c = none ∨ M = none → nscbcDiagonal dim f L c M = .error .valueError) := by
  refine ⟨rfl, ?_⟩
  rintro (rfl | rfl)
  · rfl
  · cases c <;> rfl

/-! ### C49 -/

/-- **C49** Every field with a reference value is multiplied by it, every other field is left
out. -/
theorem C49_scaling (REF : DimFields) (U : Flow n) :
    let D := getDimensionfulState REF U
    (∀ x r, U.rho = some x → REF.rho = some r → D.rho = some (x * r)) ∧
    (∀ x r, U.c = some x → REF.c = some r → D.c = some (x * r)) ∧
    (∀ x r, U.T = some x → REF.T = some r → D.T = some (x * r)) ∧
    (∀ x r, U.p = some x → REF.p = some r → D.p = some (x * r)) ∧
    (∀ x r, U.u = some x → REF.u = some r → D.u = some (r • x)) ∧
    (∀ x r, U.rho_u = some x → REF.rho_u = some r → D.rho_u = some (r • x)) ∧
    (D.rho.isSome → U.rho.isSome ∧ REF.rho.isSome) ∧ (D.c.isSome → U.c.isSome ∧ REF.c.isSome) ∧
    (D.T.isSome → U.T.isSome ∧ REF.T.isSome) ∧ (D.p.isSome → U.p.isSome ∧ REF.p.isSome) ∧
    (D.u.isSome → U.u.isSome ∧ REF.u.isSome) ∧
    (D.rho_u.isSome → U.rho_u.isSome ∧ REF.rho_u.isSome) ∧
    D.rho_E = none ∧ D.E = none ∧ D.rho_Ei = none ∧ D.Ei = none ∧ D.rho_Ek = none ∧
    D.Ek = none ∧ D.rho_H = none ∧ D.H = none := by
  simp only [getDimensionfulState]
  refine ⟨?_, ?_, ?_, ?_, ?_, ?_, ?_, ?_, ?_, ?_, ?_, ?_, by trivial⟩
  all_goals first
    | (intro x r h1 h2; simp [h1, h2])
    | (cases U.rho <;> cases REF.rho <;> simp; done)
    | (cases U.c <;> cases REF.c <;> simp; done)
    | (cases U.T <;> cases REF.T <;> simp; done)
    | (cases U.p <;> cases REF.p <;> simp; done)
    | (cases U.u <;> cases REF.u <;> simp; done)
    | (cases U.rho_u <;> cases REF.rho_u <;> simp; done)

/-- **C49** The reference values are those given by the user, or the documented defaults. -/
theorem C49_defaults (f : DimFields) :
    (dimensionfulValues f).rho = some (f.rho.getD 1.293) ∧
    (dimensionfulValues f).c = some (f.c.getD 343) ∧
    (dimensionfulValues f).T = some (f.T.getD 293.15) ∧
    (dimensionfulValues f).p = some (f.p.getD 101325) ∧
    (dimensionfulValues f).u = some (f.u.getD 1) ∧
    (dimensionfulValues f).L = some (f.L.getD 1) ∧ (dimensionfulValues f).rho_u = f.rho_u := by
  simp only [dimensionfulValues]
  refine ⟨?_, ?_, ?_, ?_, ?_, ?_, by trivial⟩
  · cases f.rho <;> rfl
  · cases f.c <;> rfl
  · cases f.T <;> rfl
  · cases f.p <;> rfl
  · cases f.u <;> rfl
  · cases f.L <;> rfl

/-- **C49** The dimensional state obeys the sound relation `c² = γ p / ρ` of the ideal gas
exactly when the reference values do: `c_ref² ρ_ref = p_ref`. -/
theorem C49_consistent_iff {S : GasState n} (hS : IdealGas γ S) {REF : DimFields} {ρr cr pr : ℝ}
    (h1 : REF.rho = some ρr) (h2 : REF.c = some cr) (h3 : REF.p = some pr) (hρ : 0 < ρr) :
    ∃ ρ c p, (getDimensionfulState REF (conservativeDict S)).rho = some ρ ∧
      (getDimensionfulState REF (conservativeDict S)).c = some c ∧
      (getDimensionfulState REF (conservativeDict S)).p = some p ∧
      (c ^ 2 = γ * (p / ρ) ↔ cr ^ 2 * ρr = pr) := by
  have r0 := hS.rho_pos
  have p0 := hS.p_pos
  have g0 : 0 < γ := by linarith [hS.gamma]
  refine ⟨S.rho * ρr, S.c * cr, S.p * pr, by simp [getDimensionfulState, conservativeDict, h1],
    by simp [getDimensionfulState, conservativeDict, h2],
    by simp [getDimensionfulState, conservativeDict, h3], ?_⟩
  rw [mul_pow, hS.sound]
  constructor
  · intro h
    field_simp at h
    exact h
  · rintro rfl
    field_simp

/-- **C49** With the default reference values no dimensional state is a consistent gas state:
`343² · 1.293 ≠ 101325`. -/
theorem C49_fails_default_consistent {S : GasState n} (hS : IdealGas γ S) :
    ∃ ρ c p, (getDimensionfulState (dimensionfulValues {}) (conservativeDict S)).rho = some ρ ∧
      (getDimensionfulState (dimensionfulValues {}) (conservativeDict S)).c = some c ∧
      (getDimensionfulState (dimensionfulValues {}) (conservativeDict S)).p = some p ∧
      c ^ 2 ≠ γ * (p / ρ) := by
  obtain ⟨ρ, c, p, h1, h2, h3, h4⟩ := C49_consistent_iff hS (REF := dimensionfulValues {})
    (ρr := 1.293) (cr := 343) (pr := 101325) rfl rfl rfl (by norm_num)
  refine ⟨ρ, c, p, h1, h2, h3, ?_⟩
  rw [Ne, h4]
  norm_num

/-- **C49** The dimensional farfield state has the reference density and, in the acoustic
scaling, the reference speed of sound; its temperature is the reference temperature only if the
non-dimensional farfield temperature `c∞²/(γ-1)` is one. -/
theorem C49_farfield_partial {cfg : FlowCfg} (h : cfg.Accepted) (d : Fin n → ℝ) {REF : DimFields}
    {ρr cr Tr : ℝ} (h1 : REF.rho = some ρr) (h2 : REF.c = some cr) (h3 : REF.T = some Tr)
    (hT : Tr ≠ 0) :
    ∃ U, getFarfieldState cfg n d = .ok U ∧ (getDimensionfulState REF U).rho = some ρr ∧
      (cfg.scaling = .acoustic → (getDimensionfulState REF U).c = some cr) ∧
      ((getDimensionfulState REF U).T = some Tr ↔ farC cfg ^ 2 = cfg.γ - 1) := by
  have g1 : cfg.γ - 1 ≠ 0 := by linarith [h.gamma]
  refine ⟨_, farfield_eq h d, ?_, ?_, ?_⟩
  · simp [getDimensionfulState, farDict, h1, farState, GasState.of]
  · intro hs
    simp [getDimensionfulState, farDict, h2, farState_c h, farC, hs]
  · simp only [getDimensionfulState, farDict, h3, farState_T h]
    simp only [Option.bind_eq_bind, Option.bind_some, Option.some.injEq]
    constructor
    · intro hh
      field_simp at hh
      linarith
    · intro hh
      rw [hh]; field_simp

/-! ### C54 -/

/-- **C54** The pressure coefficient is `(p - p∞) / (½ ρ∞ |u∞|²)` for all dictionaries from
which it can be computed. -/
theorem C54_pressure_coefficient {S R : GasState n} (hS : IdealGas γ S) (hR : IdealGas γ R)
    {U Uref : Flow n} (hU : U.From S) (hUr : Uref.From R) {v : ℝ}
    (h : pressureCoefficient γ U Uref = .ok v) :
    v = (S.p - R.p) / (1 / 2 * R.rho * (R.u ⬝ᵥ R.u)) := by
  unfold pressureCoefficient at h
  cases h1 : pressure γ U with
  | error e => simp [h1, bind, Except.bind] at h
  | ok p =>
    cases h2 : pressure γ Uref with
    | error e => simp [h1, h2, bind, Except.bind] at h
    | ok q =>
      cases h3 : kineticEnergy Uref with
      | error e => simp [h1, h2, h3, bind, Except.bind] at h
      | ok k =>
        simp only [h1, h2, h3, bind, Except.bind, Except.ok.injEq] at h
        rw [← h, C21_pressure hS hU h1, C21_pressure hR hUr h2, C21_kinetic_energy hR hUr h3,
          hR.rho_Ek, hR.kinetic]
        congr 1; ring

theorem C54_pressure_coefficient_answers (S R : GasState n) :
    ∃ v, pressureCoefficient γ (conservativeDict S) (conservativeDict R) = .ok v := by
  simp [pressureCoefficient, conservativeDict, pressure, EOS.pressure, kineticEnergy, equation,
    equationE, bind, Except.bind]

/-- The stress tensor: pressure and Newtonian stress. -/
theorem stress_eq {cfg : FlowCfg} {S : GasState n} {U : Flow n} {dU : Grads n} {pU : ℝ}
    (hp : pressure cfg.γ U = .ok pU) {τ : Matrix (Fin n) (Fin n) ℝ}
    (hτ : (cfg.visc = .inviscid ∧ τ = 0) ∨
      (cfg.visc ≠ .inviscid ∧ deviatoricStressTensor cfg U dU = .ok τ)) :
    stressTensor cfg U dU = .ok (-pU • (1 : Matrix (Fin n) (Fin n) ℝ) + τ) := by
  unfold stressTensor
  rw [hp]
  rcases hτ with ⟨h1, rfl⟩ | ⟨h1, h2⟩
  · simp [h1, bind, Except.bind]
  · cases hv : cfg.visc with
    | inviscid => exact absurd hv h1
    | constant => simp [h2, bind, Except.bind]
    | sutherland Tm => simp [h2, bind, Except.bind]

/-- **C54** `drag_coefficient` and `lift_coefficient` return the component in the given direction
of the force that the *body exerts on the fluid*, over `½ ρ∞ |u∞|²`, i.e. minus the drag or lift of
the body: for every state, stress, reference, direction, and every normal `nrm` pointing out of
the fluid (so that `-nrm` points out of the body). What is missing is the sign, see
`C54_fails_sign`. -/
theorem C54_force_partial {cfg : FlowCfg} {S R : GasState n} (hS : IdealGas cfg.γ S)
    (hR : IdealGas cfg.γ R) {U Uref : Flow n} (hU : U.From S) (hUr : Uref.From R) {dU : Grads n}
    {τ : Matrix (Fin n) (Fin n) ℝ}
    (hτ : (cfg.visc = .inviscid ∧ τ = 0) ∨
      (cfg.visc ≠ .inviscid ∧ deviatoricStressTensor cfg U dU = .ok τ))
    (nrm direction : Fin n → ℝ) {v : ℝ}
    (h : forceCoefficient cfg U dU Uref nrm direction = .ok v) :
    v = -((bodyForce S.p τ (-nrm) ⬝ᵥ direction) / √(direction ⬝ᵥ direction)
      / (1 / 2 * R.rho * (R.u ⬝ᵥ R.u))) := by
  unfold forceCoefficient at h
  cases h1 : pressure cfg.γ U with
  | error e => simp [stressTensor, h1, bind, Except.bind] at h
  | ok p =>
    rw [stress_eq (S := S) h1 hτ] at h
    cases h3 : kineticEnergy Uref with
    | error e => simp [h3, bind, Except.bind] at h
    | ok k =>
      simp only [h3, bind, Except.bind, Except.ok.injEq] at h
      rw [← h, C21_pressure hS hU h1, C21_kinetic_energy hR hUr h3, hR.rho_Ek, hR.kinetic]
      simp only [bodyForce, Bla.unitVector, Matrix.add_mulVec, Matrix.smul_mulVec,
        Matrix.one_mulVec, Matrix.neg_mulVec, Matrix.mulVec_neg, dotProduct_smul, add_dotProduct, smul_dotProduct,
        neg_dotProduct, smul_neg, neg_smul, smul_eq_mul]
      rw [show R.rho * (R.u ⬝ᵥ R.u / 2) = 1 / 2 * R.rho * (R.u ⬝ᵥ R.u) by ring]
      ring

/-- **C54** The sign is wrong: on a wall facing the flow (its normal out of the body opposite to
the flow direction) the pressure of an inviscid fluid pushes the body downstream, but the
reported drag is negative, for every state and every moving reference. -/
theorem C54_fails_sign {cfg : FlowCfg} (hv : cfg.visc = .inviscid) {S R : GasState n}
    (hS : IdealGas cfg.γ S) (hR : IdealGas cfg.γ R) {flow : Fin n → ℝ} (hf : flow ⬝ᵥ flow = 1)
    (hu : 0 < R.u ⬝ᵥ R.u) (dU : Grads n) :
    ∃ v, forceCoefficient cfg (conservativeDict S) dU (conservativeDict R) flow flow = .ok v ∧
      v < 0 ∧ 0 < bodyForce S.p 0 (-flow) ⬝ᵥ flow := by
  have p0 := hS.p_pos
  have r0 := hR.rho_pos
  refine ⟨-(S.p / R.rho_Ek), ?_, ?_, ?_⟩
  · simp only [forceCoefficient, stressTensor, hv, conservativeDict, pressure, EOS.pressure,
      kineticEnergy, equation, equationE, bind, Except.bind, Bla.unitVector, hf, Real.sqrt_one]
    simp [hf, Matrix.neg_mulVec, Matrix.smul_mulVec, neg_div]
  · rw [hR.rho_Ek, hR.kinetic, neg_lt_zero]
    positivity
  · simp only [bodyForce, Matrix.zero_mulVec, add_zero, smul_neg, neg_smul, neg_neg,
      smul_dotProduct, smul_eq_mul, hf]
    linarith

example : ∃ v, forceCoefficient { demoCfg with visc := .inviscid, γ := 7 / 5 }
    (conservativeDict airState) {} (conservativeDict airState) ![1, 0] ![1, 0] = .ok v ∧ v < 0 ∧
    0 < bodyForce airState.p 0 (-![1, 0]) ⬝ᵥ ![1, 0] :=
  C54_fails_sign rfl airState_ideal airState_ideal (by simp)
    (by simp [airState, GasState.of]) {}

end Dream
