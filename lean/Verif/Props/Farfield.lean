import Verif.Model.Physics
import Verif.Spec.NavierStokes
import Verif.Props.Conservative
import Mathlib.Analysis.SpecialFunctions.Pow.NNReal

/-!
# C29: the farfield state; C30: Sutherland viscosity
-/

namespace Dream
open Matrix Spec

/-- The configurations the setters accept (dream/compressible/solver.py:39-93) and that the
documentation allows: `γ > 1`, `Ma ≥ 0` (`> 0` for the aerodynamic scaling), `Re, Pr > 0`,
positive reference and measurement temperatures. -/
structure FlowCfg.Accepted (cfg : FlowCfg) : Prop where
  gamma : 1 < cfg.γ
  mach : 0 ≤ cfg.Ma
  aero : cfg.scaling = .aerodynamic → 0 < cfg.Ma
  reynolds : 0 < cfg.Re
  prandtl : 0 < cfg.Pr
  tref : 0 < cfg.Tref
  tm : ∀ Tm, cfg.visc = .sutherland Tm → 0 < Tm

/-- Speed of sound of the farfield in each scaling, as documented. -/
noncomputable def farC (cfg : FlowCfg) : ℝ :=
  match cfg.scaling with
  | .aerodynamic => 1 / cfg.Ma
  | .acoustic => 1
  | .aeroacoustic => 1 / (1 + cfg.Ma)

theorem farC_pos {cfg : FlowCfg} (h : cfg.Accepted) : 0 < farC cfg := by
  have := h.mach
  unfold farC
  cases hs : cfg.scaling with
  | aerodynamic => have := h.aero hs; positivity
  | acoustic => norm_num
  | aeroacoustic => positivity

theorem speedOfSound_far {cfg : FlowCfg} (h : cfg.Accepted) :
    cfg.scaling.speedOfSound cfg.Ma = .ok (farC cfg) := by
  unfold farC
  cases hs : cfg.scaling with
  | aerodynamic =>
    have := h.aero hs
    simp [Scaling.speedOfSound, not_le.2 this]
  | acoustic => rfl
  | aeroacoustic => rfl

theorem mag_eq {cfg : FlowCfg} (h : cfg.Accepted) :
    cfg.scaling.velocityMagnitude cfg.Ma = cfg.Ma * farC cfg := by
  have := h.mach
  unfold farC
  cases hs : cfg.scaling with
  | aerodynamic =>
    have := h.aero hs
    simp only [Scaling.velocityMagnitude]; field_simp
  | acoustic => simp [Scaling.velocityMagnitude]
  | aeroacoustic => simp only [Scaling.velocityMagnitude]; field_simp

theorem unit_norm {n : ℕ} {d : Fin n → ℝ} (hd : d ≠ 0) :
    Bla.unitVector d ⬝ᵥ Bla.unitVector d = 1 := by
  have h : 0 < d ⬝ᵥ d := by
    have h0 : 0 ≤ d ⬝ᵥ d := Finset.sum_nonneg fun i _ => mul_self_nonneg _
    rcases h0.lt_or_eq with h | h
    · exact h
    · exact absurd (dotProduct_self_eq_zero.1 h.symm) hd
  simp only [Bla.unitVector, smul_dotProduct, dotProduct_smul, smul_eq_mul]
  have h1 := Real.mul_self_sqrt h.le
  have h2 := Real.sqrt_pos.2 h
  field_simp
  nlinarith

/-- The farfield gas state in the given direction. -/
noncomputable def farState {n : ℕ} (cfg : FlowCfg) (d : Fin n → ℝ) : GasState n :=
  GasState.of cfg.γ 1 ((cfg.Ma * farC cfg) • Bla.unitVector d)
    (farC cfg ^ 2 / (cfg.γ * (cfg.γ - 1)))

theorem farState_ideal {n : ℕ} {cfg : FlowCfg} (h : cfg.Accepted) (d : Fin n → ℝ) :
    IdealGas cfg.γ (farState cfg d) := by
  have hγ := h.gamma
  have hc := farC_pos h
  refine IdealGas.of hγ one_pos ?_
  have : 0 < cfg.γ - 1 := by linarith
  positivity

theorem farState_c {n : ℕ} {cfg : FlowCfg} (h : cfg.Accepted) (d : Fin n → ℝ) :
    (farState cfg d).c = farC cfg := by
  have hγ := h.gamma
  have hc := farC_pos h
  have : cfg.γ - 1 ≠ 0 := by linarith
  have : cfg.γ ≠ 0 := by linarith
  simp only [farState, GasState.of]
  rw [show cfg.γ * (cfg.γ - 1) * (farC cfg ^ 2 / (cfg.γ * (cfg.γ - 1))) = farC cfg ^ 2 by
    field_simp, Real.sqrt_sq hc.le]

theorem farState_T {n : ℕ} {cfg : FlowCfg} (h : cfg.Accepted) (d : Fin n → ℝ) :
    (farState cfg d).T = farC cfg ^ 2 / (cfg.γ - 1) := by
  have hγ := h.gamma
  have : cfg.γ ≠ 0 := by linarith
  simp only [farState, GasState.of]
  field_simp

/-- The dictionary with the fields that `get_farfield_state` sets, taken from `S`. -/
def farDict {n : ℕ} (S : GasState n) : Flow n :=
  { rho := some S.rho, u := some S.u, rho_E := some S.rho_E, rho_Ek := some S.rho_Ek,
    rho_Ei := some S.rho_Ei, p := some S.p, T := some S.T, c := some S.c }

theorem farfield_eq {n : ℕ} {cfg : FlowCfg} (h : cfg.Accepted) (d : Fin n → ℝ) :
    getFarfieldState cfg n d = .ok (farDict (farState cfg d)) := by
  have hγ := h.gamma
  have g0 : cfg.γ ≠ 0 := by linarith
  have g1 : cfg.γ - 1 ≠ 0 := by linarith
  have hS := farState_ideal h d
  have e1 := (farState_T h d).symm
  have e2 : (cfg.γ - 1) / cfg.γ * (farState cfg d).T = (farState cfg d).p := by
    rw [hS.gas_law, show (farState cfg d).rho = 1 from rfl]; ring
  have e3 : (cfg.scaling.velocityMagnitude cfg.Ma) • Bla.unitVector d = (farState cfg d).u := by
    rw [mag_eq h]; rfl
  have e4 : (farState cfg d).p / (cfg.γ - 1) = (farState cfg d).rho_Ei := by gas_done hS
  have e5 : 2⁻¹ * ((farState cfg d).u ⬝ᵥ (farState cfg d).u) = (farState cfg d).rho_Ek := by
    rw [hS.rho_Ek, hS.kinetic, show (farState cfg d).rho = 1 from rfl]; ring
  have e6 : (farState cfg d).rho_Ei + (farState cfg d).rho_Ek = (farState cfg d).rho_E := by
    gas_done hS
  simp only [getFarfieldState, speedOfSound_far h, bind, Except.bind]
  simp [temperature, EOS.temperature, pressure, EOS.pressure, innerEnergy, EOS.innerEnergy,
    kineticEnergy, energy, equation, equationE, Scaling.velocity, Scaling.density, e1, e2, e3, e4,
    e5, e6, farDict, farState_c h]
  rfl

/-- **C29** For every scaling, accepted configuration and direction, `get_farfield_state`
returns the fields of a consistent ideal-gas state with density one, velocity in the given
direction, Mach number `Ma`, and the documented reference speed equal to one. -/
theorem C29_farfield {n : ℕ} {cfg : FlowCfg} (h : cfg.Accepted) {d : Fin n → ℝ} (hd : d ≠ 0) :
    ∃ S : GasState n, getFarfieldState cfg n d = .ok
        { rho := some S.rho, u := some S.u, p := some S.p, T := some S.T, c := some S.c,
          rho_E := some S.rho_E, rho_Ek := some S.rho_Ek, rho_Ei := some S.rho_Ei } ∧
      IdealGas cfg.γ S ∧ S.rho = 1 ∧
      (∃ k : ℝ, 0 ≤ k ∧ S.u = k • d) ∧
      √(S.u ⬝ᵥ S.u) / S.c = cfg.Ma ∧
      (match cfg.scaling with
        | .aerodynamic => √(S.u ⬝ᵥ S.u) = 1
        | .acoustic => S.c = 1
        | .aeroacoustic => √(S.u ⬝ᵥ S.u) + S.c = 1) := by
  have hM := h.mach
  have hc := farC_pos h
  have hu : √((farState cfg d).u ⬝ᵥ (farState cfg d).u) = cfg.Ma * farC cfg := by
    simp only [farState, GasState.of, smul_dotProduct, dotProduct_smul, smul_eq_mul,
      unit_norm hd]
    rw [mul_one, Real.sqrt_mul_self (by positivity)]
  refine ⟨farState cfg d, farfield_eq h d, farState_ideal h d, rfl,
    ⟨cfg.Ma * farC cfg * (1 / √(d ⬝ᵥ d)), by positivity, ?_⟩, ?_, ?_⟩
  · simp only [farState, GasState.of, Bla.unitVector, smul_smul]
  · rw [hu, farState_c h]; field_simp
  · rw [hu, farState_c h]
    cases hs : cfg.scaling with
    | aerodynamic => have := h.aero hs; simp only [farC, hs]; field_simp
    | acoustic => simp only [farC, hs]
    | aeroacoustic => simp only [farC, hs]; field_simp; ring

/-- An accepted configuration: Mach 0.3 in the acoustic scaling with Sutherland viscosity. -/
noncomputable def demoCfg : FlowCfg :=
  { γ := 7 / 5, Ma := 3 / 10, Re := 500, Pr := 3 / 4, scaling := .acoustic,
    visc := .sutherland 110, Tref := 293 }

theorem demoCfg_accepted : demoCfg.Accepted := by
  constructor <;> simp [demoCfg] <;> norm_num

example : ∃ U, getFarfieldState demoCfg 2 ![3, 4] = .ok U :=
  let ⟨S, h, _⟩ := C29_farfield (n := 2) demoCfg_accepted (d := ![3, 4])
    (fun h => by have := congrFun h 0; simp at this)
  ⟨_, h⟩

/-- **C29** Only the direction of the given vector matters, not its length. -/
theorem C29_direction_only {n : ℕ} {cfg : FlowCfg} (h : cfg.Accepted) (d : Fin n → ℝ)
    {k : ℝ} (hk : 0 < k) :
    getFarfieldState cfg n (k • d) = getFarfieldState cfg n d := by
  rw [farfield_eq h, farfield_eq h]
  have : Bla.unitVector (k • d) = Bla.unitVector d := by
    simp only [Bla.unitVector, smul_dotProduct, dotProduct_smul, smul_eq_mul, smul_smul]
    rw [← mul_assoc, Real.sqrt_mul (by positivity), Real.sqrt_mul_self hk.le]
    congr 1
    field_simp
  simp only [farState, this]

/-- **C29** The documented pressures and temperatures of the aerodynamic and acoustic scaling. -/
theorem C29_documented {n : ℕ} {cfg : FlowCfg} (h : cfg.Accepted) (d : Fin n → ℝ)
    {U : Flow n} (hU : getFarfieldState cfg n d = .ok U) :
    (cfg.scaling = .aerodynamic →
      U.T = some (1 / ((cfg.γ - 1) * cfg.Ma ^ 2)) ∧ U.p = some (1 / (cfg.γ * cfg.Ma ^ 2))) ∧
    (cfg.scaling = .acoustic →
      U.T = some (1 / (cfg.γ - 1)) ∧ U.p = some (1 / cfg.γ)) ∧
    (cfg.scaling = .aeroacoustic →
      U.T = some (1 / ((cfg.γ - 1) * (1 + cfg.Ma) ^ 2)) ∧
      U.p = some (1 / (cfg.γ * (1 + cfg.Ma) ^ 2))) := by
  rw [farfield_eq h] at hU
  obtain rfl := Except.ok.inj hU
  have hγ := h.gamma
  have hM := h.mach
  have g0 : cfg.γ ≠ 0 := by linarith
  have g1 : cfg.γ - 1 ≠ 0 := by linarith
  have hS := farState_ideal h d
  simp only [farDict, Option.some.injEq]
  have hp : (farState cfg d).p = farC cfg ^ 2 / cfg.γ := by
    rw [hS.gas_law, farState_T h, show (farState cfg d).rho = 1 from rfl]; field_simp
  rw [hp, farState_T h]
  refine ⟨fun hs => ?_, fun hs => ?_, fun hs => ?_⟩ <;> simp only [farC, hs]
  · have := h.aero hs
    constructor <;> field_simp
  · constructor <;> ring
  · constructor <;> field_simp

/-- **C29** The docstring of `get_farfield_state` gives `T = 1/((γ-1)(1+Ma²))` for the
aeroacoustic scaling; the code returns `1/((γ-1)(1+Ma)²)`, which differs for every `Ma > 0`. -/
theorem C29_fails_aeroacoustic_docstring {n : ℕ} {cfg : FlowCfg} (h : cfg.Accepted)
    (d : Fin n → ℝ) (hs : cfg.scaling = .aeroacoustic) (hM : 0 < cfg.Ma) {U : Flow n}
    (hU : getFarfieldState cfg n d = .ok U) :
    U.T ≠ some (1 / ((cfg.γ - 1) * (1 + cfg.Ma ^ 2))) := by
  rw [((C29_documented h d hU).2.2 hs).1]
  have hγ := h.gamma
  have g1 : 0 < cfg.γ - 1 := by linarith
  simp only [ne_eq, Option.some.injEq]
  intro e
  have e1 : (cfg.γ - 1) * (1 + cfg.Ma) ^ 2 = (cfg.γ - 1) * (1 + cfg.Ma ^ 2) := by
    have := congrArg (fun x => x⁻¹) e
    simpa using this
  have e2 := mul_left_cancel₀ g1.ne' e1
  nlinarith

/-- **C29** Refused inputs: a direction whose length is not the dimension of the mesh, and a
Mach number that is not positive in the aerodynamic scaling. -/
theorem C29_refuses {n m : ℕ} {cfg : FlowCfg} (d : Fin m → ℝ) :
    (cfg.Accepted → m ≠ n → getFarfieldState cfg n d = .error .valueError) ∧
    (cfg.scaling = .aerodynamic → cfg.Ma ≤ 0 →
      getFarfieldState cfg n d = .error .valueError) := by
  constructor
  · intro h hmn
    simp only [getFarfieldState, speedOfSound_far h, bind, Except.bind]
    simp [temperature, EOS.temperature, pressure, EOS.pressure, equation, equationE, hmn]
  · intro hs hM
    simp [getFarfieldState, hs, Scaling.speedOfSound, hM, bind, Except.bind]

example : getFarfieldState demoCfg 2 ![1, 0, 0] = .error .valueError :=
  (C29_refuses _).1 demoCfg_accepted (by norm_num)

/-! ### C30 -/

theorem viscosity_sutherland {n : ℕ} {cfg : FlowCfg} (h : cfg.Accepted) {Tm : ℝ}
    (hv : cfg.visc = .sutherland Tm) {U : Flow n} {T : ℝ} (hT : U.T = some T) (T0 : 0 < T) :
    viscosity cfg U = .ok (sutherland (Tm / cfg.Tref)
      (T / (farC cfg ^ 2 / (cfg.γ - 1)))) := by
  have hγ := h.gamma
  have hc := farC_pos h
  have ht := h.tref
  have hm := h.tm Tm hv
  have g1 : 0 < cfg.γ - 1 := by linarith
  simp only [viscosity, hv, hT, speedOfSound_far h, bind, Except.bind]
  simp [temperature, EOS.temperature, equation, equationE]
  unfold sutherland
  set Ti := farC cfg ^ 2 / (cfg.γ - 1) with hTi
  have : 0 < Ti := by positivity
  field_simp

theorem sutherland_pos {s θ : ℝ} (hs : 0 < s) (hθ : 0 < θ) : 0 < sutherland s θ := by
  unfold sutherland; positivity

theorem sutherland_one {s : ℝ} (hs : 0 < s) : sutherland s 1 = 1 := by
  unfold sutherland; rw [Real.one_rpow]; field_simp

theorem sutherland_mono {s a b : ℝ} (hs : 0 < s) (ha : 0 < a) (hab : a < b) :
    sutherland s a < sutherland s b := by
  have hb : 0 < b := ha.trans hab
  unfold sutherland
  rw [div_lt_div_iff₀ (by positivity) (by positivity)]
  have e : ∀ x : ℝ, 0 < x → x ^ (3 / 2 : ℝ) = x * x ^ (1 / 2 : ℝ) := by
    intro x hx
    rw [show (3 / 2 : ℝ) = 1 + 1 / 2 by norm_num, Real.rpow_add hx, Real.rpow_one]
  rw [e a ha, e b hb]
  have hlt : a ^ (1 / 2 : ℝ) < b ^ (1 / 2 : ℝ) := Real.rpow_lt_rpow ha.le hab (by norm_num)
  have hpa : 0 < a ^ (1 / 2 : ℝ) := by positivity
  have k1 : a * b * a ^ (1 / 2 : ℝ) < a * b * b ^ (1 / 2 : ℝ) := by
    have : 0 < a * b := by positivity
    nlinarith
  have k2 : a * a ^ (1 / 2 : ℝ) < b * b ^ (1 / 2 : ℝ) := by nlinarith
  have k3 : a * a ^ (1 / 2 : ℝ) * (b + s) < b * b ^ (1 / 2 : ℝ) * (a + s) := by nlinarith
  nlinarith

/-- **C30** At every positive temperature the Sutherland viscosity is Sutherland's law in the
ratio of the temperature to the farfield temperature of the scaling in use, with the constant
`measurement_temperature / dimensionful temperature`: the scaling enters only through the
temperature ratio. The farfield temperature is the one of `get_farfield_state`. -/
theorem C30_sutherland {n m : ℕ} {cfg : FlowCfg} (h : cfg.Accepted) {Tm : ℝ}
    (hv : cfg.visc = .sutherland Tm) {U : Flow n} {T : ℝ} (hT : U.T = some T) (T0 : 0 < T)
    {d : Fin m → ℝ} {I : Flow m} (hI : getFarfieldState cfg m d = .ok I) :
    ∃ Tinf, I.T = some Tinf ∧ 0 < Tinf ∧
      viscosity cfg U = .ok (sutherland (Tm / cfg.Tref) (T / Tinf)) := by
  rw [farfield_eq h] at hI
  obtain rfl := Except.ok.inj hI
  refine ⟨_, rfl, (farState_ideal h d).T_pos, ?_⟩
  rw [viscosity_sutherland h hv hT T0, farState_T h]

/-- **C30** Two configurations that differ in scaling, Mach number, heat capacity ratio,
Reynolds or Prandtl number give the same viscosity at the same ratio of temperature to
farfield temperature. -/
theorem C30_scaling_independent {n m : ℕ} {cfg cfg' : FlowCfg} (h : cfg.Accepted)
    (h' : cfg'.Accepted) {Tm : ℝ} (hv : cfg.visc = .sutherland Tm)
    (hv' : cfg'.visc = .sutherland Tm) (hr : cfg'.Tref = cfg.Tref)
    {d : Fin m → ℝ} {I I' : Flow m} (hI : getFarfieldState cfg m d = .ok I)
    (hI' : getFarfieldState cfg' m d = .ok I') {Ti Ti' θ : ℝ} (hTi : I.T = some Ti)
    (hTi' : I'.T = some Ti') (hθ : 0 < θ) {U U' : Flow n} (hU : U.T = some (θ * Ti))
    (hU' : U'.T = some (θ * Ti')) :
    viscosity cfg U = viscosity cfg' U' := by
  have p1 : 0 < Ti := by
    rw [farfield_eq h] at hI; obtain rfl := Except.ok.inj hI
    have : (farState cfg d).T = Ti := by simpa [farDict] using hTi
    rw [← this]; exact (farState_ideal h d).T_pos
  have p2 : 0 < Ti' := by
    rw [farfield_eq h'] at hI'; obtain rfl := Except.ok.inj hI'
    have : (farState cfg' d).T = Ti' := by simpa [farDict] using hTi'
    rw [← this]; exact (farState_ideal h' d).T_pos
  obtain ⟨a, ha, a0, e1⟩ := C30_sutherland h hv hU (by positivity) hI
  obtain ⟨b, hb, b0, e2⟩ := C30_sutherland h' hv' hU' (by positivity) hI'
  rw [hTi] at ha; rw [hTi'] at hb
  obtain rfl := Option.some.inj ha
  obtain rfl := Option.some.inj hb
  rw [e1, e2, hr, mul_div_cancel_right₀ _ a0.ne', mul_div_cancel_right₀ _ b0.ne']

/-- **C30** The Sutherland viscosity is one at the farfield temperature. -/
theorem C30_normalised {n : ℕ} {cfg : FlowCfg} (h : cfg.Accepted) {Tm : ℝ}
    (hv : cfg.visc = .sutherland Tm) {d : Fin n → ℝ} {I : Flow n}
    (hI : getFarfieldState cfg n d = .ok I) : viscosity cfg I = .ok 1 := by
  have hI' := hI
  rw [farfield_eq h] at hI'
  have e := Except.ok.inj hI'
  obtain ⟨Ti, hTi, p, e2⟩ := C30_sutherland (n := n) (U := I) (T := (farState cfg d).T) h hv
    (by rw [← e]; rfl) (farState_ideal h d).T_pos hI
  have : (farState cfg d).T = Ti := by rw [← e] at hTi; simpa [farDict] using hTi
  rw [e2, this, div_self p.ne', sutherland_one (div_pos (h.tm Tm hv) h.tref)]

/-- **C30** The Sutherland viscosity is positive and strictly increasing in temperature. -/
theorem C30_positive_increasing {n : ℕ} {cfg : FlowCfg} (h : cfg.Accepted) {Tm : ℝ}
    (hv : cfg.visc = .sutherland Tm) {U V : Flow n} {T T' : ℝ} (hU : U.T = some T)
    (hV : V.T = some T') (T0 : 0 < T) (hTT : T < T') :
    ∃ a b, viscosity cfg U = .ok a ∧ viscosity cfg V = .ok b ∧ 0 < a ∧ a < b := by
  have hγ := h.gamma
  have hc := farC_pos h
  have g1 : 0 < cfg.γ - 1 := by linarith
  have hs : 0 < Tm / cfg.Tref := div_pos (h.tm Tm hv) h.tref
  refine ⟨_, _, viscosity_sutherland h hv hU T0, viscosity_sutherland h hv hV (T0.trans hTT),
    sutherland_pos hs (by positivity), sutherland_mono hs (by positivity) ?_⟩
  exact div_lt_div_of_pos_right hTT (by positivity)

/-- **C30** The constant law is one for every state; an inviscid fluid has no viscosity; the
Sutherland law needs a temperature. -/
theorem C30_other_laws {n : ℕ} (cfg : FlowCfg) (U : Flow n) :
    (cfg.visc = .constant → viscosity cfg U = .ok 1) ∧
    (cfg.visc = .inviscid → viscosity cfg U = .error .typeError) ∧
    (∀ Tm, cfg.visc = .sutherland Tm → U.T = none → viscosity cfg U = .error .valueError) := by
  refine ⟨fun h => ?_, fun h => ?_, fun Tm h hT => ?_⟩ <;> simp_all [viscosity]

example : ∃ a b, viscosity demoCfg ({ T := some 1 } : Flow 2) = .ok a ∧
    viscosity demoCfg ({ T := some 2 } : Flow 2) = .ok b ∧ 0 < a ∧ a < b :=
  C30_positive_increasing demoCfg_accepted rfl rfl rfl (by norm_num) (by norm_num)

/-- **C29** The Reynolds and the Prandtl number of an inviscid fluid cannot be asked for: both raise
`ValueError`, whatever has been assigned; with a viscosity one gets back what has been assigned. -/
theorem C29_inviscid (cfg : FlowCfg) :
    (cfg.visc = .inviscid → cfg.reynolds = .error .valueError ∧ cfg.prandtl = .error .valueError ∧
      cfg.referenceReynolds = .error .valueError) ∧
    (cfg.visc ≠ .inviscid → cfg.reynolds = .ok cfg.Re ∧ cfg.prandtl = .ok cfg.Pr) := by
  constructor
  · intro h
    simp [FlowCfg.reynolds, FlowCfg.prandtl, FlowCfg.referenceReynolds, h, bind, Except.bind]
  · intro h
    unfold FlowCfg.reynolds FlowCfg.prandtl
    cases hv : cfg.visc with
    | inviscid => exact absurd hv h
    | constant => exact ⟨rfl, rfl⟩
    | sutherland Tm => exact ⟨rfl, rfl⟩

/-- **C29** The reference Reynolds number: with it the viscosity `mu / Re_ref` gives the
farfield flow the Reynolds number the user asked for, `ρ |u| / (mu / Re_ref) = Re`. -/
theorem C29_reynolds {n : ℕ} {cfg : FlowCfg} (h : cfg.Accepted) (hv : cfg.visc ≠ .inviscid)
    (hM : 0 < cfg.Ma) {d : Fin n → ℝ} (hd : d ≠ 0) {I : Flow n}
    (hI : getFarfieldState cfg n d = .ok I) :
    ∃ r re, cfg.referenceReynolds = .ok r ∧ 0 < r ∧ localReynoldsNumber cfg I = .ok re ∧
      re * r = cfg.Re := by
  have hc := farC_pos h
  have hR := h.reynolds
  have hvis : viscosity cfg I = .ok 1 := by
    cases hv' : cfg.visc with
    | inviscid => exact absurd hv' hv
    | constant => exact (C30_other_laws cfg I).1 hv'
    | sutherland Tm => exact C30_normalised h hv' hI
  have hr : cfg.referenceReynolds = .ok (cfg.Re / (cfg.Ma * farC cfg)) := by
    unfold FlowCfg.referenceReynolds FlowCfg.reynolds
    cases hv' : cfg.visc with
    | inviscid => exact absurd hv' hv
    | constant => simp [bind, Except.bind, mag_eq h]
    | sutherland Tm => simp [bind, Except.bind, mag_eq h]
  refine ⟨_, cfg.Ma * farC cfg, hr, by positivity, ?_, by field_simp⟩
  unfold localReynoldsNumber
  rw [hvis]
  rw [farfield_eq h] at hI
  obtain rfl := Except.ok.inj hI
  have hu : √((farState cfg d).u ⬝ᵥ (farState cfg d).u) = cfg.Ma * farC cfg := by
    simp only [farState, GasState.of, smul_dotProduct, dotProduct_smul, smul_eq_mul,
      unit_norm hd]
    rw [mul_one, Real.sqrt_mul_self (by positivity)]
  simp [density, EOS.density, velocity, equation, equationE, farDict, bind, Except.bind, hu,
    show (farState cfg d).rho = 1 from rfl]

example : ∃ r re I, getFarfieldState demoCfg 2 ![3, 4] = .ok I ∧
    demoCfg.referenceReynolds = .ok r ∧ localReynoldsNumber demoCfg I = .ok re ∧ re * r = 500 := by
  have hd : (![3, 4] : Fin 2 → ℝ) ≠ 0 := fun h => by have := congrFun h 0; simp at this
  obtain ⟨S, hS, -⟩ := C29_farfield demoCfg_accepted hd
  obtain ⟨r, re, a, -, b, c⟩ := C29_reynolds demoCfg_accepted (by simp [demoCfg])
    (by norm_num [demoCfg]) hd hS
  exact ⟨r, re, _, hS, a, b, c⟩

end Dream
