import Verif.Model.Pulse
import Verif.Props.Vortex
import Mathlib.Analysis.SpecialFunctions.Pow.Real

/-!
# C116: the pulse of the example
-/

noncomputable section

namespace Dream
open Matrix Spec

/-- How much density and pressure are raised. -/
def swell (v : PulseSetup) (x y : ℝ) : ℝ := 1 + v.Gamma * Real.exp (-(x ^ 2 + y ^ 2) / v.Rv ^ 2)

theorem pulse_fields {cfg : FlowCfg} (h : cfg.Accepted) (v : PulseSetup) (x y : ℝ) :
    v.fields cfg x y = .ok
      { rho := some ((farState cfg v.direction).rho * swell v x y),
        u := some (farState cfg v.direction).u,
        p := some ((farState cfg v.direction).p * swell v x y) } := by
  have hr : pulseRadius x y ^ 2 = x ^ 2 + y ^ 2 := Real.sq_sqrt (by positivity)
  simp [PulseSetup.fields, farfield_eq h, farDict, bind, Except.bind, swell, hr]

theorem swell_pos {v : PulseSetup} (hG : -1 < v.Gamma) (x y : ℝ) : 0 < swell v x y := by
  have h0 := Real.exp_pos (-(x ^ 2 + y ^ 2) / v.Rv ^ 2)
  have h1 : Real.exp (-(x ^ 2 + y ^ 2) / v.Rv ^ 2) ≤ 1 :=
    Real.exp_le_one_iff.2 (div_nonpos_of_nonpos_of_nonneg (by nlinarith [sq_nonneg x, sq_nonneg y])
      (by positivity))
  unfold swell
  nlinarith

/-- **C116** The initial state of the pulse example is a gas everywhere, whose velocity, temperature,
speed of sound and local Mach number are those of the stream. For every accepted configuration and
all strengths above `-1`. -/
theorem C116_state {cfg : FlowCfg} (h : cfg.Accepted) (v : PulseSetup) (hG : -1 < v.Gamma) :
    ∃ F : Flow 2, getFarfieldState cfg 2 v.direction = .ok F ∧ ∀ x y : ℝ,
      ∃ (f : Flow 2) (S : GasState 2), v.fields cfg x y = .ok f ∧ IdealGas cfg.γ S ∧
        stateVec cfg.γ f = .ok (consVec S.rho S.rho_u S.rho_E) ∧
        f.rho = some S.rho ∧ f.p = some S.p ∧
        F.u = some S.u ∧ F.T = some S.T ∧ F.c = some S.c ∧
        temperature cfg.γ f = .ok S.T ∧ speedOfSound cfg.γ f = .ok S.c ∧
        localMachNumber cfg.γ f = localMachNumber cfg.γ F := by
  have hγ := h.gamma
  have g0 : 0 < cfg.γ := by linarith
  have g1 : 0 < cfg.γ - 1 := by linarith
  have hc := farC_pos h
  refine ⟨_, farfield_eq h _, fun x y => ?_⟩
  have hs := swell_pos hG x y
  have hEi : 0 < farC cfg ^ 2 / (cfg.γ * (cfg.γ - 1)) := by positivity
  have hS : IdealGas cfg.γ (GasState.of cfg.γ (swell v x y) (farState cfg v.direction).u
      (farC cfg ^ 2 / (cfg.γ * (cfg.γ - 1)))) := IdealGas.of hγ hs hEi
  have hp : (farState cfg v.direction).p * swell v x y
      = (GasState.of cfg.γ (swell v x y) (farState cfg v.direction).u
      (farC cfg ^ 2 / (cfg.γ * (cfg.γ - 1)))).p := by
    simp only [farState, GasState.of]
    ring
  have hr : (farState cfg v.direction).rho * swell v x y = swell v x y := by
    simp [farState, GasState.of]
  have hsound : cfg.γ * ((farState cfg v.direction).p * swell v x y) / swell v x y
      = cfg.γ * (cfg.γ - 1) * (farC cfg ^ 2 / (cfg.γ * (cfg.γ - 1))) := by
    simp only [farState, GasState.of]
    field_simp
  have ht : cfg.γ / (cfg.γ - 1) * ((farState cfg v.direction).p * swell v x y) / swell v x y
      = cfg.γ * (farC cfg ^ 2 / (cfg.γ * (cfg.γ - 1))) := by
    simp only [farState, GasState.of]
    field_simp
  refine ⟨_, _, pulse_fields h v x y, hS, ?_, ?_, ?_, rfl, rfl, rfl, ?_, ?_, ?_⟩
  · rw [hp, hr]
    have h1 : cfg.γ - 1 ≠ 0 := g1.ne'
    simp [stateVec, density, momentum, energy, innerEnergy, kineticEnergy, EOS.density,
      EOS.innerEnergy, equation, equationE, bind, Except.bind, GasState.of]
    field_simp
  · rw [hr]; rfl
  · rw [hp]
  · rw [hr]
    simp only [temperature, EOS.temperature, equation]
    simp [ht, GasState.of, equationE]
  · rw [hr]
    simp only [speedOfSound, EOS.speedOfSound, equation]
    simp [hsound, GasState.of, equationE]
  · rw [hr]
    simp [localMachNumber, velocity, speedOfSound, EOS.speedOfSound, equation, bind, Except.bind,
      hsound, farDict]
    simp [farState, GasState.of]

/-- **C116** A pulse of positive strength raises the pressure everywhere, most in the origin and by
the share `Gamma`, and the less the further away; the state depends on the distance from the origin
only. What is drawn as `p'` at the beginning is the pressure raised. -/
theorem C116_round {cfg : FlowCfg} (h : cfg.Accepted) (v : PulseSetup) (hG : 0 < v.Gamma)
    (hR : v.Rv ≠ 0) :
    ∃ (F : Flow 2) (pinf : ℝ) (p : ℝ → ℝ → ℝ), getFarfieldState cfg 2 v.direction = .ok F ∧
      F.p = some pinf ∧ 0 < pinf ∧
      (∀ x y, ∃ f, v.fields cfg x y = .ok f ∧ f.p = some (p x y) ∧
        v.drawn cfg f = .ok (p x y - pinf)) ∧
      (∀ x y, pinf < p x y ∧ p x y ≤ pinf + v.Gamma * pinf ∧
        (p x y = pinf + v.Gamma * pinf ↔ x = 0 ∧ y = 0)) ∧
      (∀ x y x' y', p x' y' < p x y ↔ x ^ 2 + y ^ 2 < x' ^ 2 + y' ^ 2) ∧
      (∀ x y x' y', x ^ 2 + y ^ 2 = x' ^ 2 + y' ^ 2 → v.fields cfg x y = v.fields cfg x' y') := by
  have hR2 : 0 < v.Rv ^ 2 := by positivity
  have hp0 : 0 < (farState cfg v.direction).p := by
    have hS := farState_ideal h v.direction
    have := h.gamma
    rw [hS.gas_law]
    have := hS.rho_pos
    have := hS.T_pos
    exact mul_pos (div_pos (by linarith) (by linarith)) (by positivity)
  have hlt : ∀ x y x' y', swell v x' y' < swell v x y ↔ x ^ 2 + y ^ 2 < x' ^ 2 + y' ^ 2 := by
    intro x y x' y'
    unfold swell
    rw [add_lt_add_iff_left, mul_lt_mul_iff_right₀ hG, Real.exp_lt_exp, div_lt_div_iff_of_pos_right hR2,
      neg_lt_neg_iff]
  have h00 : swell v 0 0 = 1 + v.Gamma := by simp [swell]
  have hle : ∀ x y, swell v x y ≤ 1 + v.Gamma ∧ (swell v x y = 1 + v.Gamma ↔ x = 0 ∧ y = 0) := by
    intro x y
    rw [← h00]
    have h1 := hlt x y 0 0
    have h2 := hlt 0 0 x y
    refine ⟨not_lt.1 fun hh => ?_, fun hh => ?_, ?_⟩
    · have := h1.1 hh
      nlinarith [sq_nonneg x, sq_nonneg y]
    · have h3 : ¬ (0 : ℝ) ^ 2 + 0 ^ 2 < x ^ 2 + y ^ 2 := fun hh' => (h2.2 hh').ne hh
      constructor <;> nlinarith [sq_nonneg x, sq_nonneg y]
    · rintro ⟨rfl, rfl⟩; rfl
  refine ⟨_, _, fun x y => (farState cfg v.direction).p * swell v x y, farfield_eq h _, rfl, hp0,
    fun x y => ⟨_, pulse_fields h v x y, rfl, ?_⟩, fun x y => ⟨?_, ?_, ?_⟩, fun x y x' y' => ?_,
    fun x y x' y' hd => ?_⟩
  · simp [PulseSetup.drawn, farfield_eq h, farDict, pressure, EOS.pressure, equation,
      equationE, bind, Except.bind]
  · have : 1 < swell v x y := by
      unfold swell
      have := Real.exp_pos (-(x ^ 2 + y ^ 2) / v.Rv ^ 2)
      nlinarith
    nlinarith
  · nlinarith [(hle x y).1]
  · rw [← (hle x y).2]
    constructor
    · intro hh
      exact mul_left_cancel₀ hp0.ne' (hh.trans (by ring))
    · intro hh
      simp only [hh]; ring
  · simp only [mul_lt_mul_iff_right₀ hp0]
    exact hlt x y x' y'
  · rw [pulse_fields h, pulse_fields h, swell, swell, hd]

/-- **C116** The pulse is not sound alone: sound has `p' = c² ρ'` and the entropy of the stream. Of the
density raised, the share `1 - 1/γ` does not belong to the pressure raised, and the entropy is lower
than that of the stream at every point. -/
theorem C116_share {cfg : FlowCfg} (h : cfg.Accepted) (v : PulseSetup) (hG : 0 < v.Gamma) :
    ∃ (F : Flow 2) (rinf pinf c : ℝ), getFarfieldState cfg 2 v.direction = .ok F ∧
      F.rho = some rinf ∧ F.p = some pinf ∧ F.c = some c ∧ 0 < c ∧ ∀ x y,
      ∃ f r p, v.fields cfg x y = .ok f ∧ f.rho = some r ∧ f.p = some p ∧
        (r - rinf) - (p - pinf) / c ^ 2 = (1 - 1 / cfg.γ) * (r - rinf) ∧ 0 < r - rinf ∧
        p - pinf ≠ c ^ 2 * (r - rinf) ∧ p / pinf < (r / rinf) ^ cfg.γ := by
  have hγ := h.gamma
  have g0 : 0 < cfg.γ := by linarith
  have g1 : 0 < cfg.γ - 1 := by linarith
  have hc := farC_pos h
  have hpinf : (farState cfg v.direction).p = farC cfg ^ 2 / cfg.γ := by
    simp only [farState, GasState.of]
    field_simp
  refine ⟨_, _, _, _, farfield_eq h _, rfl, rfl, rfl, by rw [farState_c h]; exact hc, fun x y =>
    ⟨_, _, _, pulse_fields h v x y, rfl, rfl, ?_⟩⟩
  have hs : 1 < swell v x y := by
    unfold swell
    have := Real.exp_pos (-(x ^ 2 + y ^ 2) / v.Rv ^ 2)
    nlinarith
  rw [farState_c h, hpinf, show (farState cfg v.direction).rho = 1 from rfl, one_mul, div_one]
  refine ⟨by field_simp, by linarith, fun he => ?_, ?_⟩
  · have h2 : 0 < farC cfg ^ 2 := by positivity
    have h3 : farC cfg ^ 2 * ((swell v x y - 1) * (cfg.γ - 1)) = 0 := by
      field_simp at he
      nlinarith
    rcases mul_eq_zero.1 h3 with h4 | h4
    · exact h2.ne' h4
    · rcases mul_eq_zero.1 h4 with h5 | h5 <;> linarith
  · rw [mul_div_cancel_left₀ _ (by positivity)]
    conv_lhs => rw [← Real.rpow_one (swell v x y)]
    exact Real.rpow_lt_rpow_of_exponent_lt hs hγ

/-- The density of the part of the pulse that is not sound, at the position `(X, Y)`. -/
def spot (γ : ℝ) (v : PulseSetup) (X Y : ℝ) : ℝ := 1 + (1 - 1 / γ) * (swell v X Y - 1)

theorem spot_deriv (γ : ℝ) (v : PulseSetup) (X Y : ℝ → ℝ) (s α β : ℝ) (hX : HasDerivAt X α s)
    (hY : HasDerivAt Y β s) :
    HasDerivAt (fun s => spot γ v (X s) (Y s))
      ((1 - 1 / γ) * (v.Gamma * (Real.exp (-(X s ^ 2 + Y s ^ 2) / v.Rv ^ 2)
        * (-(2 * X s * α + 2 * Y s * β) / v.Rv ^ 2)))) s := by
  have h := (((((hX.pow 2).add (hY.pow 2)).neg.div_const (v.Rv ^ 2)).exp.const_mul
    v.Gamma).const_mul (1 - 1 / γ)).const_add 1
  refine (h.congr_of_eventuallyEq ?_).congr_deriv ?_
  · exact Filter.Eventually.of_forall fun s => by
      simp only [spot, swell, Pi.add_apply, Pi.pow_apply, Pi.neg_apply]
      ring
  · simp only [Pi.add_apply, Pi.pow_apply, Pi.neg_apply]
    norm_num

/-- **C116** The part of the pulse that is not sound, alone in the stream, is an exact solution of the
Euler equations: it is carried along unchanged, with the pressure and the velocity of the stream, so
no sound is sent out by it. -/
theorem C116_spot {cfg : FlowCfg} (h : cfg.Accepted) (v : PulseSetup) (hG : -1 < v.Gamma) :
    ∃ (F : Flow 2) (rinf pinf : ℝ) (uinf : Fin 2 → ℝ) (U : ℝ → (Fin 2 → ℝ) → GasState 2)
      (dw : ℝ → (Fin 2 → ℝ) → Fin 4 → ℝ),
      getFarfieldState cfg 2 v.direction = .ok F ∧ F.rho = some rinf ∧ F.u = some uinf ∧
      F.p = some pinf ∧ SolvesEuler cfg.γ (fun _ => Set.univ) U dw ∧
      (∀ x, ∃ f r, v.fields cfg (x 0) (x 1) = .ok f ∧ f.rho = some r ∧
        (U 0 x).rho - rinf = (1 - 1 / cfg.γ) * (r - rinf)) ∧
      (∀ t x, (U t x).p = pinf ∧ (U t x).u = uinf) ∧
      ∀ t x, U t (x + t • uinf) = U 0 x := by
  have hγ := h.gamma
  have g0 : 0 < cfg.γ := by linarith
  have hp0 : 0 < (farState cfg v.direction).p := by
    have hS := farState_ideal h v.direction
    rw [hS.gas_law]
    have := hS.rho_pos
    have := hS.T_pos
    exact mul_pos (div_pos (by linarith) (by linarith)) (by positivity)
  obtain ⟨a, ha⟩ : ∃ a, a = (farState cfg v.direction).u 0 := ⟨_, rfl⟩
  obtain ⟨b, hb⟩ : ∃ b, b = (farState cfg v.direction).u 1 := ⟨_, rfl⟩
  have hu : (farState cfg v.direction).u = ![a, b] := by
    funext i
    fin_cases i
    · exact ha.symm
    · exact hb.symm
  have hpos : ∀ X Y, 0 < spot cfg.γ v X Y := by
    intro X Y
    have hs := swell_pos hG X Y
    have h1 : 0 < 1 / cfg.γ := by positivity
    have h2 : 1 / cfg.γ < 1 := (div_lt_one g0).2 hγ
    unfold spot
    nlinarith
  have hconst : ∀ (k : ℝ) t x, PartialsAt (fun _ _ => k) t x 0 0 0 := fun k t x =>
    ⟨hasDerivAt_const _ _, hasDerivAt_const _ _, hasDerivAt_const _ _⟩
  have hS := euler_of_primitive (γ := cfg.γ) (r := moving a b 0 (spot cfg.γ v)) (u := fun _ _ => a)
    (v := fun _ _ => b) (p := fun _ _ => (farState cfg v.direction).p) (ut := fun _ _ => 0)
    (u0 := fun _ _ => 0) (u1 := fun _ _ => 0) (vt := fun _ _ => 0) (v0 := fun _ _ => 0)
    (v1 := fun _ _ => 0) (pt := fun _ _ => 0) (p0 := fun _ _ => 0) (p1 := fun _ _ => 0) hγ
    (fun t x => hpos _ _) (fun t x => hp0)
    (moving_partials a b 0 (D := fun X Y α β => (1 - 1 / cfg.γ) * (v.Gamma
      * (Real.exp (-(X ^ 2 + Y ^ 2) / v.Rv ^ 2) * (-(2 * X * α + 2 * Y * β) / v.Rv ^ 2))))
      (spot_deriv cfg.γ v)) (hconst a) (hconst b) (hconst _)
    (fun t x => by ring) (fun t x => by ring) (fun t x => by ring) (fun t x => by ring)
  refine ⟨_, _, _, _, _, _, farfield_eq h _, rfl, rfl, rfl, hS,
    fun x => ⟨_, _, pulse_fields h v _ _, rfl, ?_⟩, fun t x => ⟨?_, hu.symm⟩, fun t x => ?_⟩
  · simp [primitiveFlow, GasState.of, moving, spot, farState]
  · exact (primitiveFlow_eq (r := moving a b 0 (spot cfg.γ v)) (u := fun _ _ => a)
      (v := fun _ _ => b) (p := fun _ _ => (farState cfg v.direction).p) (t := t) (x := x) hγ
      (hpos _ _) hp0).2.1
  · have hm : moving a b 0 (spot cfg.γ v) t (x + t • (farState cfg v.direction).u)
        = moving a b 0 (spot cfg.γ v) 0 x := by
      rw [hu]
      simp only [moving]
      congr 1 <;> · simp; ring
    simp only [primitiveFlow, farDict, hm]

/-- The configuration of the example (examples/compressible/pressure_pulse_2d.py:42-46). -/
def pulseCfg : FlowCfg :=
  { γ := 14 / 10, Ma := 3 / 100, Re := 1, Pr := 72 / 100, scaling := .acoustic,
    visc := .inviscid, Tref := 1 }

/-- The pulse of the example. -/
def pulseSetup : PulseSetup := ⟨1 / 10, 1 / 10, ![1, 0]⟩

theorem pulseCfg_accepted : pulseCfg.Accepted where
  gamma := by norm_num [pulseCfg]
  mach := by norm_num [pulseCfg]
  aero := fun h => by cases h
  reynolds := by norm_num [pulseCfg]
  prandtl := by norm_num [pulseCfg]
  tref := by norm_num [pulseCfg]
  tm := fun _ h => by cases h

/-- The numbers of the example: two sevenths of the density raised are not sound. -/
example : ∃ (F : Flow 2) (rinf pinf c : ℝ), getFarfieldState pulseCfg 2 ![1, 0] = .ok F ∧
      F.rho = some rinf ∧ F.p = some pinf ∧ F.c = some c ∧ ∀ x y,
      ∃ f r p, pulseSetup.fields pulseCfg x y = .ok f ∧ f.rho = some r ∧ f.p = some p ∧
        (r - rinf) - (p - pinf) / c ^ 2 = 2 / 7 * (r - rinf) ∧ 0 < r - rinf := by
  obtain ⟨F, r, p, c, h1, h2, h3, h4, -, h5⟩ := C116_share pulseCfg_accepted pulseSetup
    (by norm_num [pulseSetup])
  refine ⟨F, r, p, c, h1, h2, h3, h4, fun x y => ?_⟩
  obtain ⟨f, r', p', k1, k2, k3, k4, k5, -⟩ := h5 x y
  exact ⟨f, r', p', k1, k2, k3, by rw [k4]; norm_num [pulseCfg], k5⟩

example := C116_spot pulseCfg_accepted pulseSetup (by norm_num [pulseSetup])
example := C116_state pulseCfg_accepted pulseSetup (by norm_num [pulseSetup])
example := C116_round pulseCfg_accepted pulseSetup (by norm_num [pulseSetup])
  (by norm_num [pulseSetup])

end Dream
