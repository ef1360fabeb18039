import Verif.Spec.Forces
import Verif.Props.Conservation
import Verif.Props.Reference
import Verif.Props.Mixed

/-!
# C114: reported forces and the momentum of the gas
-/

noncomputable section

namespace Dream
open Matrix Spec

variable {V B : Type} [Fintype V] [Fintype B]

/-- A point of an inviscid wall or symmetry plane with normal `d`: the trace satisfies the wall condition for
the state `S` in the element, `f` is the numerical flux of the two. -/
def SlipWall (γ : ℝ) (rs : Riemann) (d : Fin 2 → ℝ) (S : GasState 2) (f : Fin 4 → ℝ) : Prop :=
  ∃ (wHat : Fin 4 → ℝ) (UHat : Flow 2),
    inviscidWallResidual γ d (conservativeDict S) wHat = .ok 0 ∧
    getConservativeFields γ (wHat 0) ![wHat 1, wHat 2] (wHat 3) = .ok UHat ∧
    convectiveNumericalFlux γ rs (consVec S.rho S.rho_u S.rho_E) wHat UHat d = .ok f

/-- A point of an isothermal wall whose condition is met by the state `S` in the element itself: the trace
is that state, `f` and `g` are the convective and viscous numerical fluxes. -/
def StuckWall (cfg : FlowCfg) (rs : Riemann) (bc : Flow 2) (d : Fin 2 → ℝ) (S : GasState 2)
    (Q : Fin 5 → ℝ) (f g : Fin 4 → ℝ) : Prop :=
  let w := consVec S.rho S.rho_u S.rho_E
  isothermalWallResidual cfg.γ bc (conservativeDict S) w = .ok 0 ∧
    convectiveNumericalFlux cfg.γ rs w w (conservativeDict S) d = .ok f ∧
    diffusiveNumericalFlux cfg w w (conservativeDict S) (strainHeatFields Q) d = .ok g

theorem dict_from (S : GasState 2) : (conservativeDict S).From S := by
  constructor <;> simp [conservativeDict]

theorem coefficient_force {cfg : FlowCfg} {S R : GasState 2} (hS : IdealGas cfg.γ S)
    (hR : IdealGas cfg.γ R) (hu : 0 < R.u ⬝ᵥ R.u) {dU : Grads 2} {τ : Matrix (Fin 2) (Fin 2) ℝ}
    (hτ : (cfg.visc = .inviscid ∧ τ = 0) ∨
      (cfg.visc ≠ .inviscid ∧ deviatoricStressTensor cfg (conservativeDict S) dU = .ok τ))
    {d e : Fin 2 → ℝ} (he : 0 < e ⬝ᵥ e) {v : ℝ}
    (h : forceCoefficient cfg (conservativeDict S) dU (conservativeDict R) d e = .ok v) :
    √(e ⬝ᵥ e) * (1 / 2 * R.rho * (R.u ⬝ᵥ R.u)) * v = -(S.p * (d ⬝ᵥ e)) + (τ *ᵥ d) ⬝ᵥ e := by
  have hv := C54_force_partial hS hR (dict_from S) (dict_from R) hτ d e h
  have r0 := hR.rho_pos.ne'
  have s0 : √(e ⬝ᵥ e) ≠ 0 := (Real.sqrt_pos.2 he).ne'
  have u0 := hu.ne'
  rw [hv]
  simp only [bodyForce, mulVec_neg, add_dotProduct, neg_dotProduct, smul_dotProduct, smul_neg, neg_smul,
    neg_neg, smul_eq_mul]
  field_simp
  ring

theorem wallState_p {γ : ℝ} {S : GasState 2} (hS : IdealGas γ S) (d : Fin 2 → ℝ) :
    (wallState γ S d).p = S.p + (γ - 1) / 2 * S.rho * (S.u ⬝ᵥ d) ^ 2 := by
  have hg := hS.gamma
  rw [hS.gas_law, hS.caloric]
  simp only [wallState, GasState.of]
  field_simp

/-- The flux at an inviscid wall in terms of the state in the element. -/
theorem slip_flux {γ : ℝ} {rs : Riemann} (hrs : rs ≠ .upwind) {S : GasState 2} (hS : IdealGas γ S)
    {d : Fin 2 → ℝ} (hd : d 0 ^ 2 + d 1 ^ 2 = 1) {f : Fin 4 → ℝ} (hf : SlipWall γ rs d S f) :
    ∃ c, 0 < c ∧ c ^ 2 = S.c ^ 2 + γ * (γ - 1) / 2 * (S.u ⬝ᵥ d) ^ 2 ∧
      let P := S.p + S.rho * (S.u ⬝ᵥ d) * (c + (γ - 1) / 2 * (S.u ⬝ᵥ d))
      f = ![0, P * d 0, P * d 1, 0] := by
  obtain ⟨wHat, UHat, hw, hU, hff⟩ := hf
  obtain ⟨UHat', f', hU', hf', W, hW, h1, h2, h3, e1⟩ := C67_wall_partial rs hrs hS hd hw
  rw [hU] at hU'
  cases hU'
  rw [hff] at hf'
  cases hf'
  have ew := wall_trace hS hd hw
  have hWs := wallState_ideal hS d
  have hWW : W = wallState γ S d := by
    have := C24_fields hW
    have h' := C24_fields hWs
    have em : W.rho_u = (wallState γ S d).rho_u := by
      rw [h3, ew]; funext i; fin_cases i <;> rfl
    have er : W.rho = (wallState γ S d).rho := by rw [h1, ew]; rfl
    have eE : W.rho_E = (wallState γ S d).rho_E := by rw [h2, ew]; rfl
    exact (C24_admissible (γ := γ) hS.gamma hW.rho_pos (m := W.rho_u) (e := W.rho_E)
      (by
        rw [hW.momentum, hW.rho_E, hW.total, hW.kinetic]
        have := hW.rho_pos
        have hE : 0 < W.Ei := by
          have h1 := hW.T_pos
          rw [hW.caloric] at h1
          have h2 := hW.gamma
          by_contra hn
          nlinarith
        simp only [smul_dotProduct, dotProduct_smul, smul_eq_mul]
        rw [div_lt_iff₀ (by positivity)]
        nlinarith [mul_pos (mul_pos this this) hE])).unique ⟨hW, rfl, rfl, rfl⟩ ⟨hWs, er.symm, em.symm, eE.symm⟩
  refine ⟨W.c, hW.sound_pos, ?_, ?_⟩
  · have hp := wallState_p hS d
    have hr : (wallState γ S d).rho = S.rho := rfl
    have r0 := hS.rho_pos.ne'
    rw [hW.sound, hS.sound, hWW, hp, hr]
    field_simp
  · have hp := wallState_p hS d
    rw [← hWW] at hp
    rw [e1, hp, hS.momentum]
    funext i
    fin_cases i
    · rfl
    · show _ * d 0 = _ * d 0
      simp only [smul_dotProduct, smul_eq_mul]
      ring
    · show _ * d 1 = _ * d 1
      simp only [smul_dotProduct, smul_eq_mul]
      ring
    · rfl

/-- **C114** What an inviscid wall takes and what is reported: at every point of an inviscid wall, for every
state in the element, all Riemann solvers but Upwind, every reference and direction, the momentum that passes
per time and length differs from the reported coefficient (with the sign turned, C54) by
`ρ uₙ (ĉ + (γ-1)/2 uₙ)` times the component of the normal, where `uₙ` is the velocity of the gas through the
wall and `ĉ` is the speed of sound that belongs to the total energy without this motion. -/
theorem C114_wall {cfg : FlowCfg} (hv : cfg.visc = .inviscid) {rs : Riemann} (hrs : rs ≠ .upwind)
    {S R : GasState 2} (hS : IdealGas cfg.γ S) (hR : IdealGas cfg.γ R) (hu : 0 < R.u ⬝ᵥ R.u)
    {d e : Fin 2 → ℝ} (hd : d 0 ^ 2 + d 1 ^ 2 = 1) (he : 0 < e ⬝ᵥ e) {f : Fin 4 → ℝ}
    (hf : SlipWall cfg.γ rs d S f) {dU : Grads 2} {v : ℝ}
    (h : forceCoefficient cfg (conservativeDict S) dU (conservativeDict R) d e = .ok v) :
    ∃ c, 0 < c ∧ c ^ 2 = S.c ^ 2 + cfg.γ * (cfg.γ - 1) / 2 * (S.u ⬝ᵥ d) ^ 2 ∧
      f 1 * e 0 + f 2 * e 1 = -(√(e ⬝ᵥ e) * (1 / 2 * R.rho * (R.u ⬝ᵥ R.u)) * v)
        + S.rho * (S.u ⬝ᵥ d) * (c + (cfg.γ - 1) / 2 * (S.u ⬝ᵥ d)) * (d ⬝ᵥ e) := by
  obtain ⟨c, c0, hc, rfl⟩ := slip_flux hrs hS hd hf
  refine ⟨c, c0, hc, ?_⟩
  have hcf := coefficient_force hS hR hu (Or.inl ⟨hv, rfl⟩) he h
  rw [hcf]
  simp [dotProduct, Fin.sum_univ_two]
  ring

/-- **C114** The reported force on an inviscid wall is the momentum it takes from the gas exactly where no gas
moves through the wall (or where the wall is parallel to the direction); where gas moves into the wall, in
the element, the reported pressure is too small, where gas moves off the wall it is too large. -/
theorem C114_exact_iff {cfg : FlowCfg} (hv : cfg.visc = .inviscid) {rs : Riemann} (hrs : rs ≠ .upwind)
    {S R : GasState 2} (hS : IdealGas cfg.γ S) (hR : IdealGas cfg.γ R) (hu : 0 < R.u ⬝ᵥ R.u)
    {d e : Fin 2 → ℝ} (hd : d 0 ^ 2 + d 1 ^ 2 = 1) (he : 0 < e ⬝ᵥ e) {f : Fin 4 → ℝ}
    (hf : SlipWall cfg.γ rs d S f) {dU : Grads 2} {v : ℝ}
    (h : forceCoefficient cfg (conservativeDict S) dU (conservativeDict R) d e = .ok v) :
    (f 1 * e 0 + f 2 * e 1 = -(√(e ⬝ᵥ e) * (1 / 2 * R.rho * (R.u ⬝ᵥ R.u)) * v) ↔
      S.u ⬝ᵥ d = 0 ∨ d ⬝ᵥ e = 0) ∧
    (0 < d ⬝ᵥ e → 0 < S.u ⬝ᵥ d →
      -(√(e ⬝ᵥ e) * (1 / 2 * R.rho * (R.u ⬝ᵥ R.u)) * v) < f 1 * e 0 + f 2 * e 1) ∧
    (0 < d ⬝ᵥ e → S.u ⬝ᵥ d < 0 →
      f 1 * e 0 + f 2 * e 1 < -(√(e ⬝ᵥ e) * (1 / 2 * R.rho * (R.u ⬝ᵥ R.u)) * v)) := by
  obtain ⟨c, c0, hc, hfe⟩ := C114_wall hv hrs hS hR hu hd he hf h
  have r0 := hS.rho_pos
  have hg := hS.gamma
  set un := S.u ⬝ᵥ d with hun
  have hk : 0 < c + (cfg.γ - 1) / 2 * un := by
    have h1 : ((cfg.γ - 1) / 2 * un) ^ 2 < c ^ 2 := by
      rw [hc]
      have := pow_pos hS.sound_pos 2
      nlinarith [mul_nonneg (by nlinarith : 0 ≤ cfg.γ * (cfg.γ - 1) / 2 - ((cfg.γ - 1) / 2) ^ 2)
        (sq_nonneg un)]
    have := abs_lt_of_sq_lt_sq h1 c0.le
    linarith [(abs_lt.1 this).1]
  rw [hfe]
  refine ⟨?_, fun h1 h2 => ?_, fun h1 h2 => ?_⟩
  · rw [add_eq_left]
    simp only [mul_eq_zero, r0.ne', hk.ne', false_or, or_false]
  · have := mul_pos (mul_pos (mul_pos r0 h2) hk) h1
    linarith
  · have := mul_pos (mul_pos (mul_pos r0 (neg_pos.2 h2)) hk) h1
    linarith

/-- **C114** Viscous flow: at every point of an isothermal wall whose condition the gas in the element meets,
the momentum that passes per time and length, pressure and friction, is the reported one (with the sign
turned), for all Riemann solvers. -/
theorem C114_viscous {cfg : FlowCfg} (ha : cfg.Accepted) (hv : cfg.visc ≠ .inviscid) (hM : 0 < cfg.Ma)
    {rs : Riemann} {bc : Flow 2} {S R : GasState 2} (hS : IdealGas cfg.γ S) (hR : IdealGas cfg.γ R)
    (hu : 0 < R.u ⬝ᵥ R.u) {d e : Fin 2 → ℝ} (hd : d 0 ^ 2 + d 1 ^ 2 = 1) (he : 0 < e ⬝ᵥ e)
    {Q : Fin 5 → ℝ} {f g : Fin 4 → ℝ} (hf : StuckWall cfg rs bc d S Q f g) {v : ℝ}
    (h : forceCoefficient cfg (conservativeDict S) (strainHeatFields Q) (conservativeDict R) d e = .ok v) :
    (f 1 - g 1) * e 0 + (f 2 - g 2) * e 1 = -(√(e ⬝ᵥ e) * (1 / 2 * R.rho * (R.u ⬝ᵥ R.u)) * v) := by
  obtain ⟨hw, h1, h2⟩ := hf
  obtain ⟨F, μ, r, hF, hμ, hr, hFd⟩ := C55_strain_heat_partial ha hv hM hS Q d
  obtain ⟨F', hF', hg'⟩ := C56_consistent ha hv hM hS Q (consVec S.rho S.rho_u S.rho_E) d
  rw [hF] at hF'
  cases hF'
  rw [hg'] at h2
  rw [C28_consistent rs hS hd] at h1
  simp only [Except.ok.injEq] at h1 h2
  have hτ : deviatoricStressTensor cfg (conservativeDict S) (strainHeatFields Q)
      = .ok ((2 * μ / r) • !![Q 0, Q 1; Q 1, Q 2]) := by
    simp [deviatoricStressTensor, hμ, hr, strainRateTensor, strainHeatFields, equation, equationE, bind,
      Except.bind]
  have hu0 : S.rho_u = 0 := by
    cases hT : bc.T with
    | none => simp [isothermalWallResidual, conservativeDict, given, hT, bind, Except.bind] at hw
    | some T =>
      simp only [isothermalWallResidual, conservativeDict, given, hT, bind, Except.bind, density,
        EOS.density, momentum, innerEnergy, EOS.innerEnergy, equation, equationE] at hw
      have := sub_eq_zero.1 (Except.ok.inj hw)
      funext i
      fin_cases i
      · exact congrFun this 1
      · exact congrFun this 2
  have hcf := coefficient_force hS hR hu (Or.inr ⟨hv, hτ⟩) he h
  have hp : (cfg.γ - 1) * S.rho_E = S.p := by
    have hum : S.u = 0 := by
      have := hS.momentum
      rw [hu0] at this
      exact ((smul_eq_zero.1 this.symm).resolve_left hS.rho_pos.ne')
    have hg : cfg.γ ≠ 0 := by linarith [hS.gamma]
    rw [hS.gas_law, hS.caloric, hS.rho_E, hS.total, hS.kinetic, hum]
    simp
    field_simp
  have f1 : f 1 = S.p * d 0 := by
    rw [← h1, ← hp]
    show S.rho_u 0 * (S.rho_u ⬝ᵥ d) / S.rho
      + (cfg.γ - 1) * (S.rho_E - (S.rho_u ⬝ᵥ S.rho_u) / (2 * S.rho)) * d 0 = _
    simp [hu0]
  have f2 : f 2 = S.p * d 1 := by
    rw [← h1, ← hp]
    show S.rho_u 1 * (S.rho_u ⬝ᵥ d) / S.rho
      + (cfg.γ - 1) * (S.rho_E - (S.rho_u ⬝ᵥ S.rho_u) / (2 * S.rho)) * d 1 = _
    simp [hu0]
  have g1 : g 1 = ∑ j, ((2 * (μ / r)) • !![Q 0, Q 1; Q 1, Q 2]) 0 j * d j := by
    rw [← h2, hFd]; rfl
  have g2 : g 2 = ∑ j, ((2 * (μ / r)) • !![Q 0, Q 1; Q 1, Q 2]) 1 j * d j := by
    rw [← h2, hFd]; rfl
  rw [hcf, f1, f2, g1, g2]
  simp [dotProduct, mulVec, Fin.sum_univ_two]
  ring

/-! ### The momentum of the gas -/

/-- **C114** The balance of momentum: for every mesh, space, flux, scheme and direction, the momentum of the gas changes
in a time step by what it hands over to the body and what it loses elsewhere. -/
theorem C114_balance (M : HdgMesh 2 V B) (mask : B → ℝ) (hmask : ∀ b, mask b = 0 ∨ mask b = 1)
    (T : Set (HdgTest 2 4 V B)) (hT : HasConstants mask T) (s : Scheme) (dt : ℝ) (t : ℚ)
    (x cur prev : HdgState 2 4 V B) (hR : ∀ b, mask b = 1 → x.R b = 0)
    (h : hdgStep M mask T (s.quotient dt) t x cur prev) (body : Name)
    (hbody : ∀ b, M.onRegion body b = true → mask b = 0) (e : Fin 2 → ℝ) :
    s.quotient dt (x.momentumAlong M e) (cur.momentumAlong M e) (prev.momentumAlong M e)
      = -x.handedOver M body e - x.lostElsewhere M mask body e := by
  have h1 := C66_balance M mask hmask T hT s dt t x cur prev hR h 1
  have h2 := C66_balance M mask hmask T hT s dt t x cur prev hR h 2
  have eq : s.quotient dt (x.momentumAlong M e) (cur.momentumAlong M e) (prev.momentumAlong M e)
      = s.quotient dt (x.total M 1) (cur.total M 1) (prev.total M 1) * e 0
        + s.quotient dt (x.total M 2) (cur.total M 2) (prev.total M 2) * e 1 := by
    cases s <;>
      simp only [Scheme.quotient, backwardEuler, backward2, HdgState.momentumAlong, HdgState.total] <;> ring
  have eb : x.handedOver M body e
      + (∑ b, if mask b = 0 ∧ M.onRegion body b = false then M.wB b * x.passing e b else 0)
      = (∑ b, if mask b = 0 then M.wB b * (x.Fn b 1 - x.Gn b 1) else 0) * e 0
        + (∑ b, if mask b = 0 then M.wB b * (x.Fn b 2 - x.Gn b 2) else 0) * e 1 := by
    rw [HdgState.handedOver, Finset.sum_mul, Finset.sum_mul, ← Finset.sum_add_distrib,
      ← Finset.sum_add_distrib]
    refine Finset.sum_congr rfl fun b _ => ?_
    cases hb : M.onRegion body b
    · by_cases hm : mask b = 0
      · simp [hm, HdgState.passing]; ring
      · simp [hm]
    · simp [hbody b hb, HdgState.passing]; ring
  have es : ∑ v, M.wV v * (x.source v 1 * e 0 + x.source v 2 * e 1)
      = (∑ v, M.wV v * x.source v 1) * e 0 + (∑ v, M.wV v * x.source v 2) * e 1 := by
    rw [Finset.sum_mul, Finset.sum_mul, ← Finset.sum_add_distrib]
    exact Finset.sum_congr rfl fun v _ => by ring
  rw [eq, h1, h2, HdgState.lostElsewhere, es]
  simp only [HdgState.loss]
  linear_combination eb

/-- What the sensor writes: the integrals of the two coefficients over the named regions. -/
theorem forceSensor_measure (M : HdgMesh 2 V B) (name : String) (rate : ℕ) (body : Name) (cd cl : B → ℝ)
    (plain : Bool) :
    (forceSensor name rate body cd cl).measure M.integrateOver plain
      = .ok [M.integrateOver cd body, M.integrateOver cl body] := by
  simp [forceSensor, Sensor.measure, Sensor.measureAt, Sensor.openFields, SensorKind.isL2, integrals,
    compoundDim, SField.dim, List.mapM_cons, Except.map, bind, Except.bind, pure, Except.pure]

open Classical in
/-- **C114** What the sensor writes: weighted sums over exactly those boundary points whose region is one of the
names, drag first. -/
theorem C114_written (M : HdgMesh 2 V B) (name : String) (rate : ℕ) (body : Name) (cd cl : B → ℝ)
    (plain : Bool) :
    (forceSensor name rate body cd cl).measure M.integrateOver plain
      = .ok [∑ b with ∃ r, M.region b = some r ∧ r ∈ splitBar body, M.wB b * cd b,
        ∑ b with ∃ r, M.region b = some r ∧ r ∈ splitBar body, M.wB b * cl b] := by
  have key : ∀ f : B → ℝ, M.integrateOver f body
      = ∑ b with ∃ r, M.region b = some r ∧ r ∈ splitBar body, M.wB b * f b := by
    intro f
    rw [HdgMesh.integrateOver, Finset.sum_filter]
    refine Finset.sum_congr rfl fun b _ => ?_
    have : M.onRegion body b = true ↔ ∃ r, M.region b = some r ∧ r ∈ splitBar body := by
      rw [HdgMesh.onRegion]
      cases M.region b <;> simp
    by_cases h : M.onRegion body b = true
    · rw [if_pos h, if_pos (this.1 h)]
    · rw [if_neg h, if_neg (fun k => h (this.2 k))]
  rw [forceSensor_measure, key, key]

/-- C114, concrete instance: two walls of three are measured, the inner facet is not. -/
example : (forceSensor "s" 1 ['a', '|', 'b'] (fun b : Fin 4 => (b : ℝ) + 1) 0).measure
    (⟨fun _ => 1, fun _ => 2, fun _ => ![1, 0], ![some ['a'], none, some ['b'], some ['c']]⟩ :
      HdgMesh 2 Unit (Fin 4)).integrateOver true = .ok [8, 0] := by
  rw [forceSensor_measure]
  simp [HdgMesh.integrateOver, HdgMesh.onRegion, Fin.sum_univ_four, splitBar]
  norm_num

theorem handedOver_eq (M : HdgMesh 2 V B) (body : Name) (x : HdgState 2 4 V B) (e : Fin 2 → ℝ) (k : ℝ)
    (v : B → ℝ) (h : ∀ b, M.onRegion body b = true → x.passing e b = -(k * v b)) :
    k * M.integrateOver v body = -x.handedOver M body e := by
  rw [HdgMesh.integrateOver, HdgState.handedOver, Finset.mul_sum, ← Finset.sum_neg_distrib]
  refine Finset.sum_congr rfl fun b _ => ?_
  split_ifs with hb
  · rw [h b hb]; ring
  · simp

/-- The body is an inviscid wall in the flow without viscosity `x`: `S` are the states in the elements
next to it. -/
structure AroundSlipping (cfg : FlowCfg) (rs : Riemann) (M : HdgMesh 2 V B) (body : Name)
    (x : HdgState 2 4 V B) (S : B → GasState 2) : Prop where
  inviscid : cfg.visc = .inviscid
  solver : rs ≠ .upwind
  viscous : ∀ b, M.onRegion body b = true → x.Gn b = 0
  unit : ∀ b, M.onRegion body b = true → M.normal b 0 ^ 2 + M.normal b 1 ^ 2 = 1
  gas : ∀ b, M.onRegion body b = true → IdealGas cfg.γ (S b)
  wall : ∀ b, M.onRegion body b = true → SlipWall cfg.γ rs (M.normal b) (S b) (x.Fn b)

/-- The body is an isothermal wall in the viscous flow `x`, whose condition is met by the states in the
elements next to it. -/
structure AroundStuck (cfg : FlowCfg) (rs : Riemann) (bc : Flow 2) (M : HdgMesh 2 V B) (body : Name)
    (x : HdgState 2 4 V B) (S : B → GasState 2) (Q : B → Fin 5 → ℝ) : Prop where
  accepted : cfg.Accepted
  viscous : cfg.visc ≠ .inviscid
  mach : 0 < cfg.Ma
  unit : ∀ b, M.onRegion body b = true → M.normal b 0 ^ 2 + M.normal b 1 ^ 2 = 1
  gas : ∀ b, M.onRegion body b = true → IdealGas cfg.γ (S b)
  wall : ∀ b, M.onRegion body b = true →
    StuckWall cfg rs bc (M.normal b) (S b) (Q b) (x.Fn b) (x.Gn b)

/-- **C114** The table of forces: a boundary sensor for drag and lift on a body with an inviscid wall
through which no gas moves in the elements, or with an isothermal wall whose condition is met in the
elements, writes exactly the momentum in the two directions that the body takes from the gas per time, over
the dynamic pressure of the reference, with the sign turned. What is missing is the sign (C54) and gas
that moves through the wall in the elements, see `C114_fails_through`. -/
theorem C114_sensor_partial {cfg : FlowCfg} {rs : Riemann} {bc : Flow 2} {M : HdgMesh 2 V B} {body : Name}
    {x : HdgState 2 4 V B} {S : B → GasState 2} {Q : B → Fin 5 → ℝ}
    (hx : (AroundSlipping cfg rs M body x S ∧
        ∀ b, M.onRegion body b = true → (S b).u ⬝ᵥ M.normal b = 0) ∨
      AroundStuck cfg rs bc M body x S Q)
    {R : GasState 2} (hR : IdealGas cfg.γ R) (hu : 0 < R.u ⬝ᵥ R.u)
    {drag lift : Fin 2 → ℝ} (hd : 0 < drag ⬝ᵥ drag) (hl : 0 < lift ⬝ᵥ lift) {cd cl : B → ℝ}
    (hcd : ∀ b, M.onRegion body b = true → forceCoefficient cfg (conservativeDict (S b))
      (strainHeatFields (Q b)) (conservativeDict R) (M.normal b) drag = .ok (cd b))
    (hcl : ∀ b, M.onRegion body b = true → forceCoefficient cfg (conservativeDict (S b))
      (strainHeatFields (Q b)) (conservativeDict R) (M.normal b) lift = .ok (cl b))
    (name : String) (rate : ℕ) (plain : Bool) :
    ∃ D L, (forceSensor name rate body cd cl).measure M.integrateOver plain = .ok [D, L] ∧
      D = -(x.handedOver M body drag / √(drag ⬝ᵥ drag) / (1 / 2 * R.rho * (R.u ⬝ᵥ R.u))) ∧
      L = -(x.handedOver M body lift / √(lift ⬝ᵥ lift) / (1 / 2 * R.rho * (R.u ⬝ᵥ R.u))) := by
  have key : ∀ e : Fin 2 → ℝ, 0 < e ⬝ᵥ e → ∀ v : B → ℝ,
      (∀ b, M.onRegion body b = true → forceCoefficient cfg (conservativeDict (S b))
        (strainHeatFields (Q b)) (conservativeDict R) (M.normal b) e = .ok (v b)) →
      M.integrateOver v body = -(x.handedOver M body e / √(e ⬝ᵥ e) / (1 / 2 * R.rho * (R.u ⬝ᵥ R.u))) := by
    intro e he v hv
    have hp : ∀ b, M.onRegion body b = true →
        x.passing e b = -(√(e ⬝ᵥ e) * (1 / 2 * R.rho * (R.u ⬝ᵥ R.u)) * v b) := by
      intro b hb
      rcases hx with ⟨hx, h0⟩ | hx
      · have := (C114_exact_iff hx.inviscid hx.solver (hx.gas b hb) hR hu (hx.unit b hb) he
          (hx.wall b hb) (hv b hb)).1.2 (Or.inl (h0 b hb))
        rw [← this, HdgState.passing, hx.viscous b hb]
        simp
      · exact C114_viscous hx.accepted hx.viscous hx.mach (hx.gas b hb) hR hu (hx.unit b hb) he
          (hx.wall b hb) (hv b hb)
    have h1 := handedOver_eq M body x e _ v hp
    have r0 := hR.rho_pos.ne'
    have s0 : √(e ⬝ᵥ e) ≠ 0 := (Real.sqrt_pos.2 he).ne'
    have u0 := hu.ne'
    rw [← neg_eq_iff_eq_neg.2 h1]
    field_simp
  exact ⟨_, _, forceSensor_measure M name rate body cd cl plain, key _ hd _ hcd, key _ hl _ hcl⟩

/-- **C114** In steady flow the reported drag balances what the gas loses elsewhere, through inflow, outflow and farfield and in
sponge layers: the force on the body can be read off far from it. -/
theorem C114_steady_partial {cfg : FlowCfg} {rs : Riemann} {bc : Flow 2} {M : HdgMesh 2 V B} {body : Name}
    {x : HdgState 2 4 V B} {S : B → GasState 2} {Q : B → Fin 5 → ℝ}
    (hx : (AroundSlipping cfg rs M body x S ∧
        ∀ b, M.onRegion body b = true → (S b).u ⬝ᵥ M.normal b = 0) ∨
      AroundStuck cfg rs bc M body x S Q)
    (mask : B → ℝ) (hmask : ∀ b, mask b = 0 ∨ mask b = 1)
    (hbody : ∀ b, M.onRegion body b = true → mask b = 0)
    (T : Set (HdgTest 2 4 V B)) (hT : HasConstants mask T) (s : Scheme) (dt : ℝ) (t : ℚ)
    (hRm : ∀ b, mask b = 1 → x.R b = 0) (h : hdgStep M mask T (s.quotient dt) t x x x)
    {R : GasState 2} (hR : IdealGas cfg.γ R) (hu : 0 < R.u ⬝ᵥ R.u)
    {drag : Fin 2 → ℝ} (hd : 0 < drag ⬝ᵥ drag) {cd : B → ℝ}
    (hcd : ∀ b, M.onRegion body b = true → forceCoefficient cfg (conservativeDict (S b))
      (strainHeatFields (Q b)) (conservativeDict R) (M.normal b) drag = .ok (cd b)) :
    M.integrateOver cd body
      = x.lostElsewhere M mask body drag / √(drag ⬝ᵥ drag) / (1 / 2 * R.rho * (R.u ⬝ᵥ R.u)) := by
  obtain ⟨D, L, hm, hD, -⟩ := C114_sensor_partial hx hR hu hd hd hcd hcd "" 1 false
  rw [forceSensor_measure] at hm
  simp only [Except.ok.injEq, List.cons.injEq] at hm
  have hb := C114_balance M mask hmask T hT s dt t x x x hRm h body hbody drag
  have h0 : s.quotient dt (x.momentumAlong M drag) (x.momentumAlong M drag) (x.momentumAlong M drag)
      = 0 := by
    cases s <;> simp only [Scheme.quotient, backwardEuler, backward2] <;> ring
  rw [h0] at hb
  rw [hm.1, hD, show x.handedOver M body drag = -x.lostElsewhere M mask body drag by linarith]
  ring

/-- **C114 fails** where gas moves through the wall in the elements, which the wall condition does not
exclude: if it moves into an inviscid wall whose normals point in the direction of the drag everywhere,
the body takes more momentum from the gas than the sensor reports, at every time step. -/
theorem C114_fails_through {cfg : FlowCfg} {rs : Riemann} {M : HdgMesh 2 V B} {body : Name}
    {x : HdgState 2 4 V B} {S : B → GasState 2} (hx : AroundSlipping cfg rs M body x S)
    (hw : ∀ b, 0 < M.wB b) (hne : ∃ b, M.onRegion body b = true)
    {R : GasState 2} (hR : IdealGas cfg.γ R) (hu : 0 < R.u ⬝ᵥ R.u)
    {drag : Fin 2 → ℝ} (hd : 0 < drag ⬝ᵥ drag)
    (hn : ∀ b, M.onRegion body b = true → 0 < M.normal b ⬝ᵥ drag)
    (hin : ∀ b, M.onRegion body b = true → 0 < (S b).u ⬝ᵥ M.normal b) {cd : B → ℝ} {dU : B → Grads 2}
    (hcd : ∀ b, M.onRegion body b = true → forceCoefficient cfg (conservativeDict (S b)) (dU b)
      (conservativeDict R) (M.normal b) drag = .ok (cd b)) :
    -M.integrateOver cd body
      < x.handedOver M body drag / √(drag ⬝ᵥ drag) / (1 / 2 * R.rho * (R.u ⬝ᵥ R.u)) := by
  have r0 := hR.rho_pos
  have s0 : 0 < √(drag ⬝ᵥ drag) := Real.sqrt_pos.2 hd
  have q0 : 0 < 1 / 2 * R.rho * (R.u ⬝ᵥ R.u) := by positivity
  rw [lt_div_iff₀ q0, lt_div_iff₀ s0, HdgMesh.integrateOver, HdgState.handedOver,
    ← Finset.sum_neg_distrib, Finset.sum_mul, Finset.sum_mul]
  have hpt : ∀ b, M.onRegion body b = true →
      -(M.wB b * cd b) * (1 / 2 * R.rho * (R.u ⬝ᵥ R.u)) * √(drag ⬝ᵥ drag) < M.wB b * x.passing drag b := by
    intro b hb
    have := (C114_exact_iff hx.inviscid hx.solver (hx.gas b hb) hR hu (hx.unit b hb) hd
      (hx.wall b hb) (hcd b hb)).2.1 (hn b hb) (hin b hb)
    rw [HdgState.passing, hx.viscous b hb]
    have := mul_lt_mul_of_pos_left this (hw b)
    simp only [Pi.zero_apply, sub_zero]
    linarith
  obtain ⟨b0, hb0⟩ := hne
  refine Finset.sum_lt_sum (fun b _ => ?_) ⟨b0, Finset.mem_univ _, ?_⟩
  · split_ifs with hb
    · exact (hpt b hb).le
    · simp
  · rw [if_pos hb0, if_pos hb0]
    exact hpt b0 hb0

/-! ### The hypotheses can be met -/

/-- **C114** At a wall every gas has a trace and a flux, and its coefficients are reported: inviscid walls
for every state, isothermal walls for gas at rest with the temperature of the wall. -/
theorem C114_exists {cfg : FlowCfg} (rs : Riemann) {S : GasState 2} (hS : IdealGas cfg.γ S) (R : GasState 2)
    {d : Fin 2 → ℝ} (hd : d 0 ^ 2 + d 1 ^ 2 = 1) (e : Fin 2 → ℝ) (Q : Fin 5 → ℝ) :
    (cfg.visc = .inviscid → (∃ f, SlipWall cfg.γ rs d S f) ∧
      ∃ v, forceCoefficient cfg (conservativeDict S) (strainHeatFields Q) (conservativeDict R) d e = .ok v) ∧
    (cfg.Accepted → cfg.visc ≠ .inviscid → 0 < cfg.Ma → S.u = 0 →
      (∃ f g, StuckWall cfg rs { T := some S.T } d S Q f g) ∧
      ∃ v, forceCoefficient cfg (conservativeDict S) (strainHeatFields Q) (conservativeDict R) d e = .ok v) := by
  have hp : pressure cfg.γ (conservativeDict S) = .ok S.p := by
    simp [conservativeDict, pressure, EOS.pressure, equation, equationE]
  have hk : kineticEnergy (conservativeDict R) = .ok R.rho_Ek := by
    simp [conservativeDict, kineticEnergy, equation, equationE]
  constructor
  · intro hv
    refine ⟨?_, ?_⟩
    · have hw : inviscidWallResidual cfg.γ d (conservativeDict S)
          (consVec S.rho (S.rho_u - (S.rho_u ⬝ᵥ d) • d) S.rho_E) = .ok 0 := by
        obtain ⟨h1, h2, h3⟩ := dictState cfg.γ S
        simp [inviscidWallResidual, h1, h2, h3, bind, Except.bind]
      obtain ⟨h1, h2⟩ := wall_flux rs hS hd hw
      exact ⟨_, _, _, hw, h1, h2⟩
    · have := stress_eq (S := S) (dU := strainHeatFields Q) hp (Or.inl ⟨hv, rfl⟩)
      simp [forceCoefficient, this, hk, bind, Except.bind]
  · intro ha hv hM hu
    refine ⟨?_, ?_⟩
    · obtain ⟨F, -, hg⟩ := C56_consistent ha hv hM hS Q (consVec S.rho S.rho_u S.rho_E) d
      refine ⟨_, _, ?_, C28_consistent rs hS hd _, hg⟩
      have hm : S.rho_u = fun _ => 0 := by rw [hS.momentum, hu]; funext i; simp
      have hE : S.rho_E = S.rho * S.T / cfg.γ := by
        have : cfg.γ ≠ 0 := by linarith [hS.gamma]
        rw [hS.rho_E, hS.total, hS.kinetic, hS.caloric, hu]
        simp
        field_simp
      simp [isothermalWallResidual, conservativeDict, given, density, EOS.density, momentum, innerEnergy,
        EOS.innerEnergy, equation, equationE, bind, Except.bind, hm, hE]
    · obtain ⟨F, μ, r, -, hμ, hr, -⟩ := C55_strain_heat_partial ha hv hM hS Q d
      have hτ : deviatoricStressTensor cfg (conservativeDict S) (strainHeatFields Q)
          = .ok ((2 * μ / r) • !![Q 0, Q 1; Q 1, Q 2]) := by
        simp [deviatoricStressTensor, hμ, hr, strainRateTensor, strainHeatFields, equation, equationE,
          bind, Except.bind]
      have := stress_eq (S := S) (dU := strainHeatFields Q) hp (Or.inr ⟨hv, hτ⟩)
      simp [forceCoefficient, this, hk, bind, Except.bind]

/-- Air without viscosity. -/
def slipCfg : FlowCfg := { demoCfg with visc := .inviscid, γ := 7 / 5 }

/-- C114, concrete instance: gas that moves obliquely into a wall; the sensor reports too little. -/
example : ∃ (x : HdgState 2 4 Unit Unit) (cd : Unit → ℝ),
    let M : HdgMesh 2 Unit Unit := ⟨fun _ => 1, fun _ => 2, fun _ => ![1, 0], fun _ => some ['w']⟩
    let S : GasState 2 := GasState.of (7 / 5) 1 ![1, 2] 1
    AroundSlipping slipCfg .roe M ['w'] x (fun _ => S) ∧
    forceCoefficient slipCfg (conservativeDict S) (strainHeatFields 0) (conservativeDict S) ![1, 0] ![1, 0]
      = .ok (cd ()) ∧ 0 < S.u ⬝ᵥ M.normal () ∧
    -M.integrateOver cd ['w']
      < x.handedOver M ['w'] ![1, 0] / √(![1, 0] ⬝ᵥ ![1, 0]) / (1 / 2 * S.rho * (S.u ⬝ᵥ S.u)) := by
  have hS : IdealGas slipCfg.γ (GasState.of (7 / 5) 1 ![1, 2] 1 : GasState 2) :=
    IdealGas.of (γ := 7 / 5) (by norm_num) (by norm_num) (by norm_num)
  obtain ⟨⟨f, hf⟩, v, hv⟩ := (C114_exists (cfg := slipCfg) .roe hS (GasState.of (7 / 5) 1 ![1, 2] 1)
    (d := ![1, 0]) (by simp) ![1, 0] 0).1 rfl
  have hx : AroundSlipping slipCfg .roe
      (⟨fun _ => 1, fun _ => 2, fun _ => ![1, 0], fun _ => some ['w']⟩ : HdgMesh 2 Unit Unit) ['w']
      ⟨0, 0, 0, fun _ => f, 0, 0, 0⟩ (fun _ => GasState.of (7 / 5) 1 ![1, 2] 1) :=
    ⟨rfl, by simp, fun _ _ => rfl, fun _ _ => by simp, fun _ _ => hS, fun _ _ => hf⟩
  have hu : 0 < (GasState.of (7 / 5) 1 ![1, 2] 1 : GasState 2).u ⬝ᵥ ![1, 0] := by simp [GasState.of]
  refine ⟨_, fun _ => v, hx, hv, hu, ?_⟩
  exact C114_fails_through hx (fun _ => by norm_num) ⟨(), by decide⟩ hS
    (by simp [GasState.of, dotProduct, Fin.sum_univ_two]; norm_num) (by simp) (fun _ _ => by simp)
    (fun _ _ => hu) (fun _ _ => hv)

/-- C114, concrete instance: gas that flows along a channel between two walls, in steady flow; the force
on one wall is read off at the other. -/
example : ∃ (x : HdgState 2 4 Unit Bool) (cd : Bool → ℝ),
    let M : HdgMesh 2 Unit Bool := ⟨fun _ => 1, fun _ => 1, fun b => ![if b then 1 else -1, 0],
      fun b => some (if b then ['w'] else ['v'])⟩
    let S : GasState 2 := GasState.of (7 / 5) 1 ![0, 2] 1
    M.integrateOver cd ['w']
      = x.lostElsewhere M 0 ['w'] ![1, 0] / √(![1, 0] ⬝ᵥ ![1, 0]) / (1 / 2 * S.rho * (S.u ⬝ᵥ S.u)) ∧
    M.integrateOver cd ['w'] = -(1 / 5) := by
  have hS : IdealGas slipCfg.γ (GasState.of (7 / 5) 1 ![0, 2] 1 : GasState 2) :=
    IdealGas.of (γ := 7 / 5) (by norm_num) (by norm_num) (by norm_num)
  have hn : ∀ b : Bool, (![if b then 1 else -1, 0] : Fin 2 → ℝ) 0 ^ 2
      + (![if b then 1 else -1, 0] : Fin 2 → ℝ) 1 ^ 2 = 1 := by
    intro b; cases b <;> simp
  have hex := fun b : Bool => (C114_exists (cfg := slipCfg) .roe hS (GasState.of (7 / 5) 1 ![0, 2] 1)
    (hn b) ![1, 0] 0).1 rfl
  choose f hf using fun b => (hex b).1
  choose v hv using fun b => (hex b).2
  have hfl : ∀ b, f b = ![0, (if b then 1 else -1) * (2 / 5), 0, 0] := by
    intro b
    obtain ⟨c, -, -, h⟩ := slip_flux (by simp) hS (hn b) (hf b)
    rw [h]
    funext i
    cases b <;> fin_cases i <;> simp [GasState.of] <;> norm_num
  have hu : 0 < (GasState.of (7 / 5) 1 ![0, 2] 1 : GasState 2).u ⬝ᵥ
      (GasState.of (7 / 5) 1 ![0, 2] 1 : GasState 2).u := by
    simp [GasState.of, dotProduct, Fin.sum_univ_two]
  set M : HdgMesh 2 Unit Bool := ⟨fun _ => 1, fun _ => 1, fun b => ![if b then 1 else -1, 0],
      fun b => some (if b then ['w'] else ['v'])⟩ with hM
  set x : HdgState 2 4 Unit Bool := ⟨0, 0, 0, f, 0, 0, 0⟩ with hxd
  have hx : AroundSlipping slipCfg .roe M ['w'] x (fun _ => GasState.of (7 / 5) 1 ![0, 2] 1) :=
    ⟨rfl, by simp, fun _ _ => rfl, fun b _ => hn b, fun _ _ => hS, fun b _ => hf b⟩
  have hT : HasConstants (n := 2) (k := 4) (V := Unit) (B := Bool) 0 (Set.range (constantTest 0)) :=
    fun i => ⟨i, rfl⟩
  have hstep : hdgStep M 0 (Set.range (constantTest 0)) (Scheme.implicitEuler.quotient 1) 0 x x x := by
    rintro φ ⟨i, rfl⟩
    simp only [timeForm, convectionForm, diffusionForm, boundaryForm, constantTest, frobenius,
      Scheme.quotient, backwardEuler, hM, hxd]
    simp [hfl]
    fin_cases i <;> simp
  have he : (0 : ℝ) < ![1, 0] ⬝ᵥ ![1, 0] := by simp
  have h0 : ∀ b : Bool, (GasState.of (7 / 5) 1 ![0, 2] 1 : GasState 2).u ⬝ᵥ M.normal b = 0 := by
    intro b; simp [GasState.of, hM]
  refine ⟨x, v, ?_, ?_⟩
  · exact C114_steady_partial (bc := {}) (S := fun _ => GasState.of (7 / 5) 1 ![0, 2] 1) (Q := fun _ => 0)
      (Or.inl ⟨hx, fun b _ => h0 b⟩) 0 (fun _ => Or.inl rfl) (fun _ _ => rfl) _ hT .implicitEuler 1 0
      (fun b hb => by simp at hb) hstep hS hu he (fun b _ => hv b)
  · have := coefficient_force hS hS hu (Or.inl ⟨rfl, rfl⟩) he (hv true)
    have hv' : v true = -(1 / 5) := by
      simp [GasState.of, dotProduct, Fin.sum_univ_two] at this
      norm_num at this
      linarith
    have r1 : M.onRegion ['w'] true = true := by decide
    have r2 : M.onRegion ['w'] false = false := by decide
    rw [HdgMesh.integrateOver, Fintype.sum_bool, if_pos r1, if_neg (by rw [r2]; simp), hv']
    show (1 : ℝ) * -(1 / 5) + 0 = _
    norm_num

end Dream

end
