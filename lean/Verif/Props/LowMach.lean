import Verif.Model.Examples
import Verif.Spec.Potential
import Verif.Props.ExactFlows
import Verif.Props.Farfield
import Verif.Props.Reference
import Mathlib.Analysis.SpecialFunctions.Pow.Deriv
import Mathlib.Analysis.Calculus.DSlope

/-!
# C107: what the cylinder example is compared with
-/

noncomputable section

namespace Dream
open Matrix Spec

variable {γ : ℝ}

/-- The doublet along a curve. -/
theorem doublet_deriv {a : ℝ} {X Y : ℝ → ℝ} {s α β : ℝ} (hX : HasDerivAt X α s)
    (hY : HasDerivAt Y β s) (h : X s ^ 2 + Y s ^ 2 ≠ 0) :
    HasDerivAt (fun s => 1 - a ^ 2 * (X s ^ 2 - Y s ^ 2) / (X s ^ 2 + Y s ^ 2) ^ 2)
      (2 * a ^ 2 * ((X s ^ 3 - 3 * X s * Y s ^ 2) * α + (3 * X s ^ 2 * Y s - Y s ^ 3) * β)
        / (X s ^ 2 + Y s ^ 2) ^ 3) s ∧
    HasDerivAt (fun s => -(a ^ 2 * (2 * X s * Y s) / (X s ^ 2 + Y s ^ 2) ^ 2))
      (2 * a ^ 2 * ((3 * X s ^ 2 * Y s - Y s ^ 3) * α - (X s ^ 3 - 3 * X s * Y s ^ 2) * β)
        / (X s ^ 2 + Y s ^ 2) ^ 3) s := by
  have h2 : (X s ^ 2 + Y s ^ 2) ^ 2 ≠ 0 := pow_ne_zero _ h
  have hd := ((hX.pow 2).add (hY.pow 2)).pow 2
  constructor
  · have hn := ((hX.pow 2).sub (hY.pow 2)).const_mul (a ^ 2)
    refine ((hn.div hd h2).const_sub 1).congr_deriv ?_
    simp only [Pi.add_apply, Pi.pow_apply, Pi.sub_apply]
    field_simp
    norm_num
    ring
  · have hn := ((hX.const_mul 2).mul hY).const_mul (a ^ 2)
    refine ((hn.div hd h2).neg).congr_deriv ?_
    simp only [Pi.add_apply, Pi.pow_apply, Pi.mul_apply]
    field_simp
    norm_num
    ring

/-- The coordinates along the lines parallel to the axes. -/
theorem axis_line (x : Fin 2 → ℝ) (j k : Fin 2) :
    HasDerivAt (fun s : ℝ => (x + s • (Pi.single j 1 : Fin 2 → ℝ)) k)
      ((Pi.single j 1 : Fin 2 → ℝ) k) 0 := by
  simpa using ((hasDerivAt_id (0 : ℝ)).mul_const ((Pi.single j 1 : Fin 2 → ℝ) k)).const_add (x k)

/-- **C107** The reference flow of the cylinder example: the superposition of the uniform flow and a
doublet, with Bernoulli's pressure, satisfies the equations of incompressible flow without rotation
everywhere outside the origin. -/
theorem C107_potential (V a ρ p0 : ℝ) {x : Fin 2 → ℝ} (hx : x ≠ 0) :
    SolvesIncompressible ρ (cylinderVelocity V a) (bernoulli ρ p0 V (cylinderVelocity V a)) x := by
  have hr : x 0 ^ 2 + x 1 ^ 2 ≠ 0 := by
    intro h
    apply hx
    funext i
    fin_cases i
    · show x 0 = 0
      nlinarith [sq_nonneg (x 0), sq_nonneg (x 1)]
    · show x 1 = 0
      nlinarith [sq_nonneg (x 0), sq_nonneg (x 1)]
  obtain ⟨P, hP⟩ : ∃ P, P = 2 * a ^ 2 * (x 0 ^ 3 - 3 * x 0 * x 1 ^ 2) / (x 0 ^ 2 + x 1 ^ 2) ^ 3 :=
    ⟨_, rfl⟩
  obtain ⟨Q, hQ⟩ : ∃ Q, Q = 2 * a ^ 2 * (3 * x 0 ^ 2 * x 1 - x 1 ^ 3) / (x 0 ^ 2 + x 1 ^ 2) ^ 3 :=
    ⟨_, rfl⟩
  have hline : ∀ j : Fin 2,
      HasDerivAt (fun s : ℝ => cylinderVelocity V a (x + s • Pi.single j 1) 0)
        (V * (P * (Pi.single j 1 : Fin 2 → ℝ) 0 + Q * (Pi.single j 1 : Fin 2 → ℝ) 1)) 0 ∧
      HasDerivAt (fun s : ℝ => cylinderVelocity V a (x + s • Pi.single j 1) 1)
        (V * (Q * (Pi.single j 1 : Fin 2 → ℝ) 0 - P * (Pi.single j 1 : Fin 2 → ℝ) 1)) 0 := by
    intro j
    have h := doublet_deriv (a := a) (axis_line x j 0) (axis_line x j 1) (by simpa using hr)
    simp only [zero_smul, add_zero] at h
    refine ⟨(h.1.const_mul V).congr_deriv ?_, (h.2.const_mul V).congr_deriv ?_⟩
    · rw [hP, hQ]
      field_simp
    · rw [hP, hQ]
      field_simp
  refine ⟨!![V * P, V * Q; V * Q, -(V * P)],
    ![-(ρ * (V * P * cylinderVelocity V a x 0 + V * Q * cylinderVelocity V a x 1)),
      -(ρ * (V * Q * cylinderVelocity V a x 0 - V * P * cylinderVelocity V a x 1))],
    fun i j => ?_, fun j => ?_, by simp, by simp, fun i => ?_⟩
  · have h := hline j
    fin_cases i
    · refine h.1.congr_deriv ?_
      fin_cases j <;> simp
    · refine h.2.congr_deriv ?_
      fin_cases j <;> simp
  · have h := hline j
    have e : (fun s : ℝ => bernoulli ρ p0 V (cylinderVelocity V a) (x + s • Pi.single j 1))
        = fun s : ℝ => p0 + ρ / 2 * (V ^ 2
          - (((fun s : ℝ => cylinderVelocity V a (x + s • Pi.single j 1) 0) *
                fun s : ℝ => cylinderVelocity V a (x + s • Pi.single j 1) 0)
            + (fun s : ℝ => cylinderVelocity V a (x + s • Pi.single j 1) 1) *
                fun s : ℝ => cylinderVelocity V a (x + s • Pi.single j 1) 1) s) := by
      funext s
      simp only [bernoulli, dotProduct, Fin.sum_univ_two, Pi.add_apply, Pi.mul_apply]
    rw [e]
    refine (((((h.1.mul h.1).add (h.2.mul h.2)).const_sub (V ^ 2)).const_mul
      (ρ / 2)).const_add p0).congr_deriv ?_
    simp only [zero_smul, add_zero]
    generalize cylinderVelocity V a x 0 = w0
    generalize cylinderVelocity V a x 1 = w1
    fin_cases j
    · simp
      ring
    · simp
      ring
  · fin_cases i
    · simp [mulVec, dotProduct, Fin.sum_univ_two]
    · simp [mulVec, dotProduct, Fin.sum_univ_two]
      ring

/-- **C107** The circle is a streamline of the reference flow, and the pressure coefficient on it is
the formula of the example, whatever the radius, the density, the pressure and the speed. -/
theorem C107_surface {V a ρ : ℝ} (hV : V ≠ 0) (ha : a ≠ 0) (hρ : ρ ≠ 0) (p0 φ : ℝ) :
    cylinderVelocity V a ![a * Real.cos φ, a * Real.sin φ] ⬝ᵥ ![Real.cos φ, Real.sin φ] = 0 ∧
    (bernoulli ρ p0 V (cylinderVelocity V a) ![a * Real.cos φ, a * Real.sin φ] - p0)
      / (1 / 2 * ρ * V ^ 2) = exactCp φ ∧
    cylinderVelocity V a ![a * Real.cos φ, a * Real.sin φ]
      ⬝ᵥ cylinderVelocity V a ![a * Real.cos φ, a * Real.sin φ] = (2 * V * Real.sin φ) ^ 2 := by
  have hcs := Real.cos_sq_add_sin_sq φ
  have hr : (a * Real.cos φ) ^ 2 + (a * Real.sin φ) ^ 2 = a ^ 2 := by
    linear_combination a ^ 2 * hcs
  have h0 : cylinderVelocity V a ![a * Real.cos φ, a * Real.sin φ]
      = ![V * (2 * Real.sin φ ^ 2), V * -(2 * Real.cos φ * Real.sin φ)] := by
    funext i
    fin_cases i
    · show V * (1 - a ^ 2 * ((a * Real.cos φ) ^ 2 - (a * Real.sin φ) ^ 2)
        / ((a * Real.cos φ) ^ 2 + (a * Real.sin φ) ^ 2) ^ 2) = V * (2 * Real.sin φ ^ 2)
      rw [hr]
      field_simp
      linear_combination -hcs
    · show V * -(a ^ 2 * (2 * (a * Real.cos φ) * (a * Real.sin φ))
        / ((a * Real.cos φ) ^ 2 + (a * Real.sin φ) ^ 2) ^ 2) = V * -(2 * Real.cos φ * Real.sin φ)
      rw [hr]
      field_simp
  have hsq : ![V * (2 * Real.sin φ ^ 2), V * -(2 * Real.cos φ * Real.sin φ)]
      ⬝ᵥ ![V * (2 * Real.sin φ ^ 2), V * -(2 * Real.cos φ * Real.sin φ)]
      = (2 * V * Real.sin φ) ^ 2 := by
    simp [dotProduct, Fin.sum_univ_two]
    linear_combination 4 * V ^ 2 * Real.sin φ ^ 2 * hcs
  refine ⟨?_, ?_, ?_⟩
  · rw [h0]
    simp [dotProduct, Fin.sum_univ_two]
    ring
  · rw [bernoulli, h0, hsq, exactCp]
    field_simp
    ring
  · rw [h0, hsq]

/-- The cubes are bounded by the square of the distance. -/
theorem doublet_small {X Y : ℝ} (h : 0 < X ^ 2 + Y ^ 2) :
    |(X ^ 2 - Y ^ 2) / (X ^ 2 + Y ^ 2) ^ 2| ≤ 1 / (X ^ 2 + Y ^ 2) ∧
    |2 * X * Y / (X ^ 2 + Y ^ 2) ^ 2| ≤ 1 / (X ^ 2 + Y ^ 2) := by
  have h2 : 0 < (X ^ 2 + Y ^ 2) ^ 2 := by positivity
  have e : ∀ n : ℝ, |n| ≤ X ^ 2 + Y ^ 2 → |n / (X ^ 2 + Y ^ 2) ^ 2| ≤ 1 / (X ^ 2 + Y ^ 2) := by
    intro n hn
    rw [abs_div, abs_of_pos h2, div_le_div_iff₀ h2 h]
    nlinarith [abs_nonneg n]
  refine ⟨e _ (abs_le.2 ⟨?_, ?_⟩), e _ (abs_le.2 ⟨?_, ?_⟩)⟩ <;>
    nlinarith [sq_nonneg X, sq_nonneg Y, sq_nonneg (X + Y), sq_nonneg (X - Y)]

/-- **C107** Far away the reference flow is the uniform flow: the velocities differ by at most
`V a² / |x|²` in each component. -/
theorem C107_far (V a : ℝ) {x : Fin 2 → ℝ} (hx : 0 < x ⬝ᵥ x) (i : Fin 2) :
    |cylinderVelocity V a x i - (![V, 0] : Fin 2 → ℝ) i| ≤ |V| * a ^ 2 / (x ⬝ᵥ x) := by
  have e : x ⬝ᵥ x = x 0 ^ 2 + x 1 ^ 2 := by
    simp [dotProduct, Fin.sum_univ_two, sq]
  rw [e] at hx ⊢
  obtain ⟨h1, h2⟩ := doublet_small hx
  have k : ∀ n : ℝ, |n| ≤ 1 / (x 0 ^ 2 + x 1 ^ 2) →
      |V * (a ^ 2 * n)| ≤ |V| * a ^ 2 / (x 0 ^ 2 + x 1 ^ 2) := by
    intro n hn
    rw [abs_mul, abs_mul, abs_of_nonneg (sq_nonneg a), mul_div_assoc]
    refine mul_le_mul_of_nonneg_left ?_ (abs_nonneg V)
    rw [div_eq_mul_one_div]
    exact mul_le_mul_of_nonneg_left hn (sq_nonneg a)
  fin_cases i
  · show |V * (1 - a ^ 2 * (x 0 ^ 2 - x 1 ^ 2) / (x 0 ^ 2 + x 1 ^ 2) ^ 2) - V| ≤ _
    rw [← abs_neg]
    refine le_of_eq_of_le (congrArg _ ?_) (k _ h1)
    ring
  · show |V * -(a ^ 2 * (2 * x 0 * x 1) / (x 0 ^ 2 + x 1 ^ 2) ^ 2) - 0| ≤ _
    rw [← abs_neg]
    refine le_of_eq_of_le (congrArg _ ?_) (k _ h2)
    ring

/-- Relations between two states of the same entropy. -/
theorem isentropic_pressure {S S0 : GasState 2} (hS : IdealGas γ S) (h0 : IdealGas γ S0)
    (hs : S.p / S.rho ^ γ = S0.p / S0.rho ^ γ) :
    S.p = S0.p * (S.T / S0.T) ^ (γ / (γ - 1)) := by
  have hγ := hS.gamma
  have g1 : 0 < γ - 1 := by linarith
  have g0 : 0 < γ := by linarith
  have r := hS.rho_pos
  have r0 := h0.rho_pos
  have t := hS.T_pos
  have t0 := h0.T_pos
  have p0 : 0 < S0.p := by rw [h0.gas_law]; positivity
  have hr : 0 < S.rho / S0.rho := by positivity
  have e1 : S.p = S0.p * (S.rho / S0.rho) ^ γ := by
    rw [Real.div_rpow r.le r0.le]
    have a := (Real.rpow_pos_of_pos r γ).ne'
    have b := (Real.rpow_pos_of_pos r0 γ).ne'
    rw [div_eq_div_iff a b] at hs
    field_simp
    linear_combination hs
  have e2 : S.p = S0.p * ((S.rho / S0.rho) * (S.T / S0.T)) := by
    rw [hS.gas_law, h0.gas_law]
    field_simp
  have e3 : (S.rho / S0.rho) ^ (γ - 1) = S.T / S0.T := by
    have h1 : (S.rho / S0.rho) ^ γ = (S.rho / S0.rho) * (S.T / S0.T) :=
      mul_left_cancel₀ p0.ne' (e1.symm.trans e2)
    rw [Real.rpow_sub_one hr.ne', h1]
    field_simp
  rw [e1, ← e3, ← Real.rpow_mul hr.le]
  congr 2
  field_simp

/-- **C107** Bernoulli's equation for the gas: where the flow has the entropy and the total enthalpy
of the farfield, the sensor of the example records this function of the Mach number and of the
speed relative to the farfield. In every scaling. -/
theorem C107_bernoulli {cfg : FlowCfg} (h : cfg.Accepted) (hMa : 0 < cfg.Ma) {S S0 : GasState 2}
    (hS : IdealGas cfg.γ S) (h0 : IdealGas cfg.γ S0) {F U : Flow 2}
    (hF : getFarfieldState cfg 2 ![1, 0] = .ok F)
    (hr : F.rho = some S0.rho) (hu : F.u = some S0.u) (hp : F.p = some S0.p)
    (hs : SameStream cfg.γ S S0) (hU : U.From S) {cp : ℝ} (hv : cylinderSensor cfg U = .ok cp) :
    cp = 2 / (cfg.γ * cfg.Ma ^ 2) * ((1 + (cfg.γ - 1) / 2 * cfg.Ma ^ 2
      * (1 - (S.u ⬝ᵥ S.u) / (S0.u ⬝ᵥ S0.u))) ^ (cfg.γ / (cfg.γ - 1)) - 1) := by
  have hγ := h.gamma
  have g1 : 0 < cfg.γ - 1 := by linarith
  have g0 : 0 < cfg.γ := by linarith
  have hc := farC_pos h
  have hd : (![1, 0] : Fin 2 → ℝ) ≠ 0 := by
    intro e
    have := congrFun e 0
    simp at this
  rw [farfield_eq h] at hF
  cases hF
  have er : S0.rho = 1 := (Option.some.inj hr).symm
  have eu : S0.u = (farState cfg ![1, 0]).u := (Option.some.inj hu).symm
  have ep : S0.p = (farState cfg ![1, 0]).p := (Option.some.inj hp).symm
  have hpv : S0.p = farC cfg ^ 2 / cfg.γ := by
    rw [ep]
    simp only [farState, GasState.of]
    field_simp
  have huu : S0.u ⬝ᵥ S0.u = cfg.Ma ^ 2 * farC cfg ^ 2 := by
    rw [eu]
    simp only [farState, GasState.of, smul_dotProduct, dotProduct_smul, smul_eq_mul, unit_norm hd]
    ring
  have hT0 : S0.T = farC cfg ^ 2 / (cfg.γ - 1) := by
    have := h0.gas_law
    rw [hpv, er] at this
    field_simp at this ⊢
    linear_combination -this
  have hH : ∀ {S : GasState 2}, IdealGas cfg.γ S → S.H = S.T + (S.u ⬝ᵥ S.u) / 2 := by
    intro S hS
    rw [hS.enthalpy, hS.total, hS.kinetic, hS.gas_law, hS.caloric]
    have := hS.rho_pos.ne'
    field_simp
    ring
  have hTT : S.T / S0.T = 1 + (cfg.γ - 1) / 2 * cfg.Ma ^ 2
      * (1 - (S.u ⬝ᵥ S.u) / (S0.u ⬝ᵥ S0.u)) := by
    have e := hs.2
    rw [hH hS, hH h0, huu, hT0] at e
    rw [hT0, huu]
    field_simp
    field_simp at e
    linear_combination e
  have hfrom : (farDict (farState cfg ![1, 0])).From (farState cfg ![1, 0]) := by
    constructor <;> intro v hv <;> first
      | exact (Option.some.inj hv).symm
      | exact absurd hv (by simp [farDict])
  rw [cylinderSensor, farfield_eq h] at hv
  have hcp := C54_pressure_coefficient hS (farState_ideal h ![1, 0]) hU hfrom hv
  rw [hcp, ← ep, ← eu, show (farState cfg ![1, 0]).rho = 1 from rfl, ← hTT,
    isentropic_pressure hS h0 hs.1, huu, hpv]
  field_simp

open Filter Topology in
/-- The limit of the formula of `C107_bernoulli`. -/
theorem bernoulli_limit (hγ : 1 < γ) {l : Filter ℝ} {M k : ℝ → ℝ} {k0 : ℝ}
    (hM : Tendsto M l (𝓝 0)) (hM0 : ∀ᶠ s in l, M s ≠ 0) (hk : Tendsto k l (𝓝 k0)) :
    Tendsto (fun s => 2 / (γ * M s ^ 2) * ((1 + (γ - 1) / 2 * M s ^ 2 * k s) ^ (γ / (γ - 1)) - 1)) l
      (𝓝 k0) := by
  have g1 : γ - 1 ≠ 0 := by linarith
  have g0 : γ ≠ 0 := by linarith
  have hd : HasDerivAt (fun z : ℝ => (1 + z) ^ (γ / (γ - 1))) (γ / (γ - 1)) 0 := by
    have := ((hasDerivAt_id (0 : ℝ)).const_add 1).rpow_const (p := γ / (γ - 1))
      (Or.inl (by simp))
    simpa using this
  have hcont : Tendsto (dslope (fun z : ℝ => (1 + z) ^ (γ / (γ - 1))) 0) (𝓝 0)
      (𝓝 (γ / (γ - 1))) := by
    have h1 : ContinuousAt (dslope (fun z : ℝ => (1 + z) ^ (γ / (γ - 1))) 0) 0 :=
      continuousAt_dslope_same.2 hd.differentiableAt
    have h2 := h1.tendsto
    rwa [dslope_same, hd.deriv] at h2
  have hz : Tendsto (fun s => (γ - 1) / 2 * M s ^ 2 * k s) l (𝓝 0) := by
    have := ((hM.pow 2).const_mul ((γ - 1) / 2)).mul hk
    simpa using this
  have hlim := ((hcont.comp hz).mul_const ((γ - 1) / γ)).mul hk
  rw [show γ / (γ - 1) * ((γ - 1) / γ) * k0 = k0 by field_simp] at hlim
  refine hlim.congr' ?_
  filter_upwards [hM0] with s hs
  have e := sub_smul_dslope (fun z : ℝ => (1 + z) ^ (γ / (γ - 1))) 0
    ((γ - 1) / 2 * M s ^ 2 * k s)
  simp only [smul_eq_mul, sub_zero, add_zero, Real.one_rpow] at e
  show dslope (fun z : ℝ => (1 + z) ^ (γ / (γ - 1))) 0 ((γ - 1) / 2 * M s ^ 2 * k s)
    * ((γ - 1) / γ) * k s = _
  rw [← e]
  field_simp

open Filter Topology in
/-- **C107** The limit of small Mach numbers, in which the example is run: consider flows of the gas
around the cylinder for Mach numbers tending to zero and, in each of them, the state `S M` at a point
of the surface, with the entropy and the total enthalpy of the farfield `S0 M`. If the speed there,
relative to the farfield, tends to that of the reference flow at the angle `φ`, the recorded pressure
coefficients tend to the formula the example compares them with. -/
theorem C107_low_mach {cfg : FlowCfg} (h : cfg.Accepted) (S S0 : ℝ → GasState 2) (F U : ℝ → Flow 2)
    (cp : ℝ → ℝ) {ε : ℝ} (hε : 0 < ε) (hS : ∀ M ∈ Set.Ioo 0 ε, IdealGas cfg.γ (S M)) (h0 : ∀ M ∈ Set.Ioo 0 ε, IdealGas cfg.γ (S0 M))
    (hF : ∀ M ∈ Set.Ioo 0 ε, getFarfieldState { cfg with Ma := M } 2 ![1, 0] = .ok (F M))
    (hr : ∀ M ∈ Set.Ioo 0 ε, (F M).rho = some (S0 M).rho) (hu : ∀ M ∈ Set.Ioo 0 ε, (F M).u = some (S0 M).u)
    (hp : ∀ M ∈ Set.Ioo 0 ε, (F M).p = some (S0 M).p) (hs : ∀ M ∈ Set.Ioo 0 ε, SameStream cfg.γ (S M) (S0 M))
    (hU : ∀ M ∈ Set.Ioo 0 ε, (U M).From (S M))
    (hv : ∀ M ∈ Set.Ioo 0 ε, cylinderSensor { cfg with Ma := M } (U M) = .ok (cp M)) (φ : ℝ)
    (hq : Tendsto (fun M => ((S M).u ⬝ᵥ (S M).u) / ((S0 M).u ⬝ᵥ (S0 M).u)) (𝓝[>] 0)
      (𝓝 ((cylinderVelocity 1 1 ![Real.cos φ, Real.sin φ])
        ⬝ᵥ (cylinderVelocity 1 1 ![Real.cos φ, Real.sin φ])))) :
    Tendsto cp (𝓝[>] 0) (𝓝 (exactCp φ)) := by
  have hw := (C107_surface (V := 1) (a := 1) (ρ := 1) one_ne_zero one_ne_zero one_ne_zero 0 φ).2.2
  simp only [one_mul, mul_one] at hw
  rw [hw] at hq
  have hpos : ∀ᶠ M : ℝ in 𝓝[>] 0, M ∈ Set.Ioo 0 ε := Ioo_mem_nhdsGT hε
  have hlim := bernoulli_limit h.gamma (tendsto_nhdsWithin_of_tendsto_nhds tendsto_id)
    (hpos.mono fun M hM => hM.1.ne') (hq.const_sub 1)
  have he : 1 - (2 * Real.sin φ) ^ 2 = exactCp φ := by
    rw [exactCp]
    ring
  rw [he] at hlim
  refine hlim.congr' ?_
  filter_upwards [hpos] with M hM
  have hA : ({ cfg with Ma := M } : FlowCfg).Accepted :=
    ⟨h.gamma, hM.1.le, fun _ => hM.1, h.reynolds, h.prandtl, h.tref, h.tm⟩
  exact (C107_bernoulli hA hM.1 (hS M hM) (h0 M hM) (hF M hM) (hr M hM) (hu M hM) (hp M hM) (hs M hM)
    (hU M hM) (hv M hM)).symm


/-- A state with a given velocity and the entropy and total enthalpy of the farfield exists unless the
velocity is so large that the temperature would not be positive. -/
theorem stream_state {cfg : FlowCfg} (h : cfg.Accepted) (d u : Fin 2 → ℝ)
    (hT : u ⬝ᵥ u / 2 < (farState cfg d).H) :
    ∃ S : GasState 2, IdealGas cfg.γ S ∧ S.u = u ∧ SameStream cfg.γ S (farState cfg d) := by
  have hγ := h.gamma
  have g1 : 0 < cfg.γ - 1 := by linarith
  have g0 : 0 < cfg.γ := by linarith
  have hc := farC_pos h
  obtain ⟨e, he⟩ : ∃ e, e = ((farState cfg d).H - u ⬝ᵥ u / 2) / cfg.γ := ⟨_, rfl⟩
  have hep : 0 < e := by rw [he]; exact div_pos (by linarith) g0
  obtain ⟨A, hA⟩ : ∃ A, A = (cfg.γ - 1) * (farC cfg ^ 2 / (cfg.γ * (cfg.γ - 1))) := ⟨_, rfl⟩
  have hAp : 0 < A := by rw [hA]; positivity
  obtain ⟨r, hr⟩ : ∃ r, r = ((cfg.γ - 1) * e / A) ^ (1 / (cfg.γ - 1)) := ⟨_, rfl⟩
  have hb : 0 < (cfg.γ - 1) * e / A := by positivity
  have hrp : 0 < r := by rw [hr]; exact Real.rpow_pos_of_pos hb _
  refine ⟨GasState.of cfg.γ r u e, IdealGas.of hγ hrp hep, rfl, ?_, ?_⟩
  · have e1 : r ^ (cfg.γ - 1) = (cfg.γ - 1) * e / A := by
      rw [hr, ← Real.rpow_mul hb.le, one_div_mul_cancel g1.ne', Real.rpow_one]
    have e2 : r ^ cfg.γ = r * ((cfg.γ - 1) * e / A) := by
      rw [← e1, Real.rpow_sub_one hrp.ne']
      field_simp
    show (cfg.γ - 1) * (r * e) / r ^ cfg.γ
      = (cfg.γ - 1) * (1 * (farC cfg ^ 2 / (cfg.γ * (cfg.γ - 1)))) / 1 ^ cfg.γ
    rw [e2, Real.one_rpow, one_mul, ← hA]
    field_simp
  · show cfg.γ * e + u ⬝ᵥ u / 2 = (farState cfg d).H
    rw [he]
    field_simp
    ring

/-- A function on the plane, differentiable at a point, along a curve through it. -/
theorem along_curve {f : (Fin 2 → ℝ) → ℝ} {x : Fin 2 → ℝ} (hf : DifferentiableAt ℝ f x)
    {X : ℝ → Fin 2 → ℝ} {s : ℝ} {u : Fin 2 → ℝ} (hX : HasDerivAt X u s) (hs : X s = x) :
    HasDerivAt (fun s => f (X s))
      (u 0 * fderiv ℝ f x (Pi.single 0 1) + u 1 * fderiv ℝ f x (Pi.single 1 1)) s := by
  subst hs
  have h := hf.hasFDerivAt.comp_hasDerivAt s hX
  refine h.congr_deriv ?_
  have hu : u = u 0 • (Pi.single 0 1 : Fin 2 → ℝ) + u 1 • (Pi.single 1 1 : Fin 2 → ℝ) := by
    funext i
    fin_cases i <;> simp
  conv_lhs => rw [hu]
  rw [map_add, map_smul, map_smul, smul_eq_mul, smul_eq_mul]

theorem along_axis {f : (Fin 2 → ℝ) → ℝ} {x : Fin 2 → ℝ} (hf : DifferentiableAt ℝ f x) (j : Fin 2) :
    HasDerivAt (fun s : ℝ => f (x + s • Pi.single j 1)) (fderiv ℝ f x (Pi.single j 1)) 0 := by
  have hX : HasDerivAt (fun s : ℝ => x + s • (Pi.single j 1 : Fin 2 → ℝ)) (Pi.single j 1) 0 := by
    simpa using ((hasDerivAt_id (0 : ℝ)).smul_const (Pi.single j 1 : Fin 2 → ℝ)).const_add x
  have hf' : HasFDerivAt f (fderiv ℝ f x) (x + (0 : ℝ) • (Pi.single j 1 : Fin 2 → ℝ)) := by
    simpa using hf.hasFDerivAt
  exact hf'.comp_hasDerivAt (0 : ℝ) hX

open Filter Topology in
/-- The equations of a smooth steady flow in terms of density, velocity and pressure. -/
theorem steady_primitive {Ω : Set (Fin 2 → ℝ)} (hΩ : IsOpen Ω) {W : (Fin 2 → ℝ) → GasState 2}
    (hE : SolvesEuler γ (fun _ => Ω) (fun _ => W) 0) {x : Fin 2 → ℝ} (hx : x ∈ Ω)
    (dr : DifferentiableAt ℝ (fun y => (W y).rho) x)
    (du : ∀ i, DifferentiableAt ℝ (fun y => (W y).u i) x)
    (dp : DifferentiableAt ℝ (fun y => (W y).p) x) :
    (∑ j, ((W x).u j * fderiv ℝ (fun y => (W y).rho) x (Pi.single j 1)
        + (W x).rho * fderiv ℝ (fun y => (W y).u j) x (Pi.single j 1)) = 0) ∧
    (∀ i, (W x).rho * ∑ j, (W x).u j * fderiv ℝ (fun y => (W y).u i) x (Pi.single j 1)
        + fderiv ℝ (fun y => (W y).p) x (Pi.single i 1) = 0) ∧
    ∑ j, ((W x).u j * fderiv ℝ (fun y => (W y).p) x (Pi.single j 1)
        + γ * (W x).p * fderiv ℝ (fun y => (W y).u j) x (Pi.single j 1)) = 0 := by
  have hg := fun y (hy : y ∈ Ω) => hE.gas 0 y hy
  have hγ := (hg x hx).gamma
  have g1 : γ - 1 ≠ 0 := by linarith
  obtain ⟨D, hD, hsum⟩ := (hE.balance 0 x hx).2
  have hev : ∀ j : Fin 2, ∀ᶠ s : ℝ in 𝓝 0, x + s • (Pi.single j 1 : Fin 2 → ℝ) ∈ Ω := by
    intro j
    have hc : ContinuousAt (fun s : ℝ => x + s • (Pi.single j 1 : Fin 2 → ℝ)) 0 := by fun_prop
    exact hc.eventually (hΩ.mem_nhds (by simpa using hx))
  have hen : ∀ {S : GasState 2}, IdealGas γ S →
      S.rho_E + S.p = γ / (γ - 1) * S.p + S.rho * (S.u 0 * S.u 0 + S.u 1 * S.u 1) * 2⁻¹ := by
    intro S hS
    have := hS.rho_pos.ne'
    have g0 : γ ≠ 0 := by linarith
    rw [hS.rho_E, hS.total, hS.kinetic, hS.gas_law, hS.caloric]
    simp [dotProduct, Fin.sum_univ_two]
    field_simp
    ring
  have r := fun j => along_axis dr j
  have u := fun i j => along_axis (du i) j
  have p := fun j => along_axis dp j
  have hten : ∀ {S : GasState 2}, IdealGas γ S → ∀ (i : Fin 4) (j : Fin 2),
      eulerTensor γ S i j = ![S.rho * S.u j,
        S.rho * S.u 0 * S.u j + S.p * (Pi.single j 1 : Fin 2 → ℝ) 0,
        S.rho * S.u 1 * S.u j + S.p * (Pi.single j 1 : Fin 2 → ℝ) 1,
        (γ / (γ - 1) * S.p + S.rho * (S.u 0 * S.u 0 + S.u 1 * S.u 1) * 2⁻¹) * S.u j] i := by
    intro S hS i j
    rw [eulerTensor, of_apply, euler_primitive hS, hen hS, dotProduct_single, mul_one]
  have hval : ∀ (i : Fin 4) (j : Fin 2) {g : ℝ → ℝ} {d : ℝ}, HasDerivAt g d 0 →
      (∀ s, g s = ![(W (x + s • Pi.single j 1)).rho * (W (x + s • Pi.single j 1)).u j,
        (W (x + s • Pi.single j 1)).rho * (W (x + s • Pi.single j 1)).u 0
          * (W (x + s • Pi.single j 1)).u j
          + (W (x + s • Pi.single j 1)).p * (Pi.single j 1 : Fin 2 → ℝ) 0,
        (W (x + s • Pi.single j 1)).rho * (W (x + s • Pi.single j 1)).u 1
          * (W (x + s • Pi.single j 1)).u j
          + (W (x + s • Pi.single j 1)).p * (Pi.single j 1 : Fin 2 → ℝ) 1,
        (γ / (γ - 1) * (W (x + s • Pi.single j 1)).p + (W (x + s • Pi.single j 1)).rho
          * ((W (x + s • Pi.single j 1)).u 0 * (W (x + s • Pi.single j 1)).u 0
            + (W (x + s • Pi.single j 1)).u 1 * (W (x + s • Pi.single j 1)).u 1) * 2⁻¹)
          * (W (x + s • Pi.single j 1)).u j] i) → D i j = d := by
    intro i j g d hgd hgs
    refine (hD i j).unique (hgd.congr_of_eventuallyEq ?_)
    filter_upwards [hev j] with s hs
    rw [hgs s, hten (hg _ hs)]
  have c0 : x + (0 : ℝ) • (Pi.single 0 1 : Fin 2 → ℝ) = x := by simp
  have c1 : x + (0 : ℝ) • (Pi.single 1 1 : Fin 2 → ℝ) = x := by simp
  have d00 := hval 0 0 ((r 0).mul (u 0 0)) fun s => rfl
  have d01 := hval 0 1 ((r 1).mul (u 1 1)) fun s => rfl
  have d10 := hval 1 0 ((((r 0).mul (u 0 0)).mul (u 0 0)).add ((p 0).mul_const _)) fun s => rfl
  have d11 := hval 1 1 ((((r 1).mul (u 0 1)).mul (u 1 1)).add ((p 1).mul_const _)) fun s => rfl
  have d20 := hval 2 0 ((((r 0).mul (u 1 0)).mul (u 0 0)).add ((p 0).mul_const _)) fun s => rfl
  have d21 := hval 2 1 ((((r 1).mul (u 1 1)).mul (u 1 1)).add ((p 1).mul_const _)) fun s => rfl
  have d30 := hval 3 0 ((((p 0).const_mul (γ / (γ - 1))).add (((r 0).mul
    (((u 0 0).mul (u 0 0)).add ((u 1 0).mul (u 1 0)))).mul_const 2⁻¹)).mul (u 0 0)) fun s => rfl
  have d31 := hval 3 1 ((((p 1).const_mul (γ / (γ - 1))).add (((r 1).mul
    (((u 0 1).mul (u 0 1)).add ((u 1 1).mul (u 1 1)))).mul_const 2⁻¹)).mul (u 1 1)) fun s => rfl
  have m := hsum 0
  have a := hsum 1
  have b := hsum 2
  have e := hsum 3
  simp only [Pi.zero_apply, Pi.neg_apply, neg_zero, d00, d01, d10, d11, d20, d21, d30, d31, c0, c1,
    Pi.mul_apply, Pi.add_apply, Pi.single_eq_same, ne_eq, one_ne_zero, zero_ne_one,
    not_false_eq_true, Pi.single_eq_of_ne, mul_one, mul_zero, add_zero] at m a b e
  refine ⟨?_, fun i => ?_, ?_⟩
  · simp only [Fin.sum_univ_two]
    linear_combination -m
  · fin_cases i
    · simp only [Fin.sum_univ_two, Fin.zero_eta]
      linear_combination (W x).u 0 * m - a
    · simp only [Fin.sum_univ_two, Fin.mk_one]
      linear_combination (W x).u 1 * m - b
  · simp only [Fin.sum_univ_two]
    have hk : γ / (γ - 1) * (γ - 1) = γ := div_mul_cancel₀ _ g1
    linear_combination -(γ - 1) * (e + ((W x).u 0 ^ 2 + (W x).u 1 ^ 2) / 2 * m - (W x).u 0 * a
        - (W x).u 1 * b)
      - hk * ((W x).u 0 * fderiv ℝ (fun y => (W y).p) x (Pi.single 0 1)
        + (W x).u 1 * fderiv ℝ (fun y => (W y).p) x (Pi.single 1 1)
        + (W x).p * (fderiv ℝ (fun y => (W y).u 0) x (Pi.single 0 1)
          + fderiv ℝ (fun y => (W y).u 1) x (Pi.single 1 1)))

/-- **C107** Along every streamline of a smooth steady flow of the gas the entropy and the total
enthalpy are constant, so they are those of the farfield where the streamline comes from there. -/
theorem C107_streamline {Ω : Set (Fin 2 → ℝ)} (hΩ : IsOpen Ω) {W : (Fin 2 → ℝ) → GasState 2}
    (hE : SolvesEuler γ (fun _ => Ω) (fun _ => W) 0)
    (dr : ∀ x ∈ Ω, DifferentiableAt ℝ (fun y => (W y).rho) x)
    (du : ∀ x ∈ Ω, ∀ i, DifferentiableAt ℝ (fun y => (W y).u i) x)
    (dp : ∀ x ∈ Ω, DifferentiableAt ℝ (fun y => (W y).p) x)
    {X : ℝ → Fin 2 → ℝ} (hX : ∀ s, X s ∈ Ω) (hX' : ∀ s, HasDerivAt X (W (X s)).u s) (s t : ℝ) :
    SameStream γ (W (X s)) (W (X t)) := by
  have hg := fun y (hy : y ∈ Ω) => hE.gas 0 y hy
  have hγ := (hg _ (hX 0)).gamma
  have g1 : γ - 1 ≠ 0 := by linarith
  have g0 : γ ≠ 0 := by linarith
  have hconst : ∀ f : ℝ → ℝ, (∀ s, HasDerivAt f 0 s) → f s = f t := fun f hf =>
    is_const_of_deriv_eq_zero (fun s => (hf s).differentiableAt) (fun s => (hf s).deriv) s t
  have hpos : ∀ s, 0 < (W (X s)).rho := fun s => (hg _ (hX s)).rho_pos
  constructor
  · refine hconst (fun s => (W (X s)).p / (W (X s)).rho ^ γ) fun s => ?_
    obtain ⟨m, a, e⟩ := steady_primitive hΩ hE (hX s) (dr _ (hX s)) (du _ (hX s)) (dp _ (hX s))
    have hp := along_curve (dp _ (hX s)) (hX' s) rfl
    have hr := (along_curve (dr _ (hX s)) (hX' s) rfl).rpow_const (p := γ) (Or.inl (hpos s).ne')
    refine (hp.div hr (Real.rpow_pos_of_pos (hpos s) γ).ne').congr_deriv ?_
    rw [div_eq_zero_iff]
    left
    rw [Real.rpow_sub_one (hpos s).ne']
    simp only [Fin.sum_univ_two] at m e
    have := (hpos s).ne'
    field_simp
    linear_combination (W (X s)).rho ^ γ * ((W (X s)).rho * e - γ * (W (X s)).p * m)
  · have hH : ∀ s, (W (X s)).H = γ / (γ - 1) * ((W (X s)).p / (W (X s)).rho)
        + ((W (X s)).u 0 * (W (X s)).u 0 + (W (X s)).u 1 * (W (X s)).u 1) * 2⁻¹ := by
      intro s
      have hS := hg _ (hX s)
      have := hS.rho_pos.ne'
      rw [hS.enthalpy, hS.total, hS.kinetic, hS.gas_law, hS.caloric]
      simp [dotProduct, Fin.sum_univ_two]
      field_simp
      ring
    rw [hH s, hH t]
    refine hconst (fun s => γ / (γ - 1) * ((W (X s)).p / (W (X s)).rho)
        + ((W (X s)).u 0 * (W (X s)).u 0 + (W (X s)).u 1 * (W (X s)).u 1) * 2⁻¹) fun s => ?_
    obtain ⟨m, a, e⟩ := steady_primitive hΩ hE (hX s) (dr _ (hX s)) (du _ (hX s)) (dp _ (hX s))
    have hp := along_curve (dp _ (hX s)) (hX' s) rfl
    have hr := along_curve (dr _ (hX s)) (hX' s) rfl
    have h0 := along_curve (du _ (hX s) 0) (hX' s) rfl
    have h1 := along_curve (du _ (hX s) 1) (hX' s) rfl
    refine (((hp.div hr (hpos s).ne').const_mul (γ / (γ - 1))).add
      (((h0.mul h0).add (h1.mul h1)).mul_const 2⁻¹)).congr_deriv ?_
    have a0 := a 0
    have a1 := a 1
    simp only [Fin.sum_univ_two] at m e a0 a1
    have := (hpos s).ne'
    field_simp
    linear_combination 2 * ((W (X s)).rho * e - γ * (W (X s)).p * m)
      + 2 * (γ - 1) * (W (X s)).rho * ((W (X s)).u 0 * a0 + (W (X s)).u 1 * a1)

open Filter Topology in
/-- **C107** The same for a streamline that comes from the farfield `S0`. -/
theorem C107_from_far {Ω : Set (Fin 2 → ℝ)} (hΩ : IsOpen Ω) {W : (Fin 2 → ℝ) → GasState 2}
    (hE : SolvesEuler γ (fun _ => Ω) (fun _ => W) 0)
    (dr : ∀ x ∈ Ω, DifferentiableAt ℝ (fun y => (W y).rho) x)
    (du : ∀ x ∈ Ω, ∀ i, DifferentiableAt ℝ (fun y => (W y).u i) x)
    (dp : ∀ x ∈ Ω, DifferentiableAt ℝ (fun y => (W y).p) x)
    {X : ℝ → Fin 2 → ℝ} (hX : ∀ s, X s ∈ Ω) (hX' : ∀ s, HasDerivAt X (W (X s)).u s)
    {S0 : GasState 2} (h0 : IdealGas γ S0)
    (tr : Tendsto (fun s => (W (X s)).rho) atBot (𝓝 S0.rho))
    (tu : ∀ i, Tendsto (fun s => (W (X s)).u i) atBot (𝓝 (S0.u i)))
    (tp : Tendsto (fun s => (W (X s)).p) atBot (𝓝 S0.p)) (t : ℝ) :
    SameStream γ (W (X t)) S0 := by
  have hst := C107_streamline hΩ hE dr du dp hX hX'
  have hγ := h0.gamma
  have g1 : γ - 1 ≠ 0 := by linarith
  have g0 : γ ≠ 0 := by linarith
  have hr0 := h0.rho_pos.ne'
  have hH : ∀ {S : GasState 2}, IdealGas γ S → S.H = γ / (γ - 1) * (S.p / S.rho)
      + (S.u 0 * S.u 0 + S.u 1 * S.u 1) * 2⁻¹ := by
    intro S hS
    have := hS.rho_pos.ne'
    rw [hS.enthalpy, hS.total, hS.kinetic, hS.gas_law, hS.caloric]
    simp [dotProduct, Fin.sum_univ_two]
    field_simp
    ring
  have t1 : Tendsto (fun s => (W (X s)).p / (W (X s)).rho ^ γ) atBot (𝓝 (S0.p / S0.rho ^ γ)) :=
    tp.div (tr.rpow_const (Or.inl hr0)) (Real.rpow_pos_of_pos h0.rho_pos γ).ne'
  have t2 : Tendsto (fun s => (W (X s)).H) atBot (𝓝 S0.H) := by
    rw [hH h0]
    refine ((((tp.div tr hr0).const_mul (γ / (γ - 1))).add
      ((((tu 0).mul (tu 0)).add ((tu 1).mul (tu 1))).mul_const 2⁻¹))).congr fun s => ?_
    exact (hH (hE.gas 0 _ (hX s))).symm
  constructor
  · refine tendsto_nhds_unique (tendsto_const_nhds.congr fun s => ?_) t1
    exact (hst t s).1
  · refine tendsto_nhds_unique (tendsto_const_nhds.congr fun s => ?_) t2
    exact (hst t s).2

/-- Streamlines of a gas rotating like a rigid body: circles. -/
example (s t : ℝ) : SameStream (7 / 5) (rotatingFlow (7 / 5) 1 2 1 ![Real.cos s, Real.sin s])
    (rotatingFlow (7 / 5) 1 2 1 ![Real.cos t, Real.sin t]) := by
  refine C107_streamline (X := fun s => ![Real.cos s, Real.sin s]) isOpen_univ
    (C80_rotating_flow (by norm_num) one_pos two_pos 1) (fun x _ => ?_) (fun x _ i => ?_)
    (fun x _ => ?_) (fun _ => Set.mem_univ _) (fun s => ?_) s t
  · exact differentiableAt_const _
  · fin_cases i <;> simp [rotatingFlow, GasState.of] <;> fun_prop
  · simp only [rotatingFlow, GasState.of]
    fun_prop
  · rw [hasDerivAt_pi]
    intro i
    fin_cases i
    · simpa [rotatingFlow, GasState.of] using Real.hasDerivAt_cos s
    · simpa [rotatingFlow, GasState.of] using Real.hasDerivAt_sin s

/-- The configuration of the example (examples/compressible/low_mach_inviscid_cylinder.py:33-38). -/
def cylinderCfg : FlowCfg :=
  { γ := 14 / 10, Ma := 1 / 1000, Re := 1, Pr := 72 / 100, scaling := .acoustic,
    visc := .inviscid, Tref := 1 }

theorem cylinderCfg_accepted (M : ℝ) (hM : 0 < M) : ({ cylinderCfg with Ma := M } : FlowCfg).Accepted where
  gamma := by norm_num [cylinderCfg]
  mach := hM.le
  aero := fun h => by cases h
  reynolds := by norm_num [cylinderCfg]
  prandtl := by norm_num [cylinderCfg]
  tref := by norm_num [cylinderCfg]
  tm := fun _ h => by cases h

open Filter Topology in
/-- The hypotheses of `C107_low_mach` are met by states of the gas with the speed of the reference
flow at any point of the surface. -/
example (φ : ℝ) : ∃ cp : ℝ → ℝ,
    (∀ M ∈ Set.Ioo (0 : ℝ) 1, ∃ U, cylinderSensor { cylinderCfg with Ma := M } U = .ok (cp M)) ∧
    Tendsto cp (𝓝[>] 0) (𝓝 (exactCp φ)) := by
  have hd : (![1, 0] : Fin 2 → ℝ) ≠ 0 := by
    intro e
    have := congrFun e 0
    simp at this
  obtain ⟨w, hw⟩ : ∃ w, w = cylinderVelocity 1 1 ![Real.cos φ, Real.sin φ] := ⟨_, rfl⟩
  have hww : w ⬝ᵥ w = (2 * Real.sin φ) ^ 2 := by
    have := (C107_surface (V := 1) (a := 1) (ρ := 1) one_ne_zero one_ne_zero one_ne_zero 0 φ).2.2
    simp only [one_mul, mul_one] at this
    rw [hw, this]
  have huu : ∀ M : ℝ, (farState { cylinderCfg with Ma := M } ![1, 0]).u
      ⬝ᵥ (farState { cylinderCfg with Ma := M } ![1, 0]).u = M ^ 2 := by
    intro M
    simp only [farState, GasState.of, smul_dotProduct, dotProduct_smul, smul_eq_mul, unit_norm hd,
      farC, cylinderCfg]
    ring
  have hex : ∀ M : ℝ, ∃ S : GasState 2, M ∈ Set.Ioo (0 : ℝ) 1 → IdealGas (14 / 10) S ∧
      S.u = M • w ∧ SameStream (14 / 10) S (farState { cylinderCfg with Ma := M } ![1, 0]) := by
    intro M
    by_cases hM : M ∈ Set.Ioo (0 : ℝ) 1
    · obtain ⟨S, h⟩ := stream_state (cylinderCfg_accepted M hM.1) ![1, 0] (M • w) (by
        have e : (farState { cylinderCfg with Ma := M } ![1, 0]).H = 5 / 2 + M ^ 2 / 2 := by
          have := huu M
          simp only [farState, GasState.of] at this ⊢
          rw [this]
          norm_num [farC, cylinderCfg]
        rw [e, smul_dotProduct, dotProduct_smul, hww, smul_eq_mul, smul_eq_mul]
        have h1 := Real.sin_sq_le_one φ
        have h2 : M ^ 2 < 1 := by nlinarith [hM.1, hM.2]
        nlinarith [sq_nonneg M, sq_nonneg (Real.sin φ)])
      exact ⟨S, fun _ => h⟩
    · exact ⟨GasState.of 1 0 0 0, fun h => absurd h hM⟩
  choose S hS using hex
  have hans : ∀ M : ℝ, ∃ v, M ∈ Set.Ioo (0 : ℝ) 1 →
      cylinderSensor { cylinderCfg with Ma := M } (conservativeDict (S M)) = .ok v := by
    intro M
    by_cases hM : M ∈ Set.Ioo (0 : ℝ) 1
    · refine ⟨((S M).p - (farState { cylinderCfg with Ma := M } ![1, 0]).p)
        / (farState { cylinderCfg with Ma := M } ![1, 0]).rho_Ek, fun _ => ?_⟩
      rw [cylinderSensor, farfield_eq (cylinderCfg_accepted M hM.1)]
      simp [pressureCoefficient, conservativeDict, farDict, pressure, EOS.pressure, kineticEnergy,
        equation, equationE, Bind.bind, Except.bind]
    · exact ⟨0, fun h => absurd h hM⟩
  choose cp hcp using hans
  refine ⟨cp, fun M hM => ⟨_, hcp M hM⟩, ?_⟩
  refine C107_low_mach (cfg := cylinderCfg) (cylinderCfg_accepted (1 / 1000) (by norm_num)) S
    (fun M => farState { cylinderCfg with Ma := M } ![1, 0])
    (fun M => farDict (farState { cylinderCfg with Ma := M } ![1, 0]))
    (fun M => conservativeDict (S M)) cp one_pos (fun M hM => (hS M hM).1)
    (fun M hM => farState_ideal (cylinderCfg_accepted M hM.1) _)
    (fun M hM => farfield_eq (cylinderCfg_accepted M hM.1) _) (fun M hM => rfl) (fun M hM => rfl)
    (fun M hM => rfl) (fun M hM => (hS M hM).2.2)
    (fun M hM => by constructor <;> simp [conservativeDict]) hcp φ ?_
  refine tendsto_const_nhds.congr' ?_
  filter_upwards [Ioo_mem_nhdsGT (one_pos : (0 : ℝ) < 1)] with M hM
  rw [(hS M hM).2.1, huu, ← hw, smul_dotProduct, dotProduct_smul, smul_eq_mul, smul_eq_mul]
  have := hM.1.ne'
  field_simp

end Dream
