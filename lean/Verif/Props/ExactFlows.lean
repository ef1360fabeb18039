import Verif.Props.Consistency

/-!
# C80: examples of exact solutions

They show that the hypotheses of `Verif.Props.Consistency` are met by well known flows.
-/

noncomputable section

namespace Dream
open Matrix Spec

variable {γ : ℝ}

theorem euler_primitive {S : GasState 2} (hS : IdealGas γ S) (d : Fin 2 → ℝ) :
    eulerFlux γ d S.rho S.rho_u S.rho_E = ![S.rho * (S.u ⬝ᵥ d),
      S.rho * S.u 0 * (S.u ⬝ᵥ d) + S.p * d 0, S.rho * S.u 1 * (S.u ⬝ᵥ d) + S.p * d 1,
      (S.rho_E + S.p) * (S.u ⬝ᵥ d)] := by
  have hm : S.rho_u ⬝ᵥ d = S.rho * (S.u ⬝ᵥ d) := by
    rw [hS.momentum, smul_dotProduct, smul_eq_mul]
  have p := pressure_eq hS
  have r0 := hS.rho_pos.ne'
  have hi : ∀ i, S.rho_u i = S.rho * S.u i := fun i => by rw [hS.momentum]; rfl
  funext i
  fin_cases i
  · exact hm
  · show S.rho_u 0 * (S.rho_u ⬝ᵥ d) / S.rho
      + (γ - 1) * (S.rho_E - (S.rho_u ⬝ᵥ S.rho_u) / (2 * S.rho)) * d 0
      = S.rho * S.u 0 * (S.u ⬝ᵥ d) + S.p * d 0
    rw [p, hm, hi]
    field_simp
  · show S.rho_u 1 * (S.rho_u ⬝ᵥ d) / S.rho
      + (γ - 1) * (S.rho_E - (S.rho_u ⬝ᵥ S.rho_u) / (2 * S.rho)) * d 1
      = S.rho * S.u 1 * (S.u ⬝ᵥ d) + S.p * d 1
    rw [p, hm, hi]
    field_simp
  · show (S.rho_E + (γ - 1) * (S.rho_E - (S.rho_u ⬝ᵥ S.rho_u) / (2 * S.rho)))
        * (S.rho_u ⬝ᵥ d) / S.rho = (S.rho_E + S.p) * (S.u ⬝ᵥ d)
    rw [p, hm]
    field_simp

/-- A gas of pressure `p` flowing along the first axis; density and velocity are arbitrary
functions of the second coordinate. -/
def parallelFlow (γ p : ℝ) (ρ w : ℝ → ℝ) (y : Fin 2 → ℝ) : GasState 2 :=
  GasState.of γ (ρ (y 1)) ![w (y 1), 0] (p / ((γ - 1) * ρ (y 1)))

theorem parallelFlow_ideal (hγ : 1 < γ) {p : ℝ} (hp : 0 < p) {ρ : ℝ → ℝ} (hρ : ∀ s, 0 < ρ s)
    (w : ℝ → ℝ) (y : Fin 2 → ℝ) : IdealGas γ (parallelFlow γ p ρ w y) := by
  have : 0 < γ - 1 := by linarith
  have := hρ (y 1)
  exact IdealGas.of hγ this (by positivity)

theorem parallelFlow_p (hγ : 1 < γ) (p : ℝ) {ρ : ℝ → ℝ} (hρ : ∀ s, 0 < ρ s)
    (w : ℝ → ℝ) (y : Fin 2 → ℝ) : (parallelFlow γ p ρ w y).p = p := by
  have h1 : γ - 1 ≠ 0 := by linarith
  have := (hρ (y 1)).ne'
  simp only [parallelFlow, GasState.of]
  field_simp

theorem along_first (x : Fin 2 → ℝ) (s : ℝ) : (x + s • (Pi.single 0 1 : Fin 2 → ℝ)) 1 = x 1 := by
  simp

/-- The flux of a parallel flow across the streamlines is the pressure. -/
theorem parallelFlow_across (hγ : 1 < γ) {p : ℝ} (hp : 0 < p) {ρ : ℝ → ℝ} (hρ : ∀ s, 0 < ρ s)
    (w : ℝ → ℝ) (y : Fin 2 → ℝ) (i : Fin 4) :
    eulerTensor γ (parallelFlow γ p ρ w y) i 1 = ![0, 0, p, 0] i := by
  have h := congrFun (euler_along (γ := γ) (d := Pi.single 1 1) (parallelFlow_ideal hγ hp hρ w y)
    (by simp [parallelFlow, GasState.of])) i
  rw [eulerTensor, of_apply, h, parallelFlow_p hγ p hρ w y]
  fin_cases i <;> simp

/-- **C80** Parallel flow with any profile of velocity and density is an exact steady solution of
the Euler equations. -/
theorem C80_parallel_flow (hγ : 1 < γ) {p : ℝ} (hp : 0 < p) {ρ : ℝ → ℝ} (hρ : ∀ s, 0 < ρ s)
    (w : ℝ → ℝ) : SolvesEuler γ (fun _ => Set.univ) (fun _ => parallelFlow γ p ρ w) 0 := by
  refine ⟨fun _ y _ => parallelFlow_ideal hγ hp hρ w y, fun t x _ =>
    ⟨fun i => hasDerivAt_const _ _, 0, fun i j => ?_, fun i => by simp⟩⟩
  fin_cases j
  · have : (fun s : ℝ => eulerTensor γ (parallelFlow γ p ρ w (x + s • Pi.single 0 1)) i 0)
        = fun _ => eulerTensor γ (parallelFlow γ p ρ w x) i 0 := by
      funext s
      simp only [parallelFlow, along_first]
    show HasDerivAt (fun s : ℝ => eulerTensor γ (parallelFlow γ p ρ w (x + s • Pi.single 0 1)) i 0)
      0 0
    rw [this]
    exact hasDerivAt_const _ _
  · show HasDerivAt (fun s : ℝ => eulerTensor γ (parallelFlow γ p ρ w (x + s • Pi.single 1 1)) i 1)
      0 0
    simp only [parallelFlow_across hγ hp hρ]
    exact hasDerivAt_const _ _

/-- A density wave carried by a uniform flow `(a, b)` of pressure `p`: the density is `r` at the
start and moves with the flow along the first axis. -/
def densityWave (γ p a b : ℝ) (r : ℝ → ℝ) (t : ℝ) (y : Fin 2 → ℝ) : GasState 2 :=
  GasState.of γ (r (y 0 - a * t)) ![a, b] (p / ((γ - 1) * r (y 0 - a * t)))

theorem densityWave_eq (hγ : 1 < γ) {p a b : ℝ} (hp : 0 < p) {r : ℝ → ℝ} {t : ℝ} {y : Fin 2 → ℝ}
    (h : 0 < r (y 0 - a * t)) :
    IdealGas γ (densityWave γ p a b r t y) ∧
    conserved (densityWave γ p a b r t y) = ![r (y 0 - a * t), a * r (y 0 - a * t),
      b * r (y 0 - a * t), p / (γ - 1) + (a ^ 2 + b ^ 2) / 2 * r (y 0 - a * t)] ∧
    ∀ i, eulerTensor γ (densityWave γ p a b r t y) i 0 = ![a * r (y 0 - a * t),
      a * a * r (y 0 - a * t) + p, a * b * r (y 0 - a * t),
      a * (p / (γ - 1) + p) + a * ((a ^ 2 + b ^ 2) / 2) * r (y 0 - a * t)] i := by
  have h1 : 0 < γ - 1 := by linarith
  have hi : IdealGas γ (densityWave γ p a b r t y) := IdealGas.of hγ h (by positivity)
  have h0 := h.ne'
  have h2 := h1.ne'
  refine ⟨hi, ?_, fun i => ?_⟩
  · funext i
    fin_cases i <;> simp [conserved, densityWave, GasState.of] <;> field_simp
  · rw [eulerTensor, of_apply, euler_primitive hi]
    fin_cases i <;> simp [densityWave, GasState.of] <;> field_simp <;> ring

open Filter Topology in
/-- **C80** A density wave carried by a uniform flow is an exact unsteady solution of the Euler
equations, wherever the density is positive. -/
theorem C80_density_wave (hγ : 1 < γ) {p : ℝ} (a b : ℝ) (hp : 0 < p) {r r' : ℝ → ℝ}
    (hr : ∀ s, HasDerivAt r (r' s) s) :
    SolvesEuler γ (fun t => {y | 0 < r (y 0 - a * t)}) (densityWave γ p a b r)
      (fun t y => (-(a * r' (y 0 - a * t))) • ![1, a, b, (a ^ 2 + b ^ 2) / 2]) := by
  refine ⟨fun t y hy => (densityWave_eq hγ hp hy).1, fun t x hx => ⟨fun i => ?_, ?_⟩⟩
  · have hl : HasDerivAt (fun s : ℝ => x 0 - a * s) (-a) t := by
      simpa using ((hasDerivAt_id t).const_mul a).const_sub (x 0)
    have hc := (hr (x 0 - a * t)).comp t hl
    have hev : ∀ᶠ s in 𝓝 t, 0 < r (x 0 - a * s) := hc.continuousAt.eventually (lt_mem_nhds hx)
    have he : (fun s => conserved (densityWave γ p a b r s x) i) =ᶠ[𝓝 t] fun s =>
        ![r (x 0 - a * s), a * r (x 0 - a * s),
          b * r (x 0 - a * s), p / (γ - 1) + (a ^ 2 + b ^ 2) / 2 * r (x 0 - a * s)] i := by
      filter_upwards [hev] with s hs using congrFun (densityWave_eq hγ hp hs).2.1 i
    refine HasDerivAt.congr_of_eventuallyEq ?_ he
    fin_cases i
    · exact hc.congr_deriv (by simp; ring)
    · exact (hc.const_mul a).congr_deriv (by simp; ring)
    · exact (hc.const_mul b).congr_deriv (by simp; ring)
    · exact ((hc.const_mul ((a ^ 2 + b ^ 2) / 2)).const_add (p / (γ - 1))).congr_deriv
        (by simp; ring)
  · refine ⟨Matrix.of fun i j => if j = 0 then
      (a * r' (x 0 - a * t)) * ![1, a, b, (a ^ 2 + b ^ 2) / 2] i else 0, fun i j => ?_, fun i => ?_⟩
    · fin_cases j
      · have hl : HasDerivAt (fun s : ℝ => (x + s • (Pi.single 0 1 : Fin 2 → ℝ)) 0 - a * t) 1 0 := by
          simpa using ((hasDerivAt_id (0 : ℝ)).const_add (x 0)).sub_const (a * t)
        have hr0 : HasDerivAt r (r' (x 0 - a * t))
            ((x + (0 : ℝ) • (Pi.single 0 1 : Fin 2 → ℝ)) 0 - a * t) := by
          simpa using hr (x 0 - a * t)
        have hc := hr0.comp (0 : ℝ) hl
        have hev : ∀ᶠ s : ℝ in 𝓝 0, 0 < r ((x + s • (Pi.single 0 1 : Fin 2 → ℝ)) 0 - a * t) := by
          refine hc.continuousAt.eventually (lt_mem_nhds ?_)
          simpa using hx
        have he : (fun s : ℝ => eulerTensor γ (densityWave γ p a b r t (x + s • Pi.single 0 1)) i 0)
            =ᶠ[𝓝 0] fun s : ℝ =>
            ![a * r ((x + s • (Pi.single 0 1 : Fin 2 → ℝ)) 0 - a * t),
              a * a * r ((x + s • (Pi.single 0 1 : Fin 2 → ℝ)) 0 - a * t) + p,
              a * b * r ((x + s • (Pi.single 0 1 : Fin 2 → ℝ)) 0 - a * t),
              a * (p / (γ - 1) + p) + a * ((a ^ 2 + b ^ 2) / 2)
                * r ((x + s • (Pi.single 0 1 : Fin 2 → ℝ)) 0 - a * t)] i := by
          filter_upwards [hev] with s hs using (densityWave_eq hγ hp hs).2.2 i
        refine HasDerivAt.congr_of_eventuallyEq ?_ he
        fin_cases i
        · exact (hc.const_mul a).congr_deriv (by simp)
        · exact ((hc.const_mul (a * a)).add_const p).congr_deriv (by simp; ring)
        · exact (hc.const_mul (a * b)).congr_deriv (by simp; ring)
        · exact ((hc.const_mul (a * ((a ^ 2 + b ^ 2) / 2))).const_add
            (a * (p / (γ - 1) + p))).congr_deriv (by simp; ring)
      · have e : (fun s : ℝ => eulerTensor γ (densityWave γ p a b r t (x + s • Pi.single 1 1)) i 1)
            = fun _ => eulerTensor γ (densityWave γ p a b r t x) i 1 := by
          funext s
          simp [densityWave]
        show HasDerivAt (fun s : ℝ =>
          eulerTensor γ (densityWave γ p a b r t (x + s • Pi.single 1 1)) i 1) _ 0
        rw [e]
        exact (hasDerivAt_const _ _).congr_deriv (by simp)
    · fin_cases i <;> simp

/-- A gas of constant density rotating like a rigid body about the origin with angular velocity
`ω`; the pressure balances the centrifugal force. -/
def rotatingFlow (γ p₀ ρ ω : ℝ) (y : Fin 2 → ℝ) : GasState 2 :=
  GasState.of γ ρ ![-(ω * y 1), ω * y 0]
    ((p₀ + ρ * ω ^ 2 * (y 0 ^ 2 + y 1 ^ 2) / 2) / ((γ - 1) * ρ))

theorem rotatingFlow_tensor (hγ : 1 < γ) {p₀ ρ : ℝ} (hp : 0 < p₀) (hρ : 0 < ρ) (ω : ℝ)
    (y : Fin 2 → ℝ) : IdealGas γ (rotatingFlow γ p₀ ρ ω y) ∧ ∀ d : Fin 2 → ℝ,
      eulerFlux γ d (rotatingFlow γ p₀ ρ ω y).rho (rotatingFlow γ p₀ ρ ω y).rho_u
          (rotatingFlow γ p₀ ρ ω y).rho_E
        = ![ρ * (ω * (y 0 * d 1 - y 1 * d 0)),
            -(ρ * ω ^ 2 * y 1 * (y 0 * d 1 - y 1 * d 0))
              + (p₀ + ρ * ω ^ 2 * (y 0 ^ 2 + y 1 ^ 2) / 2) * d 0,
            ρ * ω ^ 2 * y 0 * (y 0 * d 1 - y 1 * d 0)
              + (p₀ + ρ * ω ^ 2 * (y 0 ^ 2 + y 1 ^ 2) / 2) * d 1,
            (γ / (γ - 1) * (p₀ + ρ * ω ^ 2 * (y 0 ^ 2 + y 1 ^ 2) / 2)
              + ρ * ω ^ 2 * (y 0 ^ 2 + y 1 ^ 2) / 2) * (ω * (y 0 * d 1 - y 1 * d 0))] := by
  have h1 : 0 < γ - 1 := by linarith
  have hi : IdealGas γ (rotatingFlow γ p₀ ρ ω y) := IdealGas.of hγ hρ (by positivity)
  refine ⟨hi, fun d => ?_⟩
  have h2 := h1.ne'
  have h3 := hρ.ne'
  rw [euler_primitive hi]
  have hd : (rotatingFlow γ p₀ ρ ω y).u ⬝ᵥ d = ω * (y 0 * d 1 - y 1 * d 0) := by
    simp [rotatingFlow, GasState.of, dotProduct, Fin.sum_univ_two]
    ring
  rw [hd]
  funext i
  fin_cases i
  · rfl
  · simp [rotatingFlow, GasState.of]
    field_simp
    try ring
  · simp [rotatingFlow, GasState.of]
    field_simp
    try ring
  · simp [rotatingFlow, GasState.of, dotProduct, Fin.sum_univ_two]
    left
    field_simp
    ring

theorem deriv_quadratic {f : ℝ → ℝ} (b c : ℝ) (h : ∀ s, f s = f 0 + b * s + c * s ^ 2) :
    HasDerivAt f b 0 := by
  have e : f = fun s => f 0 + b * s + c * s ^ 2 := funext h
  rw [e]
  have h1 := ((hasDerivAt_id (0 : ℝ)).const_mul b).const_add (f 0)
  have h2 := ((hasDerivAt_id (0 : ℝ)).pow 2).const_mul c
  have h3 := h1.add h2
  simp only [id] at h3
  refine h3.congr_deriv ?_
  simp

/-- **C80** Rigid rotation is an exact steady solution of the Euler equations. -/
theorem C80_rotating_flow (hγ : 1 < γ) {p₀ ρ : ℝ} (hp : 0 < p₀) (hρ : 0 < ρ) (ω : ℝ) :
    SolvesEuler γ (fun _ => Set.univ) (fun _ => rotatingFlow γ p₀ ρ ω) 0 := by
  refine ⟨fun _ y _ => (rotatingFlow_tensor hγ hp hρ ω y).1, fun t x _ =>
    ⟨fun i => hasDerivAt_const _ _, ?_⟩⟩
  have h1 : γ - 1 ≠ 0 := by linarith
  refine ⟨!![0, 0; ρ * ω ^ 2 * x 0, -(ρ * ω ^ 2 * x 0); -(ρ * ω ^ 2 * x 1), ρ * ω ^ 2 * x 1;
    -(ρ * ω ^ 3 * (γ / (γ - 1) + 1) * x 0 * x 1), ρ * ω ^ 3 * (γ / (γ - 1) + 1) * x 0 * x 1],
    fun i j => ?_, fun i => ?_⟩
  · simp only [eulerTensor, of_apply, (rotatingFlow_tensor hγ hp hρ ω _).2]
    fin_cases j <;> fin_cases i
    · exact deriv_quadratic _ 0 fun s => by simp
    · exact deriv_quadratic _ (ρ * ω ^ 2 / 2) fun s => by simp; ring
    · exact deriv_quadratic _ 0 fun s => by simp; ring
    · exact deriv_quadratic _ (-(ω * x 1 * ((γ / (γ - 1) + 1) * (ρ * ω ^ 2 / 2)))) fun s => by
        simp; ring
    · exact deriv_quadratic _ 0 fun s => by simp
    · exact deriv_quadratic _ 0 fun s => by simp; ring
    · exact deriv_quadratic _ (ρ * ω ^ 2 / 2) fun s => by simp; ring
    · exact deriv_quadratic _ (ω * x 0 * ((γ / (γ - 1) + 1) * (ρ * ω ^ 2 / 2))) fun s => by
        simp; ring
  · fin_cases i <;> simp

/-- Couette flow: the gas between two plates, sheared with rate `a`, of pressure `p`; the
temperature profile balances the heat produced by friction. `Pr` is the Prandtl number. -/
def couetteFlow (γ Pr p θ₀ a : ℝ) (y : Fin 2 → ℝ) : GasState 2 :=
  GasState.of γ (p / ((γ - 1) / γ * (θ₀ - Pr * a ^ 2 / 2 * y 1 ^ 2))) ![a * y 1, 0]
    ((θ₀ - Pr * a ^ 2 / 2 * y 1 ^ 2) / γ)

/-- **C80** Couette flow with constant viscosity is an exact steady solution of the Navier-Stokes
equations, wherever its temperature is positive. -/
theorem C80_couette (hγ : 1 < γ) {Pr p θ₀ a μ : ℝ} (hPr : 0 < Pr) (hp : 0 < p) :
    SolvesNavierStokes γ (fun _ => μ) (fun _ => μ / Pr)
      (fun _ => {y | 0 < θ₀ - Pr * a ^ 2 / 2 * y 1 ^ 2}) (fun _ => couetteFlow γ Pr p θ₀ a)
      (fun _ _ => !![0, a; 0, 0]) (fun _ y => ![0, -(Pr * a ^ 2 * y 1)]) 0 := by
  have h1 : 0 < γ - 1 := by linarith
  have h0 : 0 < γ := by linarith
  have hg : ∀ y : Fin 2 → ℝ, 0 < θ₀ - Pr * a ^ 2 / 2 * y 1 ^ 2 →
      IdealGas γ (couetteFlow γ Pr p θ₀ a y) := fun y hy =>
    IdealGas.of hγ (by positivity) (by positivity)
  have hP : ∀ y : Fin 2 → ℝ, 0 < θ₀ - Pr * a ^ 2 / 2 * y 1 ^ 2 →
      (couetteFlow γ Pr p θ₀ a y).p = p := by
    intro y hy
    have := hy.ne'
    simp only [couetteFlow, GasState.of]
    generalize θ₀ - Pr * a ^ 2 / 2 * y 1 ^ 2 = θ at *
    field_simp
  refine ⟨fun _ y hy => hg y hy, fun _ y hy i j => ?_, fun _ y hy j => ?_, fun t x hx =>
    ⟨fun i => hasDerivAt_const _ _, 0, fun i j => ?_, fun i => by simp⟩⟩
  · fin_cases i <;> fin_cases j
    · exact deriv_quadratic _ 0 fun s => by simp [couetteFlow, GasState.of]
    · exact deriv_quadratic _ 0 fun s => by simp [couetteFlow, GasState.of]; ring
    · exact deriv_quadratic _ 0 fun s => by simp [couetteFlow, GasState.of]
    · exact deriv_quadratic _ 0 fun s => by simp [couetteFlow, GasState.of]
  · fin_cases j
    · exact deriv_quadratic _ 0 fun s => by simp [couetteFlow, GasState.of]
    · refine deriv_quadratic _ (-(Pr * a ^ 2 / 2)) fun s => ?_
      simp only [couetteFlow, GasState.of]
      field_simp
      simp
      ring
  · fin_cases j
    · have e : (fun s : ℝ => navierStokesTensor γ μ (μ / Pr)
          (couetteFlow γ Pr p θ₀ a (x + s • Pi.single 0 1)) !![0, a; 0, 0]
          ![0, -(Pr * a ^ 2 * (x + s • (Pi.single 0 1 : Fin 2 → ℝ)) 1)] i 0)
          = fun _ => navierStokesTensor γ μ (μ / Pr) (couetteFlow γ Pr p θ₀ a x) !![0, a; 0, 0]
            ![0, -(Pr * a ^ 2 * x 1)] i 0 := by
        funext s
        simp only [couetteFlow, along_first]
      show HasDerivAt (fun s : ℝ => navierStokesTensor γ μ (μ / Pr)
          (couetteFlow γ Pr p θ₀ a (x + s • Pi.single 0 1)) !![0, a; 0, 0]
          ![0, -(Pr * a ^ 2 * (x + s • (Pi.single 0 1 : Fin 2 → ℝ)) 1)] i 0) 0 0
      rw [e]
      exact hasDerivAt_const _ _
    · -- near `x` the temperature is positive and the flux is constant
      have hev : ∀ᶠ s : ℝ in nhds 0, 0 < θ₀ - Pr * a ^ 2 / 2 *
          (x + s • (Pi.single 1 1 : Fin 2 → ℝ)) 1 ^ 2 := by
        have hc : ContinuousAt (fun s : ℝ => θ₀ - Pr * a ^ 2 / 2 *
          (x + s • (Pi.single 1 1 : Fin 2 → ℝ)) 1 ^ 2) 0 := by
          simp only [Pi.add_apply, Pi.smul_apply, Pi.single_eq_same, smul_eq_mul, mul_one]
          fun_prop
        refine hc.eventually (lt_mem_nhds ?_)
        simpa using hx
      have hc : HasDerivAt (fun _ : ℝ => (![0, -(μ * a), p, 0] : Fin 4 → ℝ) i) 0 0 :=
        hasDerivAt_const _ _
      refine hc.congr_of_eventuallyEq ?_
      filter_upwards [hev] with s hs
      set y := x + s • (Pi.single 1 1 : Fin 2 → ℝ) with hy
      have hu : (couetteFlow γ Pr p θ₀ a y).u ⬝ᵥ (Pi.single 1 1 : Fin 2 → ℝ) = 0 := by
        simp [couetteFlow, GasState.of]
      have hf := euler_along (d := Pi.single 1 1) (hg y hs) hu
      show eulerFlux γ (Pi.single 1 1) (couetteFlow γ Pr p θ₀ a y).rho
          (couetteFlow γ Pr p θ₀ a y).rho_u (couetteFlow γ Pr p θ₀ a y).rho_E i
        - viscousFlux (newtonianStress μ !![0, a; 0, 0]) (μ / Pr) ![0, -(Pr * a ^ 2 * y 1)]
          (couetteFlow γ Pr p θ₀ a y).u (Pi.single 1 1) i = _
      rw [hf, hP y hs]
      fin_cases i
      · show (0 : ℝ) - 0 = 0
        simp
      · show p * (Pi.single 1 1 : Fin 2 → ℝ) 0 - ∑ j, newtonianStress μ !![0, a; 0, 0] 0 j
          * (Pi.single 1 1 : Fin 2 → ℝ) j = -(μ * a)
        simp [newtonianStress, Fin.sum_univ_two]
      · show p * (Pi.single 1 1 : Fin 2 → ℝ) 1 - ∑ j, newtonianStress μ !![0, a; 0, 0] 1 j
          * (Pi.single 1 1 : Fin 2 → ℝ) j = p
        simp [newtonianStress, Fin.sum_univ_two]
      · show (0 : ℝ) - (∑ i, (∑ j, newtonianStress μ !![0, a; 0, 0] i j
          * (Pi.single 1 1 : Fin 2 → ℝ) j) * (couetteFlow γ Pr p θ₀ a y).u i
          + μ / Pr * ∑ i, (![0, -(Pr * a ^ 2 * y 1)] : Fin 2 → ℝ) i
            * (Pi.single 1 1 : Fin 2 → ℝ) i) = 0
        have := hPr.ne'
        simp only [newtonianStress, Fin.sum_univ_two, couetteFlow, GasState.of]
        simp
        field_simp
        ring

/-- C80, concrete instance: Couette flow has the material law of a configuration with constant
viscosity, as required by `C80_navier_stokes` and `C80_steady_viscous`. -/
example {cfg : FlowCfg} (ha : cfg.Accepted) (hv : cfg.visc = .constant) (hM : 0 < cfg.Ma)
    {p θ₀ a : ℝ} (hp : 0 < p) : ∃ r, 0 < r ∧
      SolvesNavierStokes cfg.γ (fun _ => 1 / r) (fun _ => 1 / (r * cfg.Pr))
        (fun _ => {y | 0 < θ₀ - cfg.Pr * a ^ 2 / 2 * y 1 ^ 2})
        (fun _ => couetteFlow cfg.γ cfg.Pr p θ₀ a)
        (fun _ _ => !![0, a; 0, 0]) (fun _ y => ![0, -(cfg.Pr * a ^ 2 * y 1)]) 0 ∧
      ∀ y, viscosity cfg (conservativeDict (couetteFlow cfg.γ cfg.Pr p θ₀ a y)) = .ok 1 ∧
        cfg.referenceReynolds = .ok r := by
  obtain ⟨r, hr, r0⟩ := ref_pos ha (by simp [hv]) hM
  refine ⟨r, r0, ?_, fun y => ⟨by simp [viscosity, hv], hr⟩⟩
  have h := C80_couette (γ := cfg.γ) (μ := 1 / r) (θ₀ := θ₀) (a := a) ha.gamma ha.prandtl hp
  simp only [div_div] at h
  exact h

section Instances

variable {V B : Type} [Fintype V] [Fintype B]

/-- What the integrals see of a flow `W`: the fluxes computed by the code exist at every gas
state (`eulerSample_isEuler`). No boundary terms, no sponge. -/
def eulerSample (γ : ℝ) (M : HdgMesh 2 V B) (pos : V → Fin 2 → ℝ) (posB : B → Fin 2 → ℝ)
    (W : (Fin 2 → ℝ) → GasState 2) : HdgState 2 4 V B where
  U := fun v => conserved (W (pos v))
  F := fun v => eulerTensor γ (W (pos v))
  G := 0
  Fn := fun b => eulerTensor γ (W (posB b)) *ᵥ M.normal b
  Gn := 0
  R := 0
  source := 0

theorem eulerSample_isEuler (rs : Riemann) (M : HdgMesh 2 V B)
    (hn : ∀ b, M.normal b 0 ^ 2 + M.normal b 1 ^ 2 = 1) (pos : V → Fin 2 → ℝ)
    (posB : B → Fin 2 → ℝ) {W : (Fin 2 → ℝ) → GasState 2} (hp : ∀ v, IdealGas γ (W (pos v)))
    (hb : ∀ b, IdealGas γ (W (posB b))) :
    (eulerSample γ M pos posB W).IsEuler γ rs M (fun b => conserved (W (posB b)))
      (fun b => conserved (W (posB b))) := by
  refine ⟨fun v => ?_, fun b => ?_, rfl, rfl⟩
  · have h0 := fields_vec (hp v)
    obtain ⟨A, hA, -⟩ := C26_flux_conservative (hp v) 0
    rw [← conserved_eq] at h0
    refine ⟨_, h0, ?_⟩
    rw [hA, convective_exact (hp v) h0 hA]
    rfl
  · have h0 := fields_vec (hb b)
    have h1 := C28_consistent rs (hb b) (hn b)
    rw [← conserved_eq] at h0
    refine ⟨_, h0, ?_⟩
    rw [conserved_eq, h1, ← eulerTensor_mulVec]
    rfl

/-- Positions of the quadrature points of `unitSquare`. -/
def sidePoints : Fin 4 → Fin 2 → ℝ := ![![1, 1 / 2], ![0, 1 / 2], ![1 / 2, 1], ![1 / 2, 0]]

/-- Affine test functions on the unit square. -/
def affineTests : Set (HdgTest 2 4 Unit (Fin 4)) :=
  {φ | ∃ (a : Fin 4 → ℝ) (g : Matrix (Fin 4) (Fin 2) ℝ),
    φ.grad = (fun _ => g) ∧ φ.val = (fun _ => a + g *ᵥ ![1 / 2, 1 / 2]) ∧
      φ.trace = fun b => a + g *ᵥ sidePoints b}

theorem unitSquare_normal (b : Fin 4) :
    unitSquare.normal b 0 ^ 2 + unitSquare.normal b 1 ^ 2 = 1 := by
  fin_cases b <;> simp [unitSquare]

/-- C80, concrete instance: parallel flow with any profile on the unit square. All hypotheses of
`C80_steady` hold. -/
example (hγ : 1 < γ) {p : ℝ} (hp : 0 < p) {ρ : ℝ → ℝ} (hρ : ∀ s, 0 < ρ s) (w : ℝ → ℝ)
    (rs : Riemann) (s : Scheme) (dt : ℝ) (t : ℚ) :
    let x := eulerSample γ unitSquare (fun _ => ![1 / 2, 1 / 2]) sidePoints (parallelFlow γ p ρ w)
    hdgStep unitSquare (fun _ => 0) affineTests (s.quotient dt) t x x x := by
  have hi := parallelFlow_ideal hγ hp hρ w
  refine C80_steady rs unitSquare unitSquare_normal (fun _ => 0) (C80_parallel_flow hγ hp hρ w)
    (fun _ => ![1 / 2, 1 / 2]) (fun _ => trivial) sidePoints (fun _ => trivial) _ (fun _ => rfl)
    (eulerSample_isEuler rs _ unitSquare_normal _ _ (fun _ => hi _) fun _ => hi _)
    (fun _ => Matching.nothing) 0 (fun v => ?_) affineTests ?_ s dt t
  · simp [spongeResidual, stateVec_dict, bind, Except.bind, eulerSample]
  · rintro φ ⟨a, g, h1, h2, h3⟩
    have e0 : ∀ (y z : Fin 2 → ℝ) i, y 1 = z 1 → eulerTensor γ (parallelFlow γ p ρ w y) i 0
        = eulerTensor γ (parallelFlow γ p ρ w z) i 0 := by
      intro y z i h
      simp only [parallelFlow, h]
    have e1 : ∀ i, eulerTensor γ (parallelFlow γ p ρ w ![1, 1 / 2]) i 0
        = eulerTensor γ (parallelFlow γ p ρ w ![1 / 2, 1 / 2]) i 0 := fun i => e0 _ _ i rfl
    have e2 : ∀ i, eulerTensor γ (parallelFlow γ p ρ w ![0, 1 / 2]) i 0
        = eulerTensor γ (parallelFlow γ p ρ w ![1 / 2, 1 / 2]) i 0 := fun i => e0 _ _ i rfl
    simp only [quadratureDefect, Fin.sum_univ_four, Fin.sum_univ_two, sidePoints, unitSquare, h1,
      h2, h3, Finset.univ_unique, Finset.sum_singleton]
    simp [parallelFlow_across hγ hp hρ, e1, e2, mulVec, dotProduct, Fin.sum_univ_two] at *
    rw [e1, e1, e1, e1, e2, e2, e2, e2]
    ring

/-- The density wave of the example. -/
def demoWave : ℝ → (Fin 2 → ℝ) → GasState 2 := densityWave (7 / 5) 1 1 0 fun z => 4 + z

theorem demoWave_defect (φ : HdgTest 2 4 Unit (Fin 4)) (hφ : φ ∈ affineTests) :
    quadratureDefect unitSquare (fun _ => 0) (fun _ => ![1 / 2, 1 / 2]) sidePoints
      (fun y => eulerTensor (7 / 5) (demoWave 0 y))
      (fun _ => -((-((1 : ℝ) * 1)) • ![1, 1, 0, (1 ^ 2 + 0 ^ 2) / 2])) φ = 0 := by
  obtain ⟨a, g, h1, h2, h3⟩ := hφ
  have hγ : (1 : ℝ) < 7 / 5 := by norm_num
  have e0 := fun (y : Fin 2 → ℝ) (h : 0 < 4 + (y 0 - 1 * 0)) =>
    (densityWave_eq (b := 0) (r := fun z => 4 + z) hγ one_pos h).2.2
  have e1 : ∀ y z : Fin 2 → ℝ, y 0 = z 0 → ∀ i,
      eulerTensor (7 / 5) (demoWave 0 y) i 1 = eulerTensor (7 / 5) (demoWave 0 z) i 1 := by
    intro y z h i
    simp only [demoWave, densityWave, h]
  have a0 : ∀ i, eulerTensor (7 / 5) (demoWave 0 ![1, 1 / 2]) i 0 = ![5, 6, 0, 6] i := by
    intro i
    rw [demoWave, e0 ![1, 1 / 2] (by simp; norm_num)]
    fin_cases i <;> norm_num
  have a1 : ∀ i, eulerTensor (7 / 5) (demoWave 0 ![0, 1 / 2]) i 0 = ![4, 5, 0, 11 / 2] i := by
    intro i
    rw [demoWave, e0 ![0, 1 / 2] (by simp)]
    fin_cases i <;> norm_num
  have a2 : ∀ i, eulerTensor (7 / 5) (demoWave 0 ![1 / 2, 1 / 2]) i 0
      = ![9 / 2, 11 / 2, 0, 23 / 4] i := by
    intro i
    rw [demoWave, e0 ![1 / 2, 1 / 2] (by simp; norm_num)]
    fin_cases i <;> norm_num
  have a3 := e1 ![1 / 2, 1] ![1 / 2, 1 / 2] rfl
  have a4 := e1 ![1 / 2, 0] ![1 / 2, 1 / 2] rfl
  simp only [quadratureDefect, Fin.sum_univ_four, Fin.sum_univ_two, sidePoints, unitSquare, h1,
    h2, h3, Finset.univ_unique, Finset.sum_singleton]
  generalize hE : (fun y => eulerTensor (7 / 5) (demoWave 0 y)) = E at *
  have hE' : ∀ y, eulerTensor (7 / 5) (demoWave 0 y) = E y := fun y => congrFun hE y
  simp only [hE'] at *
  simp only [cons_val_zero, cons_val_one, cons_val, a0, a1, a2, a3, a4]
  simp [mulVec, dotProduct, Fin.sum_univ_two]
  ring

open Polynomial Topology in
/-- C80, concrete instance: a density wave moving with velocity 1 through the unit square. All
hypotheses of `C80_polynomial` hold. -/
example (rs : Riemann) (s : Scheme) (t' : ℚ) :
    let x := fun t => eulerSample (7 / 5) unitSquare (fun _ => ![1 / 2, 1 / 2]) sidePoints
      (demoWave t)
    hdgStep unitSquare (fun _ => 0) affineTests (s.quotient (1 / 2)) t' (x 0) (x (0 - 1 / 2))
      (x (0 - 2 * (1 / 2))) := by
  intro x
  have hγ : (1 : ℝ) < 7 / 5 := by norm_num
  have hr : ∀ z : ℝ, HasDerivAt (fun z : ℝ => 4 + z) 1 z := fun z => by
    simpa using (hasDerivAt_id z).const_add (4 : ℝ)
  have hs : ∀ b, 0 < 4 + (sidePoints b 0 - 1 * 0) := fun b => by
    fin_cases b <;> simp [sidePoints] <;> norm_num
  have hm : 0 < 4 + ((![1 / 2, 1 / 2] : Fin 2 → ℝ) 0 - 1 * 0) := by simp; norm_num
  have hS : SolvesEuler (7 / 5) (fun t => {y | 0 < 4 + (y 0 - 1 * t)}) demoWave
      (fun t y => (-((1 : ℝ) * 1)) • ![1, 1, 0, (1 ^ 2 + 0 ^ 2) / 2]) :=
    C80_density_wave hγ 1 0 one_pos hr
  have hx : (x 0).IsEuler (7 / 5) rs unitSquare (fun b => conserved (demoWave 0 (sidePoints b)))
      (fun b => conserved (demoWave 0 (sidePoints b))) :=
    eulerSample_isEuler rs _ unitSquare_normal _ _ (fun _ => hS.gas 0 _ hm)
      fun b => hS.gas 0 _ (hs b)
  have hw : ∀ (v : Unit) i, ((![C (9 / 2) - X, C (9 / 2) - X, 0,
      C (5 / 2) + C (1 / 2) * (C (9 / 2) - X)] : Fin 4 → ℝ[X]) i).natDegree
        ≤ match s with | .implicitEuler => 1 | .bdf2 => 2 := by
    intro v i
    have hX : (C (9 / 2) - X : ℝ[X]).natDegree ≤ 1 := by compute_degree
    have hY : (C (5 / 2) + C (1 / 2) * (C (9 / 2) - X) : ℝ[X]).natDegree ≤ 1 := by compute_degree
    have hZ : ∀ p : ℝ[X], p.natDegree ≤ 1 → p.natDegree ≤ (match s with
        | .implicitEuler => 1 | .bdf2 => 2) := by
      intro p hp
      cases s
      · exact hp
      · exact hp.trans (by norm_num)
    fin_cases i
    · exact hZ _ hX
    · exact hZ _ hX
    · exact hZ _ (by simp)
    · exact hZ _ hY
  have hwU : ∀ τ ∈ Set.Ioo (-2 : ℝ) 2, ∀ (v : Unit) i, conserved (demoWave τ ![1 / 2, 1 / 2]) i
      = ((![C (9 / 2) - X, C (9 / 2) - X, 0,
      C (5 / 2) + C (1 / 2) * (C (9 / 2) - X)] : Fin 4 → ℝ[X]) i).eval τ := by
    rintro τ ⟨h1, h2⟩ v i
    rw [demoWave, (densityWave_eq hγ one_pos (by simp; linarith)).2.1]
    fin_cases i
    · simp; ring
    · simp; ring
    · simp
    · simp; norm_num; ring
  exact C80_polynomial rs unitSquare unitSquare_normal (fun _ => 0) hS 0 (fun _ => ![1 / 2, 1 / 2])
    (fun _ => hm) sidePoints hs x (fun _ _ => rfl) hx (fun _ => Matching.nothing) 0
    (fun v => by simp [spongeResidual, stateVec_dict, bind, Except.bind, eulerSample, x])
    affineTests (fun φ hφ => demoWave_defect φ hφ) s _ hw (1 / 2) (by norm_num) (Set.Ioo (-2) 2)
    (Ioo_mem_nhds (by norm_num) (by norm_num)) (by norm_num) (by norm_num) hwU t'

end Instances

end Dream
