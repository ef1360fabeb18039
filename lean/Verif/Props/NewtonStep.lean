import Verif.Props.Newton
import Verif.Props.Transient
import Mathlib.Analysis.Calculus.InverseFunctionTheorem.ApproximatesLinearOn
import Mathlib.Analysis.Normed.Module.FiniteDimension

/-!
# C90: implicit steps that are short enough can be computed
-/

noncomputable section

namespace Dream

open Metric

variable {X : Type} [NormedAddCommGroup X] [NormedSpace ℝ X] [FiniteDimensional ℝ X]

theorem small_enough {a b : ℝ} (ha : 0 ≤ a) (hb : 0 < b) :
    ∃ e > 0, ∀ ε : ℝ, 0 ≤ ε → ε ≤ e → ε * a ≤ b := by
  refine ⟨b / (a + 1), by positivity, fun ε h0 h => ?_⟩
  rw [le_div_iff₀ (by positivity)] at h
  nlinarith

/-- The derivative of a perturbed equation stays close to that of the unperturbed one in its
solution. -/
theorem perturbed_deriv {F : X → X} {F' G' : X → X →L[ℝ] X} {z : X} {β L R K ρ ε : ℝ}
    (h : RegularSolution F F' z β L R) (hL : 0 ≤ L) (hε : 0 ≤ ε) (hρ0 : 0 ≤ ρ) (hK : 0 ≤ K) (hρ : ρ ≤ R)
    (hGL : ∀ x y, ‖x - z‖ ≤ R → ‖y - z‖ ≤ R → ‖G' x - G' y‖ ≤ K * ‖x - y‖) {x : X}
    (hx : ‖x - z‖ ≤ ρ) :
    ‖F' x + ε • G' x - F' z‖ ≤ L * ρ + ε * (‖G' z‖ + K * R) := by
  have hzz : ‖z - z‖ ≤ R := by rw [sub_self, norm_zero]; linarith
  have e : F' x + ε • G' x - F' z = (F' x - F' z) + ε • (G' x - G' z + G' z) := by
    rw [sub_add_cancel]; abel
  rw [e]
  refine (norm_add_le _ _).trans (add_le_add ?_ ?_)
  · exact (h.lipschitz x z (hx.trans hρ) hzz).trans (mul_le_mul_of_nonneg_left hx hL)
  · rw [norm_smul, Real.norm_of_nonneg hε]
    refine mul_le_mul_of_nonneg_left ?_ hε
    refine (norm_add_le _ _).trans ?_
    have := (hGL x z (hx.trans hρ) hzz).trans (mul_le_mul_of_nonneg_left (hx.trans hρ) hK)
    linarith

/-- Small perturbations of an equation with a regular solution have a regular solution nearby, and
only one. -/
theorem perturbed {F G : X → X} {F' G' : X → X →L[ℝ] X} {z : X} {β L R K : ℝ}
    (h : RegularSolution F F' z β L R) (hβ : 0 < β) (hL : 0 < L) (hR : 0 < R) (hK : 0 ≤ K)
    (hG : ∀ x, ‖x - z‖ ≤ R → HasFDerivAt G (G' x) x)
    (hGL : ∀ x y, ‖x - z‖ ≤ R → ‖y - z‖ ≤ R → ‖G' x - G' y‖ ≤ K * ‖x - y‖) :
    ∃ e > 0, ∃ C, ∃ ρ > 0, ∀ ε, 0 ≤ ε → ε ≤ e → ∃ zε, ‖zε - z‖ ≤ C * ε ∧
      RegularSolution (fun x => F x + ε • G x) (fun x => F' x + ε • G' x) zε (2 * β) (2 * L) (R / 2) ∧
      (∀ x, ‖x - z‖ ≤ ρ → F x + ε • G x = 0 → x = zε) ∧
      ∀ x, ‖x - z‖ ≤ ρ → ‖x - zε‖ ≤ R / 2 ∧ ‖x - zε‖ ≤ 1 / (4 * (2 * β) * (2 * L)) := by
  obtain ⟨ρ, hρ, hρR, hρL⟩ : ∃ ρ > 0, ρ ≤ R / 4 ∧ ρ ≤ 1 / (32 * β * L) :=
    ⟨min (R / 4) (1 / (32 * β * L)), by positivity, min_le_left _ _, min_le_right _ _⟩
  have hLρ : L * ρ ≤ 1 / (4 * β) := by
    rw [le_div_iff₀ (by positivity)] at hρL ⊢
    nlinarith
  obtain ⟨e1, he1, h1⟩ := small_enough (a := ‖G' z‖ + K * R) (b := 1 / (4 * β)) (by positivity)
    (by positivity)
  obtain ⟨e2, he2, h2⟩ := small_enough (a := 2 * β * ‖G z‖) (b := ρ) (by positivity) hρ
  obtain ⟨e3, he3, h3⟩ := small_enough hK hL
  refine ⟨min e1 (min e2 e3), by positivity, 2 * β * ‖G z‖, ρ, hρ, fun ε h0 hε => ?_⟩
  replace h1 := h1 ε h0 (hε.trans (min_le_left _ _))
  replace h2 := h2 ε h0 (hε.trans ((min_le_right _ _).trans (min_le_left _ _)))
  replace h3 := h3 ε h0 (hε.trans ((min_le_right _ _).trans (min_le_right _ _)))
  have hc : L * ρ + ε * (‖G' z‖ + K * R) ≤ 1 / (2 * β) := by
    have : (1 : ℝ) / (2 * β) = 1 / (4 * β) + 1 / (4 * β) := by field_simp; norm_num
    rw [this]; exact add_le_add hLρ h1
  -- the perturbed map is almost linear
  have happ : ApproximatesLinearOn (fun x => F x + ε • G x) (F' z) (closedBall z ρ)
      ⟨1 / (2 * β), by positivity⟩ := by
    intro x hx y hy
    refine Convex.norm_image_sub_le_of_norm_hasFDerivWithin_le' (s := closedBall z ρ)
      (f := fun x => F x + ε • G x) (f' := fun x => F' x + ε • G' x) ?_ ?_ (convex_closedBall z ρ) hy hx
    · intro w hw
      rw [mem_closedBall_iff_norm] at hw
      exact ((h.deriv w (by linarith)).add ((hG w (by linarith)).const_smul ε)).hasFDerivWithinAt
    · intro w hw
      rw [mem_closedBall_iff_norm] at hw
      exact (perturbed_deriv h hL.le h0 hρ.le hK (by linarith) hGL hw).trans hc
  have hinj : Function.Injective (F' z) := (injective_iff_map_eq_zero _).2 fun v hv => by
    have := h.regular v
    rw [hv, norm_zero, mul_zero] at this
    exact norm_le_zero_iff.1 this
  have hsurj : Function.Surjective (F' z) :=
    LinearMap.surjective_of_injective (f := (F' z : X →ₗ[ℝ] X)) hinj
  let inv : (F' z).NonlinearRightInverse :=
    { toFun := fun y => (hsurj y).choose
      nnnorm := ⟨β, hβ.le⟩
      bound' := fun y => by
        have := h.regular (hsurj y).choose
        rwa [(hsurj y).choose_spec] at this
      right_inv' := fun y => (hsurj y).choose_spec }
  have hball : closedBall z (ε * (2 * β * ‖G z‖)) ⊆ closedBall z ρ := closedBall_subset_closedBall h2
  obtain ⟨zε, hzε, hsol⟩ := happ.surjOn_closedBall_of_nonlinearRightInverse inv
    (by positivity) hball (show (0 : X) ∈ _ by
      rw [mem_closedBall, dist_comm, dist_zero_right]
      simp only [h.solution, zero_add, norm_smul, Real.norm_of_nonneg h0]
      change ε * ‖G z‖ ≤ (β⁻¹ - 1 / (2 * β)) * (ε * (2 * β * ‖G z‖))
      apply le_of_eq
      field_simp
      ring)
  have hzρ : ‖zε - z‖ ≤ ρ := by
    rw [← mem_closedBall_iff_norm]; exact hball hzε
  rw [mem_closedBall_iff_norm] at hzε
  refine ⟨zε, by linarith, ?_, ?_, ?_⟩
  · refine ⟨hsol, fun x hx => ?_, fun x y hx hy => ?_, fun v => ?_⟩
    · have : ‖x - z‖ ≤ R := by
        have := norm_add_le (x - zε) (zε - z)
        rw [sub_add_sub_cancel] at this
        linarith
      exact (h.deriv x this).add ((hG x this).const_smul ε)
    · have hx' : ‖x - z‖ ≤ R := by
        have := norm_add_le (x - zε) (zε - z)
        rw [sub_add_sub_cancel] at this
        linarith
      have hy' : ‖y - z‖ ≤ R := by
        have := norm_add_le (y - zε) (zε - z)
        rw [sub_add_sub_cancel] at this
        linarith
      have e : F' x + ε • G' x - (F' y + ε • G' y) = (F' x - F' y) + ε • (G' x - G' y) := by
        rw [smul_sub]; abel
      rw [e]
      refine (norm_add_le _ _).trans ?_
      rw [norm_smul, Real.norm_of_nonneg h0]
      have a := h.lipschitz x y hx' hy'
      have b := mul_le_mul_of_nonneg_left (hGL x y hx' hy') h0
      nlinarith [norm_nonneg (x - y)]
    · have a := h.regular v
      have b : ‖F' z v‖ ≤ ‖(F' zε + ε • G' zε) v‖ + 1 / (2 * β) * ‖v‖ := by
        have e : F' z v = (F' zε + ε • G' zε) v - (F' zε + ε • G' zε - F' z) v := by simp
        rw [e]
        refine (norm_sub_le _ _).trans ?_
        gcongr
        refine (ContinuousLinearMap.le_opNorm _ _).trans ?_
        gcongr
        exact (perturbed_deriv h hL.le h0 hρ.le hK (by linarith) hGL hzρ).trans hc
      have c := mul_le_mul_of_nonneg_left b hβ.le
      rw [mul_add] at c
      have d : β * (1 / (2 * β) * ‖v‖) = 1 / 2 * ‖v‖ := by field_simp
      rw [d] at c
      linarith
  · intro x hx hxs
    have a := happ x (mem_closedBall_iff_norm.2 hx) zε (mem_closedBall_iff_norm.2 hzρ)
    simp only [hxs, hsol, sub_zero, zero_sub, norm_neg] at a
    change ‖F' z (x - zε)‖ ≤ 1 / (2 * β) * ‖x - zε‖ at a
    have b := h.regular (x - zε)
    have c := mul_le_mul_of_nonneg_left a hβ.le
    have d : β * (1 / (2 * β) * ‖x - zε‖) = 1 / 2 * ‖x - zε‖ := by field_simp
    rw [d] at c
    have : ‖x - zε‖ ≤ 0 := by linarith
    exact sub_eq_zero.1 (norm_le_zero_iff.1 this)
  · intro x hx
    have : ‖x - zε‖ ≤ 2 * ρ := by
      have := norm_sub_le (x - z) (zε - z)
      rw [sub_sub_sub_cancel_right] at this
      linarith
    refine ⟨by linarith, this.trans ?_⟩
    have e : (1 : ℝ) / (4 * (2 * β) * (2 * L)) = 2 * (1 / (32 * β * L)) := by field_simp; norm_num
    rw [e]; linarith

/-! ### Implicit steps -/

variable {ι Z : Type} [Fintype ι] [NormedAddCommGroup Z] [NormedSpace ℝ Z] [FiniteDimensional ℝ Z]

/-- The state a scheme extrapolates to when the step vanishes: the last one for implicit Euler,
`(4 u - u₋₁) / 3` for BDF2. -/
def Scheme.target (s : Scheme) (cur prev : ι → ℝ) : ι → ℝ :=
  match s with
  | .implicitEuler => cur
  | .bdf2 => fun i => (4 * cur i - prev i) / 3

/-- The factor of the new state in the difference quotient, times the step. -/
def Scheme.weight : Scheme → ℝ
  | .implicitEuler => 1
  | .bdf2 => 3 / 2

theorem Scheme.weight_pos (s : Scheme) : 0 < s.weight := by cases s <;> norm_num [Scheme.weight]

theorem quotient_target (s : Scheme) {dt : ℝ} (hdt : 0 < dt) (x cur prev : ι → ℝ) :
    dt • (fun i => s.quotient dt (x i) (cur i) (prev i)) = s.weight • (x - s.target cur prev) := by
  funext i
  cases s <;>
  simp only [Pi.smul_apply, Pi.sub_apply, smul_eq_mul, Scheme.quotient, Scheme.weight, Scheme.target,
    _root_.Spec.backwardEuler, _root_.Spec.backward2] <;> field_simp <;> ring

/-- The equations of a step with the rows of the variable that is differentiated in time multiplied
with a number. -/
def scaleRows (a : ℝ) : (ι → ℝ) × Z →L[ℝ] (ι → ℝ) × Z :=
  (a • ContinuousLinearMap.id ℝ (ι → ℝ)).prodMap (ContinuousLinearMap.id ℝ Z)

theorem scaleRows_apply (a : ℝ) (x : (ι → ℝ) × Z) : scaleRows a x = (a • x.1, x.2) := rfl

theorem scaleRows_bijective {a : ℝ} (ha : a ≠ 0) : Function.Bijective (scaleRows (ι := ι) (Z := Z) a) := by
  refine Function.bijective_iff_has_inverse.2 ⟨scaleRows a⁻¹, fun x => ?_, fun x => ?_⟩
  · simp [scaleRows_apply, smul_smul, ha]
  · simp [scaleRows_apply, smul_smul, ha]

/-- Multiplying rows with a number does not change what Newton's method does. -/
theorem scaled_systems {lin : LinOracle ((ι → ℝ) × Z)} {F : (ι → ℝ) × Z → (ι → ℝ) × Z}
    {F' : (ι → ℝ) × Z → (ι → ℝ) × Z →L[ℝ] (ι → ℝ) × Z} {c a : ℝ} (ha : a ≠ 0) (hc : 0 ≤ c)
    (h : SolvesSystems lin F F' c) :
    SolvesSystems lin (fun x => scaleRows a (F x)) (fun x => (scaleRows a).comp (F' x))
      (c * ‖scaleRows (ι := ι) (Z := Z) a⁻¹‖) := by
  intro it x hb
  obtain ⟨δ, e, h1, h2, h3⟩ := h it x (by
    rw [ContinuousLinearMap.coe_comp'] at hb
    exact (Function.Bijective.of_comp_iff' (scaleRows_bijective ha) _).1 hb)
  refine ⟨δ, e, h1, by rw [ContinuousLinearMap.comp_apply, h2], h3.trans ?_⟩
  have e1 : F x = scaleRows a⁻¹ (scaleRows a (F x)) := by
    simp [scaleRows_apply, smul_smul, ha]
  have e2 := (scaleRows (ι := ι) (Z := Z) a⁻¹).le_opNorm (scaleRows a (F x))
  rw [← e1] at e2
  rw [mul_assoc]
  refine mul_le_mul_of_nonneg_left ?_ hc
  have := mul_le_mul_of_nonneg_left e2 (norm_nonneg δ)
  linarith

/-- The rows of the variable that is differentiated in time. -/
def timeRows : (ι → ℝ) × Z →L[ℝ] (ι → ℝ) × Z :=
  (ContinuousLinearMap.inl ℝ (ι → ℝ) Z).comp (ContinuousLinearMap.fst ℝ (ι → ℝ) Z)

theorem timeRows_apply (x : (ι → ℝ) × Z) : timeRows x = (x.1, 0) := rfl

/-- The derivative of the equations of a step, from the derivative `S'` of the forms in space and the
mass matrix `M`. -/
def stepDeriv (s : Scheme) (dt : ℝ) (M : (ι → ℝ) →L[ℝ] (ι → ℝ))
    (S' : (ι → ℝ) × Z → (ι → ℝ) × Z →L[ℝ] (ι → ℝ) × Z) (x : (ι → ℝ) × Z) :
    (ι → ℝ) × Z →L[ℝ] (ι → ℝ) × Z :=
  S' x + (s.weight / dt) • (ContinuousLinearMap.inl ℝ (ι → ℝ) Z).comp
    (M.comp (ContinuousLinearMap.fst ℝ (ι → ℝ) Z))

theorem step_eq (P : Problem ι ((ι → ℝ) × Z) ((ι → ℝ) × Z)) (s : Scheme) (t : ℚ)
    {cur prev z : (ι → ℝ) × Z} (hcomp : ∀ x, P.comp x = x.1) {M : (ι → ℝ) →L[ℝ] (ι → ℝ)}
    (hmass : ∀ d, P.mass d = (M d, 0)) (hz : z.1 = s.target cur.1 prev.1) {dt : ℝ} (hdt : 0 < dt)
    (x : (ι → ℝ) × Z) : P.stepEquation (s.quotient dt) t cur prev x
      = P.spatial t x + ((s.weight / dt) • M (x.1 - z.1), 0) := by
  have h := quotient_target s hdt x.1 cur.1 prev.1
  have h2 : (fun i => s.quotient dt (x.1 i) (cur.1 i) (prev.1 i))
      = (s.weight / dt) • (x.1 - z.1) := by
    rw [hz, div_eq_inv_mul, mul_smul, ← h, smul_smul, inv_mul_cancel₀ hdt.ne', one_smul]
  simp only [Problem.stepEquation, hcomp, hmass, h2, map_smul]

/-- `stepDeriv` is the derivative of the equations. -/
theorem stepDeriv_deriv (P : Problem ι ((ι → ℝ) × Z) ((ι → ℝ) × Z)) (s : Scheme) (t : ℚ)
    {cur prev : (ι → ℝ) × Z} (hcomp : ∀ x, P.comp x = x.1) {M : (ι → ℝ) →L[ℝ] (ι → ℝ)}
    (hmass : ∀ d, P.mass d = (M d, 0)) {dt : ℝ} (hdt : 0 < dt)
    {S' : (ι → ℝ) × Z → (ι → ℝ) × Z →L[ℝ] (ι → ℝ) × Z} {x : (ι → ℝ) × Z}
    (hS : HasFDerivAt (P.spatial t) (S' x) x) :
    HasFDerivAt (P.stepEquation (s.quotient dt) t cur prev) (stepDeriv s dt M S' x) x := by
  have e : P.stepEquation (s.quotient dt) t cur prev = fun x => P.spatial t x
      + (((s.weight / dt) • (ContinuousLinearMap.inl ℝ (ι → ℝ) Z).comp
        (M.comp (ContinuousLinearMap.fst ℝ (ι → ℝ) Z))) x
        - ((s.weight / dt) • M (s.target cur.1 prev.1), 0)) := by
    funext x
    rw [step_eq P s t (z := (s.target cur.1 prev.1, 0)) hcomp hmass rfl hdt]
    congr 1
    simp [map_sub, smul_sub]
  rw [e]
  exact hS.add ((ContinuousLinearMap.hasFDerivAt _).sub_const _)

/-- **C90** Steps that are short enough can be computed. Let the unknowns consist of those that are
differentiated in time and others (the facet unknowns, gradients), whose equations determine them
uniquely to first order near `z`, the state the scheme extrapolates to. Then there are a longest
step and a distance such that for every shorter step the equations of the step have exactly one
solution within that distance of `z`; it tends to `z` as fast as the step; and Newton's method
started from anywhere within that distance reports convergence to it, for every criterion, every
damping factor in `(0, 1]` and every linear solver, if the allowed number of iterations is large
enough. -/
theorem C90_small_steps (P : Problem ι ((ι → ℝ) × Z) ((ι → ℝ) × Z)) (s : Scheme) (t : ℚ)
    (cur prev z : (ι → ℝ) × Z) (hcomp : ∀ x, P.comp x = x.1) (M : (ι → ℝ) →L[ℝ] (ι → ℝ))
    (hM : Function.Injective M) (hmass : ∀ d, P.mass d = (M d, 0))
    (S' : (ι → ℝ) × Z → (ι → ℝ) × Z →L[ℝ] (ι → ℝ) × Z) (K R : ℝ) (hR : 0 < R)
    (hS : ∀ x, ‖x - z‖ ≤ R → HasFDerivAt (P.spatial t) (S' x) x)
    (hSL : ∀ x y, ‖x - z‖ ≤ R → ‖y - z‖ ≤ R → ‖S' x - S' y‖ ≤ K * ‖x - y‖)
    (hz : z.1 = s.target cur.1 prev.1) (hz2 : (P.spatial t z).2 = 0)
    (hreg : ∀ ζ : Z, (S' z (0, ζ)).2 = 0 → ζ = 0) :
    ∃ dt₀ > 0, ∃ C, ∃ ρ > 0, ∀ dt, 0 < dt → dt ≤ dt₀ →
      ∃ sol, P.stepEquation (s.quotient dt) t cur prev sol = 0 ∧ ‖sol - z‖ ≤ C * dt ∧
        (∀ x, ‖x - z‖ ≤ ρ → P.stepEquation (s.quotient dt) t cur prev x = 0 → x = sol) ∧
        ∀ c crit ω, 0 ≤ c → 0 < crit → 0 < ω → ω ≤ 1 → ∃ m : ℤ,
          ∀ N : Newton ((ι → ℝ) × Z) ((ι → ℝ) × Z),
          SolvesSystems (N.lin (P.stepEquation (s.quotient dt) t cur prev))
            (P.stepEquation (s.quotient dt) t cur prev) (stepDeriv s dt M S') c →
          N.damping = ω → N.crit = crit → m ≤ N.maxIter → ∀ x, ‖x - z‖ ≤ ρ →
          let r := N.solve (P.stepEquation (s.quotient dt) t cur prev) x
          r.isConverged = true ∧ r.isNan = false ∧
            ‖r.u - sol‖ ≤ (1 - ω / 2) ^ r.solves * ‖x - sol‖ := by
  -- the equations multiplied with the step, and their limit
  let F : (ι → ℝ) × Z → (ι → ℝ) × Z := fun x => scaleRows 0 (P.spatial t x) + (s.weight • M (x.1 - z.1), 0)
  let B : (ι → ℝ) × Z →L[ℝ] (ι → ℝ) × Z := s.weight • (ContinuousLinearMap.inl ℝ (ι → ℝ) Z).comp
    (M.comp (ContinuousLinearMap.fst ℝ (ι → ℝ) Z))
  let F' : (ι → ℝ) × Z → (ι → ℝ) × Z →L[ℝ] (ι → ℝ) × Z := fun x => (scaleRows 0).comp (S' x) + B
  let G : (ι → ℝ) × Z → (ι → ℝ) × Z := fun x => timeRows (P.spatial t x)
  let G' : (ι → ℝ) × Z → (ι → ℝ) × Z →L[ℝ] (ι → ℝ) × Z := fun x => timeRows.comp (S' x)
  have hB : ∀ x : (ι → ℝ) × Z, B x = (s.weight • M x.1, 0) := fun x => by simp [B]
  have hn0 : ∀ v : (ι → ℝ) × Z, ‖scaleRows 0 v‖ ≤ ‖v‖ := fun v => by
    rw [scaleRows_apply, zero_smul, Prod.norm_mk, norm_zero, max_eq_right (norm_nonneg _)]
    exact norm_snd_le v
  have hn1 : ∀ v : (ι → ℝ) × Z, ‖timeRows v‖ ≤ ‖v‖ := fun v => by
    rw [timeRows_apply, Prod.norm_mk, norm_zero, max_eq_left (norm_nonneg _)]
    exact norm_fst_le v
  have hcomp_norm : ∀ (T A : (ι → ℝ) × Z →L[ℝ] (ι → ℝ) × Z), (∀ v, ‖T v‖ ≤ ‖v‖) → ‖T.comp A‖ ≤ ‖A‖ :=
    fun T A hT => ContinuousLinearMap.opNorm_le_bound _ (norm_nonneg _) fun v =>
      (hT _).trans (A.le_opNorm v)
  have hinj : Function.Injective (F' z) := (injective_iff_map_eq_zero _).2 fun v hv => by
    simp only [F', ContinuousLinearMap.add_apply, ContinuousLinearMap.comp_apply, scaleRows_apply, hB,
      zero_smul, Prod.mk_add_mk, zero_add, add_zero, Prod.mk_eq_zero] at hv
    have h1 : v.1 = 0 := by
      apply hM
      rw [map_zero]
      exact (smul_eq_zero.1 hv.1).resolve_left s.weight_pos.ne'
    have h2 : v.2 = 0 := hreg _ (by
      rw [← h1]; exact hv.2)
    exact Prod.ext h1 h2
  obtain ⟨β, hβ, hanti⟩ := LinearMap.exists_antilipschitzWith (F' z : (ι → ℝ) × Z →ₗ[ℝ] (ι → ℝ) × Z)
    (LinearMap.ker_eq_bot.2 hinj)
  have hL : (0 : ℝ) < max K 1 := lt_max_of_lt_right one_pos
  have hreg' : RegularSolution F F' z β (max K 1) R := by
    refine ⟨?_, fun x hx => ?_, fun x y hx hy => ?_, fun v => ?_⟩
    · simp only [F, scaleRows_apply, hz2, sub_self, map_zero, smul_zero, zero_smul, Prod.mk_add_mk, add_zero]
      rfl
    · have e : F = fun x => scaleRows 0 (P.spatial t x) + (B x - (s.weight • M z.1, 0)) := by
        funext x
        simp only [F, hB, map_sub, smul_sub, Prod.mk_sub_mk, sub_zero]
      rw [e]
      exact ((scaleRows 0).hasFDerivAt.comp x (hS x hx)).add (B.hasFDerivAt.sub_const _)
    · have e : F' x - F' y = (scaleRows 0).comp (S' x - S' y) := by
        simp only [F', ContinuousLinearMap.comp_sub]; abel
      rw [e]
      refine (hcomp_norm _ _ hn0).trans ((hSL x y hx hy).trans ?_)
      gcongr
      exact le_max_left _ _
    · exact ContinuousLinearMap.bound_of_antilipschitz (F' z) hanti v
  obtain ⟨e, he, C, ρ, hρ, key⟩ := perturbed (G := G) (G' := G') hreg' hβ hL hR hL.le
    (fun x hx => (timeRows (ι := ι) (Z := Z)).hasFDerivAt.comp x (hS x hx)) (fun x y hx hy => by
      have e : G' x - G' y = timeRows.comp (S' x - S' y) := by
        simp only [G', ContinuousLinearMap.comp_sub]
      rw [e]
      refine (hcomp_norm _ _ hn1).trans ((hSL x y hx hy).trans ?_)
      gcongr
      exact le_max_left _ _)
  refine ⟨e, he, C, ρ, hρ, fun dt hdt hle => ?_⟩
  obtain ⟨sol, k1, k2, k3, k4⟩ := key dt hdt.le hle
  have hF : (fun x => F x + dt • G x)
      = fun x => scaleRows dt (P.stepEquation (s.quotient dt) t cur prev x) := by
    funext x
    rw [step_eq P s t hcomp hmass hz hdt]
    simp only [F, G, scaleRows_apply, timeRows_apply, Prod.fst_add, Prod.snd_add, zero_smul, smul_add,
      smul_smul, mul_div_cancel₀ _ hdt.ne', Prod.smul_mk, smul_zero, Prod.mk_add_mk, add_zero, zero_add]
    rw [add_comm]
  have hF' : (fun x => F' x + dt • G' x) = fun x => (scaleRows dt).comp (stepDeriv s dt M S' x) := by
    funext x
    refine ContinuousLinearMap.ext fun v => ?_
    simp only [F', G', ContinuousLinearMap.add_apply, ContinuousLinearMap.comp_apply,
      ContinuousLinearMap.smul_apply, scaleRows_apply, timeRows_apply, stepDeriv, hB, zero_smul,
      Prod.fst_add, Prod.snd_add, Prod.smul_mk, smul_zero, Prod.mk_add_mk, add_zero, zero_add,
      ContinuousLinearMap.inl_apply, ContinuousLinearMap.coe_fst', smul_add, smul_smul,
      mul_div_cancel₀ _ hdt.ne']
    rw [add_comm]
  have hzero : ∀ x, P.stepEquation (s.quotient dt) t cur prev x = 0 ↔ F x + dt • G x = 0 := fun x => by
    rw [show F x + dt • G x = scaleRows dt (P.stepEquation (s.quotient dt) t cur prev x) from
      congrFun hF x]
    refine ⟨fun h => by rw [h, map_zero], fun h => ?_⟩
    exact (scaleRows_bijective hdt.ne').1 (h.trans (map_zero _).symm)
  rw [hF, hF'] at k2
  refine ⟨sol, (hzero _).2 ((congrFun hF sol).trans k2.solution), k1,
    fun x hx h => k3 x hx ((hzero x).1 h), fun c crit ω hc hcrit h0 h1 => ?_⟩
  have hc' : 0 ≤ c * ‖scaleRows (ι := ι) (Z := Z) dt⁻¹‖ := by positivity
  obtain ⟨m, hm⟩ := C90_reported k2 (by positivity) (by positivity) (by positivity) hc' crit ω hcrit h0 h1
  refine ⟨m, fun N hN hd hcr hmax x hx => ?_⟩
  let N' : Newton ((ι → ℝ) × Z) ((ι → ℝ) × Z) :=
    { N with lin := fun _ => N.lin (P.stepEquation (s.quotient dt) t cur prev) }
  have hN' := scaled_systems hdt.ne' hc hN
  obtain ⟨x1, x2⟩ := k4 x hx
  have a := hm N' hN' hd hcr hmax x x1 x2
  have b := C90_linear (N := N') k2 (by positivity) (by positivity) (by positivity) hN'
    (by rw [show N'.damping = ω from hd]; exact h0) (by rw [show N'.damping = ω from hd]; exact h1) x x1 x2
  rw [show N'.damping = ω from hd] at b
  exact ⟨a.1, a.2, b.2.1⟩

/-! ### Example -/

/-- `y' + w = 0`, where `w` is determined by `w = y²`. -/
def boundProblem : Problem (Fin 1) ((Fin 1 → ℝ) × ℝ) ((Fin 1 → ℝ) × ℝ) where
  spatial := fun _ x => (fun _ => x.2, x.2 - x.1 0 ^ 2)
  mass := fun d => (d, 0)
  comp := Prod.fst

/-- The first unknown. -/
def firstUnknown : (Fin 1 → ℝ) × ℝ →L[ℝ] ℝ :=
  (ContinuousLinearMap.proj (R := ℝ) (φ := fun _ : Fin 1 => ℝ) 0).comp
    (ContinuousLinearMap.fst ℝ (Fin 1 → ℝ) ℝ)

def boundDeriv (x : (Fin 1 → ℝ) × ℝ) : (Fin 1 → ℝ) × ℝ →L[ℝ] (Fin 1 → ℝ) × ℝ :=
  (ContinuousLinearMap.pi fun _ => ContinuousLinearMap.snd ℝ (Fin 1 → ℝ) ℝ).prod
    (ContinuousLinearMap.snd ℝ (Fin 1 → ℝ) ℝ - (2 * x.1 0) • firstUnknown)

theorem bound_deriv (t : ℚ) (x : (Fin 1 → ℝ) × ℝ) : HasFDerivAt (boundProblem.spatial t) (boundDeriv x) x := by
  have h1 : HasFDerivAt (fun (x : (Fin 1 → ℝ) × ℝ) (_ : Fin 1) => x.2)
      (ContinuousLinearMap.pi fun _ => ContinuousLinearMap.snd ℝ (Fin 1 → ℝ) ℝ) x :=
    (ContinuousLinearMap.pi fun _ : Fin 1 => ContinuousLinearMap.snd ℝ (Fin 1 → ℝ) ℝ).hasFDerivAt
  refine h1.prodMk ((ContinuousLinearMap.snd ℝ (Fin 1 → ℝ) ℝ).hasFDerivAt.sub ?_)
  have h : HasFDerivAt (fun x : (Fin 1 → ℝ) × ℝ => x.1 0) firstUnknown x := firstUnknown.hasFDerivAt
  have := h.pow 2
  simpa using this

theorem bound_lipschitz (x y : (Fin 1 → ℝ) × ℝ) : ‖boundDeriv x - boundDeriv y‖ ≤ 2 * ‖x - y‖ := by
  refine ContinuousLinearMap.opNorm_le_bound _ (by positivity) fun v => ?_
  have e : (boundDeriv x - boundDeriv y) v = (0, -(2 * ((x - y).1 0) * v.1 0)) := by
    refine Prod.ext ?_ ?_
    · funext i
      simp [boundDeriv]
    · simp [boundDeriv, firstUnknown]; ring
  rw [e, Prod.norm_mk, norm_zero, max_eq_right (norm_nonneg _), norm_neg, norm_mul, norm_mul, Real.norm_two]
  have a : ‖(x - y).1 0‖ ≤ ‖x - y‖ := (norm_le_pi_norm _ 0).trans (norm_fst_le _)
  have b : ‖v.1 0‖ ≤ ‖v‖ := (norm_le_pi_norm _ 0).trans (norm_fst_le _)
  gcongr

/-- C90, concrete instance: both schemes, from the states 1 and 2, whatever the second unknown of the
start is. -/
example (s : Scheme) : ∃ dt₀ > 0, ∀ dt, 0 < dt → dt ≤ dt₀ →
    ∃ sol, boundProblem.stepEquation (s.quotient dt) 0 (fun _ => 1, 5) (fun _ => 2, 7) sol = 0 := by
  obtain ⟨dt₀, h0, C, ρ, -, h⟩ := C90_small_steps boundProblem s 0 (fun _ => 1, 5) (fun _ => 2, 7)
    (s.target (fun _ => 1) (fun _ => 2), s.target (fun _ : Fin 1 => 1) (fun _ => 2) 0 ^ 2) (fun _ => rfl)
    (ContinuousLinearMap.id ℝ _) Function.injective_id (fun _ => rfl) boundDeriv 2 1 one_pos
    (fun x _ => bound_deriv 0 x) (fun x y _ _ => bound_lipschitz x y) rfl (sub_self _)
    (fun ζ hζ => by simpa [boundDeriv, firstUnknown] using hζ)
  refine ⟨dt₀, h0, fun dt a b => ?_⟩
  obtain ⟨sol, hs, -⟩ := h dt a b
  exact ⟨sol, hs⟩

end Dream
