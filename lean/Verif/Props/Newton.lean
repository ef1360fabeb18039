import Verif.Spec.Newton
import Mathlib.Analysis.Calculus.MeanValue
import Mathlib.LinearAlgebra.FiniteDimensional.Basic
import Mathlib.Analysis.SpecificLimits.Basic
import Mathlib.Analysis.Calculus.Deriv.Pow
import Mathlib.Analysis.InnerProductSpace.PiL2

/-!
# C90: local convergence of Newton's method
-/

noncomputable section

namespace Dream

variable {X : Type} [NormedAddCommGroup X] [NormedSpace ℝ X] [FiniteDimensional ℝ X]
  {F : X → X} {F' : X → X →L[ℝ] X} {z : X} {β L R : ℝ}

/-- Near a regular solution the derivative can be inverted, with a bound. -/
theorem regular_near (h : RegularSolution F F' z β L R) (hβ : 0 < β) (hL : 0 < L) (hR : 0 ≤ R) {x : X}
    (hx : ‖x - z‖ ≤ R) (hr : 4 * (β * L) * ‖x - z‖ ≤ 1) :
    Function.Bijective (F' x) ∧ ∀ v, ‖v‖ ≤ 2 * β * ‖F' x v‖ := by
  have hb : ∀ v, ‖v‖ ≤ 2 * β * ‖F' x v‖ := by
    intro v
    have h1 := h.regular v
    have h2 : ‖F' z v‖ ≤ ‖F' x v‖ + L * ‖x - z‖ * ‖v‖ := by
      have e : F' z v = F' x v - (F' x - F' z) v := by simp
      rw [e]
      refine (norm_sub_le _ _).trans ?_
      gcongr
      refine (ContinuousLinearMap.le_opNorm _ _).trans ?_
      gcongr
      exact h.lipschitz x z hx (by simpa using hR)
    have h3 : β * (L * ‖x - z‖ * ‖v‖) ≤ 1 / 4 * ‖v‖ := by
      have := mul_le_mul_of_nonneg_right hr (norm_nonneg v)
      nlinarith
    have h4 := mul_le_mul_of_nonneg_left h2 hβ.le
    have h5 : 0 ≤ β * ‖F' x v‖ := by positivity
    nlinarith [norm_nonneg v]
  have hi : Function.Injective (F' x) := by
    rw [injective_iff_map_eq_zero]
    intro v hv
    have := hb v
    rw [hv, norm_zero, mul_zero] at this
    exact norm_le_zero_iff.1 this
  exact ⟨⟨hi, (LinearMap.injective_iff_surjective (f := (F' x : X →ₗ[ℝ] X))).1 hi⟩, hb⟩

/-- One full step of Newton's method. -/
theorem newton_increment (h : RegularSolution F F' z β L R) (hβ : 0 < β) (hL : 0 < L) (hR : 0 ≤ R)
    {x δ : X} (hx : ‖x - z‖ ≤ R) (hr : 4 * (β * L) * ‖x - z‖ ≤ 1) (hδ : F' x δ = F x) :
    ‖x - z - δ‖ ≤ 2 * (β * L) * ‖x - z‖ ^ 2 := by
  have h1 : ‖F z - F x - F' x (z - x)‖ ≤ L * ‖x - z‖ * ‖z - x‖ := by
    have hs : Convex ℝ (Metric.closedBall z ‖x - z‖) := convex_closedBall _ _
    have hsub : ∀ y ∈ Metric.closedBall z ‖x - z‖ ∩ Metric.closedBall x ‖x - z‖, ‖y - z‖ ≤ R := by
      intro y hy
      have := hy.1
      rw [Metric.mem_closedBall, dist_eq_norm] at this
      exact this.trans hx
    refine Convex.norm_image_sub_le_of_norm_hasFDerivWithin_le'
      (s := Metric.closedBall z ‖x - z‖ ∩ Metric.closedBall x ‖x - z‖) (f' := F')
      (fun y hy => (h.deriv y (hsub y hy)).hasFDerivWithinAt) (fun y hy => ?_)
      (hs.inter (convex_closedBall _ _)) ?_ ?_
    · have := hy.2
      rw [Metric.mem_closedBall, dist_eq_norm] at this
      exact (h.lipschitz y x (hsub y hy) hx).trans (by gcongr)
    · simp [dist_eq_norm]
    · simp [dist_eq_norm, norm_sub_rev]
  have h2 : F' x (x - z - δ) = F z - F x - F' x (z - x) := by
    rw [map_sub, hδ, h.solution, ← neg_sub x z, map_neg]
    abel
  refine ((regular_near h hβ hL hR hx hr).2 _).trans ?_
  rw [h2]
  rw [norm_sub_rev z x] at h1
  have := mul_le_mul_of_nonneg_left h1 (by positivity : 0 ≤ 2 * β)
  nlinarith

/-- One damped step. -/
theorem newton_damped (h : RegularSolution F F' z β L R) (hβ : 0 < β) (hL : 0 < L) (hR : 0 ≤ R)
    {ω : ℝ} (h0 : 0 < ω) (h1 : ω ≤ 1)
    {x δ : X} (hx : ‖x - z‖ ≤ R) (hr : 4 * (β * L) * ‖x - z‖ ≤ 1) (hδ : F' x δ = F x) :
    ‖newtonUpdate ω x δ - z‖ ≤ (1 - ω / 2) * ‖x - z‖ := by
  have e : newtonUpdate ω x δ - z = (1 - ω) • (x - z) + ω • (x - z - δ) := by
    simp only [newtonUpdate, sub_smul, one_smul, smul_sub]
    abel
  rw [e]
  refine (norm_add_le _ _).trans ?_
  rw [norm_smul, norm_smul, Real.norm_of_nonneg (by linarith), Real.norm_of_nonneg h0.le]
  have h2 := newton_increment h hβ hL hR hx hr hδ
  have h3 : 2 * (β * L) * ‖x - z‖ ^ 2 ≤ 1 / 2 * ‖x - z‖ := by
    have := mul_le_mul_of_nonneg_right hr (norm_nonneg (x - z))
    nlinarith
  have := mul_le_mul_of_nonneg_left (h2.trans h3) h0.le
  nlinarith

/-- The reported error is quadratic in the distance. -/
theorem newton_error (h : RegularSolution F F' z β L R) (hβ : 0 < β) (hL : 0 < L) (hR : 0 ≤ R) {c : ℝ}
    (hc : 0 ≤ c) {x δ : X} {e : ℝ} (hx : ‖x - z‖ ≤ R) (hr : 4 * (β * L) * ‖x - z‖ ≤ 1)
    (hδ : F' x δ = F x) (he : |e| ≤ c * (‖δ‖ * ‖F x‖)) :
    e ≤ c * (3 / 2 * (3 / 2 * (‖F' z‖ + L * R))) * ‖x - z‖ ^ 2 := by
  have h2 := newton_increment h hβ hL hR hx hr hδ
  have h3 : 2 * (β * L) * ‖x - z‖ ^ 2 ≤ 1 / 2 * ‖x - z‖ := by
    have := mul_le_mul_of_nonneg_right hr (norm_nonneg (x - z))
    nlinarith
  have h4 : ‖δ‖ ≤ 3 / 2 * ‖x - z‖ := by
    have : δ = (x - z) - (x - z - δ) := by abel
    rw [this]
    refine (norm_sub_le _ _).trans ?_
    linarith
  have h5 : ‖F x‖ ≤ (‖F' z‖ + L * R) * ‖δ‖ := by
    rw [← hδ]
    refine (ContinuousLinearMap.le_opNorm _ _).trans ?_
    gcongr
    have e : F' x = F' z + (F' x - F' z) := by abel
    rw [e]
    refine (norm_add_le _ _).trans ?_
    gcongr
    refine (h.lipschitz x z hx (by simpa using hR)).trans ?_
    gcongr
  have h6 : 0 ≤ ‖F' z‖ + L * R := by positivity
  refine (le_abs_self e).trans (he.trans ?_)
  rw [mul_assoc c]
  refine mul_le_mul_of_nonneg_left ?_ hc
  calc ‖δ‖ * ‖F x‖ ≤ (3 / 2 * ‖x - z‖) * ((‖F' z‖ + L * R) * (3 / 2 * ‖x - z‖)) := by
        gcongr
        exact h5.trans (by gcongr)
    _ = _ := by ring

/-- What a pass through the loop does near a solution. -/
theorem newton_loop (h : RegularSolution F F' z β L R) (hβ : 0 < β) (hL : 0 < L) (hR : 0 ≤ R)
    {lin : LinOracle X} {c : ℝ} (hlin : SolvesSystems lin F F' c) {ω : ℝ} (h0 : 0 < ω)
    (h1 : ω ≤ 1) (crit : ℝ) (n it : ℕ) (st : NLState X) (hn : st.isNan = false)
    (hx : ‖st.u - z‖ ≤ R) (hr : 4 * (β * L) * ‖st.u - z‖ ≤ 1) :
    let s := nlLoop lin (newtonUpdate ω) crit n it st
    s.isNan = false ∧ ∃ k, s.solves = st.solves + k ∧ k ≤ n ∧
      ‖s.u - z‖ ≤ (1 - ω / 2) ^ k * ‖st.u - z‖ ∧
      (ω = 1 → 2 * (β * L) * ‖s.u - z‖ ≤ (2 * (β * L) * ‖st.u - z‖) ^ 2 ^ k) ∧
      (s.isConverged = false → st.isConverged = false → k = n) := by
  induction n generalizing it st with
  | zero => exact ⟨hn, 0, rfl, le_refl _, by simp [nlLoop], by simp [nlLoop], by simp⟩
  | succ n ih =>
    obtain ⟨δ, e, hl, hδ, -⟩ := hlin it st.u (regular_near h hβ hL hR hx hr).1
    have hd := newton_damped h hβ hL hR h0 h1 hx hr hδ
    have hle : (1 - ω / 2) * ‖st.u - z‖ ≤ ‖st.u - z‖ := by nlinarith [norm_nonneg (st.u - z)]
    have hq : ω = 1 → 2 * (β * L) * ‖newtonUpdate ω st.u δ - z‖ ≤ (2 * (β * L) * ‖st.u - z‖) ^ 2 := by
      intro hw
      have h2 := newton_increment h hβ hL hR hx hr hδ
      have e2 : newtonUpdate ω st.u δ - z = st.u - z - δ := by
        rw [hw, newtonUpdate, one_smul]; abel
      rw [e2]
      have := mul_le_mul_of_nonneg_left h2 (by positivity : 0 ≤ 2 * (β * L))
      nlinarith
    simp only [nlLoop, hl, setIterationError, hn, Bool.false_eq_true, if_false]
    split_ifs with hc
    · exact ⟨rfl, 1, rfl, by omega, by simpa using hd, by simpa using hq, fun h => by simp [hc] at h⟩
    · obtain ⟨a, k, b1, b2, b3, b4, b5⟩ := ih (it + 1)
        { u := newtonUpdate ω st.u δ, yields := st.yields ++ [it], solves := st.solves + 1,
          isNan := st.isNan, isConverged := decide (e < crit) } hn (hd.trans (hle.trans hx))
        ((mul_le_mul_of_nonneg_left (hd.trans hle) (by positivity)).trans hr)
      simp only [hn] at a b1 b3 b4 b5
      refine ⟨a, k + 1, by rw [b1]; ring, by omega, ?_, ?_, ?_⟩
      · refine b3.trans ?_
        have : 0 ≤ (1 - ω / 2) ^ k := pow_nonneg (by linarith) _
        calc (1 - ω / 2) ^ k * ‖newtonUpdate ω st.u δ - z‖
            ≤ (1 - ω / 2) ^ k * ((1 - ω / 2) * ‖st.u - z‖) := by gcongr
          _ = _ := by ring
      · intro hw
        refine (b4 hw).trans ?_
        rw [pow_succ, mul_comm (2 ^ k) 2, pow_mul]
        gcongr
        exact hq hw
      · intro hs _
        rw [b5 hs (by simpa using hc)]

/-- Convergence is reported as soon as the distance is small enough. -/
theorem newton_reports (h : RegularSolution F F' z β L R) (hβ : 0 < β) (hL : 0 < L) (hR : 0 ≤ R)
    {lin : LinOracle X} {c : ℝ} (hc : 0 ≤ c) (hlin : SolvesSystems lin F F' c) {ω : ℝ} (h0 : 0 < ω)
    (h1 : ω ≤ 1) (crit : ℝ) (m n it : ℕ) (st : NLState X) (hn : st.isNan = false)
    (hx : ‖st.u - z‖ ≤ R) (hr : 4 * (β * L) * ‖st.u - z‖ ≤ 1) (hmn : m < n)
    (hm : c * (3 / 2 * (3 / 2 * (‖F' z‖ + L * R))) * ((1 - ω / 2) ^ m * ‖st.u - z‖) ^ 2 < crit) :
    (nlLoop lin (newtonUpdate ω) crit n it st).isConverged = true := by
  induction m generalizing n it st with
  | zero =>
    obtain ⟨n, rfl⟩ : ∃ k, n = k + 1 := ⟨n - 1, by omega⟩
    obtain ⟨δ, e, hl, hδ, he⟩ := hlin it st.u (regular_near h hβ hL hR hx hr).1
    have h2 := newton_error h hβ hL hR hc hx hr hδ he
    rw [pow_zero, one_mul] at hm
    have h3 : e < crit := lt_of_le_of_lt h2 hm
    simp [nlLoop, hl, setIterationError, hn, h3]
  | succ m ih =>
    obtain ⟨n, rfl⟩ : ∃ k, n = k + 1 := ⟨n - 1, by omega⟩
    obtain ⟨δ, e, hl, hδ, -⟩ := hlin it st.u (regular_near h hβ hL hR hx hr).1
    have hd := newton_damped h hβ hL hR h0 h1 hx hr hδ
    have hle : (1 - ω / 2) * ‖st.u - z‖ ≤ ‖st.u - z‖ := by nlinarith [norm_nonneg (st.u - z)]
    simp only [nlLoop, hl, setIterationError, hn, Bool.false_eq_true, if_false]
    split_ifs with hcv
    · exact hcv
    · refine ih n (it + 1) _ rfl (hd.trans (hle.trans hx))
        ((mul_le_mul_of_nonneg_left (hd.trans hle) (by positivity)).trans hr) (by omega) ?_
      refine lt_of_le_of_lt ?_ hm
      have : 0 ≤ (1 - ω / 2) ^ m := pow_nonneg (by linarith) _
      have hK : 0 ≤ ‖F' z‖ + L * R := by positivity
      refine mul_le_mul_of_nonneg_left ?_ (by positivity)
      refine pow_le_pow_left₀ (by positivity) ?_ 2
      calc (1 - ω / 2) ^ m * ‖newtonUpdate ω st.u δ - z‖
          ≤ (1 - ω / 2) ^ m * ((1 - ω / 2) * ‖st.u - z‖) := by gcongr
        _ = _ := by ring

variable {N : Newton X X} {c : ℝ}

/-- **C90** Close to a regular solution a nonlinear solve never ends in NaN, and the distance to the
solution shrinks at least by the factor `1 - damping / 2` with each linear solve: whatever the
convergence criterion and the number of iterations are. If the solve did not report convergence it
used all of its iterations. -/
theorem C90_linear (h : RegularSolution F F' z β L R) (hβ : 0 < β) (hL : 0 < L) (hR : 0 ≤ R)
    (hN : SolvesSystems (N.lin F) F F' c) (h0 : 0 < N.damping) (h1 : N.damping ≤ 1) (x : X)
    (hx : ‖x - z‖ ≤ R) (hr : ‖x - z‖ ≤ 1 / (4 * β * L)) :
    (N.solve F x).isNan = false ∧
    ‖(N.solve F x).u - z‖ ≤ (1 - N.damping / 2) ^ (N.solve F x).solves * ‖x - z‖ ∧
    ((N.solve F x).isConverged = false → (N.solve F x).solves = N.maxIter.toNat) := by
  have hr' : 4 * (β * L) * ‖x - z‖ ≤ 1 := by
    rw [le_div_iff₀ (by positivity)] at hr
    linarith
  obtain ⟨a, k, b1, b2, b3, -, b5⟩ := newton_loop h hβ hL hR hN h0 h1 N.crit N.maxIter.toNat 0
    { u := x, yields := [], solves := 0, isNan := false, isConverged := false } rfl hx hr'
  refine ⟨a, ?_, fun hc => ?_⟩
  · have : (N.solve F x).solves = k := b1.trans (zero_add k)
    rw [this]
    exact b3
  · exact b1.trans ((zero_add k).trans (b5 hc rfl))

/-- **C90** Without damping the convergence is quadratic: in units of `1 / (2 β L)` the distance is
squared with each linear solve. -/
theorem C90_quadratic (h : RegularSolution F F' z β L R) (hβ : 0 < β) (hL : 0 < L) (hR : 0 ≤ R)
    (hN : SolvesSystems (N.lin F) F F' c) (hd : N.damping = 1) (x : X)
    (hx : ‖x - z‖ ≤ R) (hr : ‖x - z‖ ≤ 1 / (4 * β * L)) :
    2 * β * L * ‖(N.solve F x).u - z‖ ≤ (2 * β * L * ‖x - z‖) ^ 2 ^ (N.solve F x).solves ∧
    2 * β * L * ‖x - z‖ ≤ 1 / 2 := by
  have hr' : 4 * (β * L) * ‖x - z‖ ≤ 1 := by
    rw [le_div_iff₀ (by positivity)] at hr
    linarith
  obtain ⟨a, k, b1, b2, b3, b4, -⟩ := newton_loop h hβ hL hR hN (by rw [hd]; exact one_pos)
    (le_of_eq hd) N.crit N.maxIter.toNat 0
    { u := x, yields := [], solves := 0, isNan := false, isConverged := false } rfl hx hr'
  have e : (N.solve F x).solves = k := b1.trans (zero_add k)
  rw [e]
  refine ⟨?_, by linarith⟩
  have := b4 hd
  simpa only [mul_assoc, Newton.solve, nlSolve] using this

/-- **C90** Convergence is reported: for every criterion and damping factor there is a number of
iterations that suffices from every start close to the solution. -/
theorem C90_reported (h : RegularSolution F F' z β L R) (hβ : 0 < β) (hL : 0 < L) (hR : 0 ≤ R)
    (hc : 0 ≤ c) (crit ω : ℝ) (hcrit : 0 < crit) (h0 : 0 < ω) (h1 : ω ≤ 1) :
    ∃ m : ℤ, ∀ N : Newton X X, SolvesSystems (N.lin F) F F' c → N.damping = ω → N.crit = crit →
      m ≤ N.maxIter → ∀ x, ‖x - z‖ ≤ R → ‖x - z‖ ≤ 1 / (4 * β * L) →
        (N.solve F x).isConverged = true ∧ (N.solve F x).isNan = false := by
  have hq : (1 - ω / 2) ^ 2 < 1 := by nlinarith
  have hlim : Filter.Tendsto (fun m : ℕ => c * (3 / 2 * (3 / 2 * (‖F' z‖ + L * R)))
      * ((1 - ω / 2) ^ m * R) ^ 2) Filter.atTop (nhds 0) := by
    have := (tendsto_pow_atTop_nhds_zero_of_lt_one (sq_nonneg (1 - ω / 2)) hq).const_mul
      (c * (3 / 2 * (3 / 2 * (‖F' z‖ + L * R))) * R ^ 2)
    rw [mul_zero] at this
    refine this.congr fun m => ?_
    rw [mul_pow, ← pow_mul, ← pow_mul, mul_comm 2 m]
    ring
  obtain ⟨m, hm⟩ := (hlim.eventually (gt_mem_nhds hcrit)).exists
  refine ⟨m + 1, fun N hN hd hcr hmax x hx hr => ?_⟩
  subst hd hcr
  refine ⟨?_, (C90_linear h hβ hL hR hN h0 h1 x hx hr).1⟩
  have hr' : 4 * (β * L) * ‖x - z‖ ≤ 1 := by
    rw [le_div_iff₀ (by positivity)] at hr
    linarith
  refine newton_reports h hβ hL hR hc hN h0 h1 N.crit m N.maxIter.toNat 0 _ rfl hx hr' (by omega) ?_
  refine lt_of_le_of_lt ?_ hm
  have : 0 ≤ (1 - N.damping / 2) ^ m := pow_nonneg (by linarith) _
  have hK : 0 ≤ ‖F' z‖ + L * R := by positivity
  refine mul_le_mul_of_nonneg_left ?_ (by positivity)
  exact pow_le_pow_left₀ (by positivity) (by gcongr) 2

/-! ### The linear solvers of the code -/

/-- Unknowns and residuals as vectors of numbers: the reported error of a direct solver without
static condensation (`sqrt(InnerProduct(du, residual)**2)`, dream/solver.py:186) is bounded as
assumed, with the constant one. -/
theorem direct_solves {ι : Type} [Fintype ι] {F : EuclideanSpace ℝ ι → EuclideanSpace ℝ ι}
    {F' : EuclideanSpace ℝ ι → EuclideanSpace ℝ ι →L[ℝ] EuclideanSpace ℝ ι}
    {lin : LinOracle (EuclideanSpace ℝ ι)}
    (h : ∀ it x, Function.Bijective (F' x) → ∃ δ, F' x δ = F x ∧
      lin it x = (δ, some (√((∑ i, δ i * F x i) ^ 2)))) : SolvesSystems lin F F' 1 := by
  intro it x hb
  obtain ⟨δ, hδ, hl⟩ := h it x hb
  refine ⟨δ, _, hl, hδ, ?_⟩
  rw [Real.sqrt_sq_eq_abs, abs_abs, one_mul]
  have := abs_real_inner_le_norm δ (F x)
  rwa [PiLp.inner_apply, show (∑ i, inner ℝ (δ i) (F x i)) = ∑ i, δ i * F x i from
    Finset.sum_congr rfl fun i _ => by simp [mul_comm]] at this

/-- **C90** The bounds on the damping factor are needed: the option accepts every number, but with a
factor that is not between 0 and 2 even the equation `x = 0` is never solved: no number of
iterations leads to a reported convergence, unless the start already meets the criterion. -/
theorem C90_other_dampings (N : Newton ℝ ℝ) (hN : ∀ it x, N.lin id it x = (x, some (√((x * x) ^ 2))))
    (hd : N.damping ≤ 0 ∨ 2 ≤ N.damping) (x : ℝ) (hx : N.crit ≤ x ^ 2) :
    (N.solve id x).isConverged = false ∧ |x| ≤ |(N.solve id x).u| := by
  suffices key : ∀ n it (st : NLState ℝ), st.isNan = false → st.isConverged = false →
      N.crit ≤ st.u ^ 2 → (nlLoop (N.lin id) (newtonUpdate N.damping) N.crit n it st).isConverged = false
      ∧ |st.u| ≤ |(nlLoop (N.lin id) (newtonUpdate N.damping) N.crit n it st).u| from
    key _ _ _ rfl rfl hx
  intro n
  induction n with
  | zero => intro it st _ hc _; exact ⟨hc, le_refl _⟩
  | succ n ih =>
    intro it st hn hc hu
    have e : √((st.u * st.u) ^ 2) = st.u ^ 2 := by
      rw [Real.sqrt_sq (mul_self_nonneg _), sq]
    have hnc : ¬ √((st.u * st.u) ^ 2) < N.crit := by rw [e]; exact not_lt.2 hu
    have hs : |st.u| ≤ |newtonUpdate N.damping st.u st.u| := by
      have : newtonUpdate N.damping st.u st.u = (1 - N.damping) * st.u := by
        simp only [newtonUpdate, smul_eq_mul]; ring
      rw [this, abs_mul]
      have : 1 ≤ |1 - N.damping| := by
        rcases hd with h | h
        · rw [abs_of_nonneg (by linarith)]; linarith
        · rw [abs_of_nonpos (by linarith)]; linarith
      nlinarith [abs_nonneg st.u]
    simp only [nlLoop, hN, setIterationError, hn, hnc, decide_false, Bool.false_eq_true, if_false]
    obtain ⟨h1, h2⟩ := ih (it + 1)
      { u := newtonUpdate N.damping st.u st.u, yields := st.yields ++ [it], solves := st.solves + 1,
        isNan := false, isConverged := false } rfl rfl (hu.trans (sq_le_sq.2 hs))
    exact ⟨h1, hs.trans h2⟩

/-! ### Example -/

/-- The equation `x² = 1`, solved with the exact derivative. -/
def squareNewton (ω : ℝ) (m : ℤ) : Newton ℝ ℝ where
  lin := fun F _ x => (F x / (2 * x), some (√((F x / (2 * x) * F x) ^ 2)))
  damping := ω
  crit := 1 / 100000000
  maxIter := m

/-- The derivative of `x² - 1`. -/
def squareDeriv (x : ℝ) : ℝ →L[ℝ] ℝ := (2 * x) • ContinuousLinearMap.id ℝ ℝ

theorem square_regular : RegularSolution (fun x : ℝ => x ^ 2 - 1) squareDeriv 1 (1 / 2) 2 1 where
  solution := by norm_num
  deriv := fun x _ => by
    have h : HasDerivAt (fun x : ℝ => x ^ 2 - 1) (2 * x) x := by
      simpa using (hasDerivAt_pow 2 x).sub_const 1
    have e : squareDeriv x = ContinuousLinearMap.toSpanSingleton ℝ (2 * x) := by
      ext; simp [squareDeriv]
    rw [e]
    exact h.hasFDerivAt
  lipschitz := fun x y _ _ => by
    have : squareDeriv x - squareDeriv y = (2 * (x - y)) • ContinuousLinearMap.id ℝ ℝ := by
      ext; simp [squareDeriv]; ring
    rw [this, norm_smul]
    simp
  regular := fun v => by simp [squareDeriv]

theorem square_solves (ω : ℝ) (m : ℤ) :
    SolvesSystems ((squareNewton ω m).lin fun x : ℝ => x ^ 2 - 1) (fun x => x ^ 2 - 1) squareDeriv 1 := by
  intro it x hb
  refine ⟨_, _, rfl, ?_, ?_⟩
  · have hx : x ≠ 0 := by
      rintro rfl
      have := hb.1 (a₁ := 0) (a₂ := 1) (by simp [squareDeriv])
      norm_num at this
    simp only [squareDeriv, ContinuousLinearMap.smul_apply, ContinuousLinearMap.id_apply, smul_eq_mul]
    field_simp
  · rw [Real.sqrt_sq_eq_abs, abs_abs, one_mul, abs_mul]
    rfl

/-- C90, concrete instance: from `5/4` every number of undamped iterations that is large enough leads
to a reported convergence to 1, quadratically, and half steps converge too. -/
example : (∃ m : ℤ, ∀ m', m ≤ m' →
      ((squareNewton 1 m').solve (fun x => x ^ 2 - 1) (5 / 4)).isConverged = true) ∧
    (∃ m : ℤ, ∀ m', m ≤ m' →
      ((squareNewton (1 / 2) m').solve (fun x => x ^ 2 - 1) (5 / 4)).isConverged = true) := by
  constructor
  · obtain ⟨m, hm⟩ := C90_reported square_regular (by norm_num) (by norm_num) (by norm_num)
      zero_le_one (1 / 100000000) 1 (by norm_num) (by norm_num) (by norm_num)
    exact ⟨m, fun m' h => (hm (squareNewton 1 m') (square_solves _ _) rfl rfl h (5 / 4)
      (by norm_num) (by norm_num)).1⟩
  · obtain ⟨m, hm⟩ := C90_reported square_regular (by norm_num) (by norm_num) (by norm_num)
      zero_le_one (1 / 100000000) (1 / 2) (by norm_num) (by norm_num) (by norm_num)
    exact ⟨m, fun m' h => (hm (squareNewton (1 / 2) m') (square_solves _ _) rfl rfl h (5 / 4)
      (by norm_num) (by norm_num)).1⟩

end Dream
