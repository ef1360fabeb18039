import Verif.Props.NewtonStep
import Mathlib.Analysis.Calculus.FDeriv.Basic
import Mathlib.Tactic.Module

/-!
# Newton's method for equations that are almost linear nearby

Signal speeds have kinks, so the equations need not be differentiable; what Newton's method uses as
derivative only has to be close to the derivative in one point.
-/

noncomputable section

namespace Dream

open Metric

variable {X : Type} [NormedAddCommGroup X] [NormedSpace ℝ X] [FiniteDimensional ℝ X]

/-- Up to the distance `R` from `x0` the map `F` differs from the linear map `A` by the rate `κ` at
most, so do the matrices `F'` used in its place; the inverse of `A` is bounded by `β`. -/
structure NearlyLinear (F : X → X) (F' : X → X →L[ℝ] X) (A : X →L[ℝ] X) (x0 : X) (β κ R : ℝ) :
    Prop where
  inverse : ∀ v, ‖v‖ ≤ β * ‖A v‖
  almost : ∀ x y, ‖x - x0‖ ≤ R → ‖y - x0‖ ≤ R → ‖F x - F y - A (x - y)‖ ≤ κ * ‖x - y‖
  deriv : ∀ x, ‖x - x0‖ ≤ R → ‖F' x - A‖ ≤ κ

variable {F : X → X} {F' : X → X →L[ℝ] X} {A : X →L[ℝ] X} {x0 : X} {β κ R : ℝ}

theorem NearlyLinear.lower (h : NearlyLinear F F' A x0 β κ R) (hβ : 0 < β) (hκ : 4 * (β * κ) ≤ 1)
    {x y : X} (hx : ‖x - x0‖ ≤ R) (hy : ‖y - x0‖ ≤ R) : ‖x - y‖ ≤ 2 * β * ‖F x - F y‖ := by
  have h1 := h.inverse (x - y)
  have h2 : ‖A (x - y)‖ ≤ ‖F x - F y‖ + κ * ‖x - y‖ := by
    have e : A (x - y) = (F x - F y) - (F x - F y - A (x - y)) := by abel
    rw [e]
    exact (norm_sub_le _ _).trans (by gcongr; exact h.almost x y hx hy)
  have h3 := mul_le_mul_of_nonneg_left h2 hβ.le
  have h4 : 4 * (β * κ) * ‖x - y‖ ≤ 1 * ‖x - y‖ := mul_le_mul_of_nonneg_right hκ (norm_nonneg _)
  have h5 : 0 ≤ β * ‖F x - F y‖ := by positivity
  nlinarith [norm_nonneg (x - y)]

theorem NearlyLinear.upper (h : NearlyLinear F F' A x0 β κ R) {x y : X} (hx : ‖x - x0‖ ≤ R)
    (hy : ‖y - x0‖ ≤ R) : ‖F x - F y‖ ≤ (‖A‖ + κ) * ‖x - y‖ := by
  have e : F x - F y = A (x - y) + (F x - F y - A (x - y)) := by abel
  rw [e, add_mul]
  exact (norm_add_le _ _).trans (add_le_add (A.le_opNorm _) (h.almost x y hx hy))

theorem NearlyLinear.solution (h : NearlyLinear F F' A x0 β κ R) (hβ : 0 < β) (hκ : 4 * (β * κ) ≤ 1)
    (hF : 2 * β * ‖F x0‖ ≤ R) : ∃ z, F z = 0 ∧ ‖z - x0‖ ≤ 2 * β * ‖F x0‖ := by
  have happ : ApproximatesLinearOn F A (closedBall x0 R) ⟨1 / (2 * β), by positivity⟩ := by
    intro x hx y hy
    refine (h.almost x y (mem_closedBall_iff_norm.1 hx) (mem_closedBall_iff_norm.1 hy)).trans ?_
    refine mul_le_mul_of_nonneg_right ?_ (norm_nonneg _)
    change κ ≤ 1 / (2 * β)
    rw [le_div_iff₀ (by positivity)]
    nlinarith
  have hinj : Function.Injective A := (injective_iff_map_eq_zero _).2 fun v hv => by
    have := h.inverse v
    rw [hv, norm_zero, mul_zero] at this
    exact norm_le_zero_iff.1 this
  have hsurj : Function.Surjective A :=
    LinearMap.surjective_of_injective (f := (A : X →ₗ[ℝ] X)) hinj
  let inv : A.NonlinearRightInverse :=
    { toFun := fun y => (hsurj y).choose
      nnnorm := ⟨β, hβ.le⟩
      bound' := fun y => by
        have := h.inverse (hsurj y).choose
        rwa [(hsurj y).choose_spec] at this
      right_inv' := fun y => (hsurj y).choose_spec }
  obtain ⟨z, hz, hsol⟩ := happ.surjOn_closedBall_of_nonlinearRightInverse inv
    (by positivity) (closedBall_subset_closedBall hF) (show (0 : X) ∈ _ by
      rw [mem_closedBall, dist_comm, dist_zero_right]
      change ‖F x0‖ ≤ (β⁻¹ - 1 / (2 * β)) * (2 * β * ‖F x0‖)
      apply le_of_eq
      field_simp
      ring)
  exact ⟨z, hsol, mem_closedBall_iff_norm.1 hz⟩

/-- The matrices are regular, and a full step of Newton's method gets closer to the solution. -/
theorem NearlyLinear.increment (h : NearlyLinear F F' A x0 β κ R) (hβ : 0 < β)
    (hκ : 4 * (β * κ) ≤ 1) {x z : X} (hx : ‖x - x0‖ ≤ R) (hz : ‖z - x0‖ ≤ R) (hs : F z = 0) :
    Function.Bijective (F' x) ∧
      ∀ δ, F' x δ = F x → ‖x - z - δ‖ ≤ 4 * (β * κ) * ‖x - z‖ := by
  have hb : ∀ v, ‖v‖ ≤ 2 * β * ‖F' x v‖ := by
    intro v
    have h1 := h.inverse v
    have h2 : ‖A v‖ ≤ ‖F' x v‖ + κ * ‖v‖ := by
      have e : A v = F' x v - (F' x - A) v := by simp
      rw [e]
      refine (norm_sub_le _ _).trans ?_
      gcongr
      exact (ContinuousLinearMap.le_opNorm _ _).trans
        (mul_le_mul_of_nonneg_right (h.deriv x hx) (norm_nonneg _))
    have h3 := mul_le_mul_of_nonneg_left h2 hβ.le
    have h4 : 4 * (β * κ) * ‖v‖ ≤ 1 * ‖v‖ := mul_le_mul_of_nonneg_right hκ (norm_nonneg _)
    have h5 : 0 ≤ β * ‖F' x v‖ := by positivity
    nlinarith [norm_nonneg v]
  have hi : Function.Injective (F' x) := by
    rw [injective_iff_map_eq_zero]
    intro v hv
    have := hb v
    rw [hv, norm_zero, mul_zero] at this
    exact norm_le_zero_iff.1 this
  refine ⟨⟨hi, (LinearMap.injective_iff_surjective (f := (F' x : X →ₗ[ℝ] X))).1 hi⟩, fun δ hδ => ?_⟩
  refine (hb _).trans ?_
  have e : F' x (x - z - δ) = (F' x - A) (x - z) - (F x - F z - A (x - z)) := by
    rw [map_sub, hδ, hs]
    simp
  have h1 : ‖F' x (x - z - δ)‖ ≤ κ * ‖x - z‖ + κ * ‖x - z‖ := by
    rw [e]
    refine (norm_sub_le _ _).trans (add_le_add ?_ (h.almost x z hx hz))
    exact (ContinuousLinearMap.le_opNorm _ _).trans
      (mul_le_mul_of_nonneg_right (h.deriv x hx) (norm_nonneg _))
  calc 2 * β * ‖F' x (x - z - δ)‖ ≤ 2 * β * (κ * ‖x - z‖ + κ * ‖x - z‖) := by gcongr
    _ = _ := by ring

theorem NearlyLinear.error (h : NearlyLinear F F' A x0 β κ R) (hβ : 0 < β) (hκ0 : 0 ≤ κ)
    (hκ : 4 * (β * κ) ≤ 1) {x z : X} (hx : ‖x - x0‖ ≤ R) (hz : ‖z - x0‖ ≤ R) (hs : F z = 0) {c : ℝ}
    (hc : 0 ≤ c) {δ : X} {e : ℝ} (hδ : F' x δ = F x) (he : |e| ≤ c * (‖δ‖ * ‖F x‖)) :
    e ≤ c * (2 * (‖A‖ + κ)) * ‖x - z‖ ^ 2 := by
  have h1 := (h.increment hβ hκ hx hz hs).2 δ hδ
  have h2 : 4 * (β * κ) * ‖x - z‖ ≤ 1 * ‖x - z‖ := mul_le_mul_of_nonneg_right hκ (norm_nonneg _)
  have h4 : ‖δ‖ ≤ 2 * ‖x - z‖ := by
    have : δ = (x - z) - (x - z - δ) := by abel
    rw [this]
    refine (norm_sub_le _ _).trans ?_
    linarith
  have h5 : ‖F x‖ ≤ (‖A‖ + κ) * ‖x - z‖ := by
    have := h.upper hx hz
    rwa [hs, sub_zero] at this
  refine (le_abs_self e).trans (he.trans ?_)
  rw [mul_assoc c]
  refine mul_le_mul_of_nonneg_left ?_ hc
  calc ‖δ‖ * ‖F x‖ ≤ (2 * ‖x - z‖) * ((‖A‖ + κ) * ‖x - z‖) := by gcongr
    _ = _ := by ring

theorem damped_norm {a b : X} {ω q : ℝ} (h0 : 0 ≤ ω) (h1 : ω ≤ 1) (hq : ‖a - b‖ ≤ q * ‖a‖) :
    ‖a - ω • b‖ ≤ (1 - ω + ω * q) * ‖a‖ := by
  have e : a - ω • b = (1 - ω) • a + ω • (a - b) := by
    rw [sub_smul, one_smul, smul_sub]; abel
  rw [e]
  refine (norm_add_le _ _).trans ?_
  rw [norm_smul, norm_smul, Real.norm_of_nonneg h0, Real.norm_of_nonneg (by linarith)]
  have := mul_le_mul_of_nonneg_left hq h0
  linarith

/-- The loop: after `k` solves the error is `(1 - ω) ^ k` times the error of the start, up to a
fraction `q`. -/
theorem NearlyLinear.loop (h : NearlyLinear F F' A x0 β κ R) (hβ : 0 < β) (hκ0 : 0 ≤ κ) {q : ℝ}
    (hq : 4 * (β * κ) ≤ q) (hq2 : q ≤ 1 / 2) {z : X} {r : ℝ} (hs : F z = 0) (hr : r + ‖z - x0‖ ≤ R)
    (hr0 : 0 ≤ r)
    {lin : LinOracle X} {c : ℝ} (hlin : SolvesSystems lin F F' c) {ω : ℝ} (h0 : 0 < ω)
    (h1 : ω ≤ 1) (crit : ℝ) (n it : ℕ) (st : NLState X) (hn : st.isNan = false)
    (hx : ‖st.u - z‖ ≤ r) :
    let s := nlLoop lin (newtonUpdate ω) crit n it st
    s.isNan = false ∧ ∃ k, s.solves = st.solves + k ∧ (1 ≤ n → 1 ≤ k) ∧
      ‖s.u - z‖ ≤ (1 - ω / 2) ^ k * ‖st.u - z‖ ∧
      ‖s.u - z - (1 - ω) ^ k • (st.u - z)‖ ≤ q * (1 - (1 - ω) ^ k) * ‖st.u - z‖ := by
  have hz : ‖z - x0‖ ≤ R := by linarith
  have hball : ∀ x, ‖x - z‖ ≤ r → ‖x - x0‖ ≤ R := fun x hx => by
    have := norm_add_le (x - z) (z - x0)
    rw [sub_add_sub_cancel] at this
    linarith
  have hq0 : 0 ≤ q := le_trans (by positivity) hq
  have hq1 : q ≤ 1 := by linarith
  induction n generalizing it st with
  | zero => exact ⟨hn, 0, rfl, by simp, by simp [nlLoop], by simp [nlLoop]⟩
  | succ n ih =>
    obtain ⟨hb, hinc⟩ := h.increment hβ (hq.trans hq1) (hball _ hx) hz hs
    obtain ⟨δ, e, hl, hδ, -⟩ := hlin it st.u hb
    have hd : ‖st.u - z - δ‖ ≤ q * ‖st.u - z‖ :=
      (hinc δ hδ).trans (mul_le_mul_of_nonneg_right hq (norm_nonneg _))
    have hu : newtonUpdate ω st.u δ - z = (st.u - z) - ω • δ := by rw [newtonUpdate]; abel
    have hle : ‖newtonUpdate ω st.u δ - z‖ ≤ ‖st.u - z‖ := by
      rw [hu]
      refine (damped_norm h0.le h1 hd).trans ?_
      have : ω * q ≤ ω * 1 := mul_le_mul_of_nonneg_left hq1 h0.le
      exact (mul_le_of_le_one_left (norm_nonneg _) (by linarith))
    have hge : ‖newtonUpdate ω st.u δ - z‖ ≤ (1 - ω / 2) * ‖st.u - z‖ := by
      rw [hu]
      refine (damped_norm h0.le h1 hd).trans (mul_le_mul_of_nonneg_right ?_ (norm_nonneg _))
      have : ω * q ≤ ω * (1 / 2) := mul_le_mul_of_nonneg_left hq2 h0.le
      linarith
    have hone : newtonUpdate ω st.u δ - z - (1 - ω) • (st.u - z) = ω • (st.u - z - δ) := by
      rw [hu]; module
    have hone' : ‖newtonUpdate ω st.u δ - z - (1 - ω) • (st.u - z)‖ ≤ ω * (q * ‖st.u - z‖) := by
      rw [hone, norm_smul, Real.norm_of_nonneg h0.le]
      exact mul_le_mul_of_nonneg_left hd h0.le
    simp only [nlLoop, hl, setIterationError, hn, Bool.false_eq_true, if_false]
    split_ifs with hc
    · refine ⟨rfl, 1, rfl, fun _ => le_rfl, by simpa using hge, ?_⟩
      rw [pow_one]
      refine hone'.trans (le_of_eq (by ring))
    · obtain ⟨a, k, b1, b2, b4, b3⟩ := ih (it + 1)
        { u := newtonUpdate ω st.u δ, yields := st.yields ++ [it], solves := st.solves + 1,
          isNan := st.isNan, isConverged := decide (e < crit) } hn (hle.trans hx)
      simp only [hn] at a b1 b3 b4
      refine ⟨a, k + 1, by rw [b1]; ring, fun _ => by omega, ?_, ?_⟩
      · refine b4.trans ?_
        have : 0 ≤ (1 - ω / 2) ^ k := pow_nonneg (by linarith) _
        calc (1 - ω / 2) ^ k * ‖newtonUpdate ω st.u δ - z‖
            ≤ (1 - ω / 2) ^ k * ((1 - ω / 2) * ‖st.u - z‖) := by gcongr
          _ = _ := by ring
      have hp : 0 ≤ (1 - ω) ^ k := pow_nonneg (by linarith) _
      have hp1 : (1 - ω) ^ k ≤ 1 := pow_le_one₀ (by linarith) (by linarith)
      have e3 : ∀ y : X, y - z - (1 - ω) ^ (k + 1) • (st.u - z)
          = (y - z - (1 - ω) ^ k • (newtonUpdate ω st.u δ - z))
            + (1 - ω) ^ k • (newtonUpdate ω st.u δ - z - (1 - ω) • (st.u - z)) := fun y => by
        rw [smul_sub _ (newtonUpdate ω st.u δ - z), smul_smul, ← pow_succ]; abel
      rw [e3]
      refine (norm_add_le _ _).trans ?_
      rw [norm_smul, Real.norm_of_nonneg hp]
      calc _ ≤ q * (1 - (1 - ω) ^ k) * ‖newtonUpdate ω st.u δ - z‖
            + (1 - ω) ^ k * (ω * (q * ‖st.u - z‖)) :=
            add_le_add b3 (mul_le_mul_of_nonneg_left hone' hp)
        _ ≤ q * (1 - (1 - ω) ^ k) * ‖st.u - z‖ + (1 - ω) ^ k * (ω * (q * ‖st.u - z‖)) := by
            gcongr
        _ = _ := by rw [pow_succ]; ring

/-- Convergence is reported as soon as the distance is small enough. -/
theorem NearlyLinear.reports (h : NearlyLinear F F' A x0 β κ R) (hβ : 0 < β) (hκ0 : 0 ≤ κ) {q : ℝ}
    (hq : 4 * (β * κ) ≤ q) (hq1 : q ≤ 1 / 2) {z : X} {r : ℝ} (hs : F z = 0) (hr : r + ‖z - x0‖ ≤ R)
    (hr0 : 0 ≤ r)
    {lin : LinOracle X} {c : ℝ} (hc : 0 ≤ c) (hlin : SolvesSystems lin F F' c) {ω : ℝ} (h0 : 0 < ω)
    (h1 : ω ≤ 1) (crit : ℝ) (m n it : ℕ) (st : NLState X) (hn : st.isNan = false)
    (hx : ‖st.u - z‖ ≤ r) (hmn : m < n)
    (hm : c * (2 * (‖A‖ + κ)) * ((1 - ω / 2) ^ m * ‖st.u - z‖) ^ 2 < crit) :
    (nlLoop lin (newtonUpdate ω) crit n it st).isConverged = true := by
  have hz : ‖z - x0‖ ≤ R := by linarith
  have hball : ∀ x, ‖x - z‖ ≤ r → ‖x - x0‖ ≤ R := fun x hx => by
    have := norm_add_le (x - z) (z - x0)
    rw [sub_add_sub_cancel] at this
    linarith
  have hk1 : 4 * (β * κ) ≤ 1 := by linarith
  induction m generalizing n it st with
  | zero =>
    obtain ⟨n, rfl⟩ : ∃ k, n = k + 1 := ⟨n - 1, by omega⟩
    obtain ⟨δ, e, hl, hδ, he⟩ := hlin it st.u (h.increment hβ hk1 (hball _ hx) hz hs).1
    have h2 := h.error hβ hκ0 hk1 (hball _ hx) hz hs hc hδ he
    rw [pow_zero, one_mul] at hm
    have h3 : e < crit := lt_of_le_of_lt h2 hm
    simp [nlLoop, hl, setIterationError, hn, h3]
  | succ m ih =>
    obtain ⟨n, rfl⟩ : ∃ k, n = k + 1 := ⟨n - 1, by omega⟩
    obtain ⟨hb, hinc⟩ := h.increment hβ hk1 (hball _ hx) hz hs
    obtain ⟨δ, e, hl, hδ, -⟩ := hlin it st.u hb
    have hd : ‖newtonUpdate ω st.u δ - z‖ ≤ (1 - ω / 2) * ‖st.u - z‖ := by
      have hu : newtonUpdate ω st.u δ - z = (st.u - z) - ω • δ := by rw [newtonUpdate]; abel
      rw [hu]
      refine (damped_norm h0.le h1 ((hinc δ hδ).trans
        (mul_le_mul_of_nonneg_right (hq.trans hq1) (norm_nonneg _)))).trans (le_of_eq (by ring))
    have hle : (1 - ω / 2) * ‖st.u - z‖ ≤ ‖st.u - z‖ := by nlinarith [norm_nonneg (st.u - z)]
    simp only [nlLoop, hl, setIterationError, hn, Bool.false_eq_true, if_false]
    split_ifs with hcv
    · exact hcv
    · refine ih n (it + 1) _ rfl (hd.trans (hle.trans hx)) (by omega) ?_
      refine lt_of_le_of_lt ?_ hm
      have : 0 ≤ (1 - ω / 2) ^ m := pow_nonneg (by linarith) _
      have hK : 0 ≤ ‖A‖ + κ := by positivity
      refine mul_le_mul_of_nonneg_left ?_ (by positivity)
      refine pow_le_pow_left₀ (by positivity) ?_ 2
      calc (1 - ω / 2) ^ m * ‖newtonUpdate ω st.u δ - z‖
          ≤ (1 - ω / 2) ^ m * ((1 - ω / 2) * ‖st.u - z‖) := by gcongr
        _ = _ := by ring

/-- A solve as a whole. -/
theorem NearlyLinear.solve (h : NearlyLinear F F' A x0 β κ R) (hβ : 0 < β) (hκ0 : 0 ≤ κ) {q : ℝ}
    (hq : 4 * (β * κ) ≤ q) (hq1 : q ≤ 1 / 2) {z : X} {r : ℝ} (hs : F z = 0) (hr : r + ‖z - x0‖ ≤ R)
    (hr0 : 0 ≤ r) {N : Newton X X}
    {c : ℝ} (hc : 0 ≤ c) (hlin : SolvesSystems (N.lin F) F F' c) (h0 : 0 < N.damping)
    (h1 : N.damping ≤ 1) {m : ℕ} (hm : (m : ℤ) < N.maxIter)
    (hcrit : c * (2 * (‖A‖ + κ)) * ((1 - N.damping / 2) ^ m * r) ^ 2 < N.crit) {x : X}
    (hx : ‖x - z‖ ≤ r) :
    (N.solve F x).isConverged = true ∧ (N.solve F x).isNan = false ∧ 1 ≤ (N.solve F x).solves ∧
      ‖(N.solve F x).u - z‖ ≤ (1 - N.damping / 2) ^ (N.solve F x).solves * ‖x - z‖ ∧
      ‖(N.solve F x).u - z - (1 - N.damping) ^ (N.solve F x).solves • (x - z)‖
        ≤ q * (1 - (1 - N.damping) ^ (N.solve F x).solves) * ‖x - z‖ := by
  have hrep := h.reports hβ hκ0 hq hq1 hs hr hr0 hc hlin h0 h1 N.crit m N.maxIter.toNat 0
    { u := x, yields := [], solves := 0, isNan := false, isConverged := false } rfl hx (by omega) (by
      refine lt_of_le_of_lt ?_ hcrit
      have : 0 ≤ (1 - N.damping / 2) ^ m := pow_nonneg (by linarith) _
      have hK : 0 ≤ ‖A‖ + κ := by positivity
      refine mul_le_mul_of_nonneg_left ?_ (by positivity)
      exact pow_le_pow_left₀ (by positivity) (by gcongr) 2)
  obtain ⟨a, k, b1, b2, b4, b3⟩ := h.loop hβ hκ0 hq hq1 hs hr hr0 hlin h0 h1 N.crit
    N.maxIter.toNat 0
    { u := x, yields := [], solves := 0, isNan := false, isConverged := false } rfl hx
  have hk : (N.solve F x).solves = k := b1.trans (zero_add k)
  rw [hk]
  exact ⟨hrep, a, b2 (by omega), b4, b3⟩

end Dream
