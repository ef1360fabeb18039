import Verif.Model.Layers
import Verif.Props.Bla
import Mathlib.Order.Filter.Basic
import Mathlib.Dynamics.FixedPoints.Basic
import Mathlib.Analysis.Calculus.Deriv.Pow
import Mathlib.Analysis.Calculus.Deriv.Add
import Mathlib.Analysis.Calculus.Deriv.Mul
import Mathlib.Data.List.Chain

/-!
# C39, C40: polynomial orders of p-sponge layers; C41: sponge functions; C43: grid deformations;
C50: the fixpoint iteration
-/

noncomputable section

namespace Dream

/-! ### C50 -/

/-- **C50** The result is the `k`-th iterate for a `k ≤ it`; no earlier change was below the
tolerance, and either the last change was, or all `it` iterations were done. -/
theorem C50_iterate (f : ℝ → ℝ) (tol : ℝ) (it : ℕ) (x : ℝ) :
    ∃ k ≤ it, Bla.fixpointIteration f tol it x = f^[k] x ∧
      (∀ j, j + 1 < k → tol ≤ |f^[j + 1] x - f^[j] x|) ∧
      (k = it ∨ ∃ j, k = j + 1 ∧ |f^[j + 1] x - f^[j] x| < tol) := by
  induction it generalizing x with
  | zero => exact ⟨0, le_rfl, rfl, by simp, .inl rfl⟩
  | succ n ih =>
    by_cases h : |f x - x| < tol
    · refine ⟨1, by omega, by simp [Bla.fixpointIteration, h], ?_, .inr ⟨0, rfl, by simpa using h⟩⟩
      intro j hj; omega
    · obtain ⟨k, hk, h1, h2, h3⟩ := ih (f x)
      refine ⟨k + 1, by omega, by simp [Bla.fixpointIteration, h, h1], ?_, ?_⟩
      · intro j hj
        cases j with
        | zero => simpa using not_lt.1 h
        | succ j => simpa using h2 j (by omega)
      · rcases h3 with rfl | ⟨j, rfl, hj⟩
        · exact .inl rfl
        · exact .inr ⟨j + 1, rfl, by simpa using hj⟩

/-- **C50** If the iteration stops before the limit and `f` contracts with factor `q < 1`, the result
is within `q * tol / (1 - q)` of the fixpoint. -/
theorem C50_contraction {f : ℝ → ℝ} {q p tol x : ℝ} {it : ℕ} (hq0 : 0 ≤ q) (hq : q < 1)
    (hf : ∀ a b, |f a - f b| ≤ q * |a - b|) (hp : f p = p)
    (hstop : Bla.fixpointIteration f tol it x ≠ f^[it] x) :
    |Bla.fixpointIteration f tol it x - p| ≤ q * tol / (1 - q) := by
  obtain ⟨k, hk, h1, -, h3⟩ := C50_iterate f tol it x
  rcases h3 with rfl | ⟨j, rfl, hj⟩
  · exact absurd h1 hstop
  · rw [h1]
    set a := f^[j] x
    have e : f^[j + 1] x = f a := Function.iterate_succ_apply' f j x
    rw [e] at hj ⊢
    have h4 : |f a - p| ≤ q * |a - p| := by simpa [hp] using hf a p
    have h5 : |a - p| ≤ |f a - a| + |f a - p| := by
      have := abs_sub_le a (f a) p
      rwa [abs_sub_comm a (f a)] at this
    rw [le_div_iff₀ (by linarith)]
    nlinarith [abs_nonneg (f a - p), abs_nonneg (a - p)]

example : Bla.fixpointIteration (fun x => x / 2) 1 5 1 = 1 / 2 ∧
    Bla.fixpointIteration (fun x => x / 2) 1 5 1 ≠ (fun x : ℝ => x / 2)^[5] 1 := by
  have : Bla.fixpointIteration (fun x => x / 2) 1 5 1 = 1 / 2 := by
    have h : |(1 : ℝ) / 2 - 1| < 1 := by norm_num [abs_lt]
    simp only [Bla.fixpointIteration, h, if_true]
  refine ⟨this, ?_⟩
  rw [this]
  norm_num [Function.iterate_succ]

/-! ### C39 -/

/-- An assignment to one of the orders. -/
inductive PSpongeOp
  | high (x : ℚ) | low (x : ℚ)

/-- A history of assignments; a rejected one (exception) leaves the object as it is. -/
def PSponge.run (s : PSponge) : List PSpongeOp → PSponge
  | [] => s
  | .high x :: t => PSponge.run (match s.setHigh x with | .ok s' => s' | .error _ => s) t
  | .low x :: t => PSponge.run (match s.setLow x with | .ok s' => s' | .error _ => s) t

theorem pyInt_nonneg {x : ℚ} (h : 0 ≤ x) : 0 ≤ pyInt x ∧ pyInt x = ⌊x⌋ := by
  simp [pyInt, h, Int.floor_nonneg]

/-- **C39** After any history of assignments of numbers to `high_order` and `low_order`, starting
from a new layer, `0 ≤ low_order ≤ high_order`. -/
theorem C39_invariant (ops : List PSpongeOp) :
    0 ≤ (PSponge.init.run ops).low ∧ (PSponge.init.run ops).low ≤ (PSponge.init.run ops).high := by
  suffices h : ∀ s : PSponge, 0 ≤ s.low ∧ s.low ≤ s.high →
      0 ≤ (s.run ops).low ∧ (s.run ops).low ≤ (s.run ops).high from
    h _ ⟨le_rfl, le_rfl⟩
  induction ops with
  | nil => exact fun s h => h
  | cons op t ih =>
    intro s hs
    cases op with
    | high x =>
      apply ih
      unfold PSponge.setHigh
      split_ifs with h1 h2 <;> try exact hs
      simp only
      obtain ⟨-, hx⟩ := pyInt_nonneg (not_lt.1 h1)
      rw [hx]
      exact ⟨hs.1, Int.le_floor.2 h2⟩
    | low x =>
      apply ih
      unfold PSponge.setLow
      split_ifs with h1 h2 <;> try exact hs
      simp only
      obtain ⟨hx0, hx⟩ := pyInt_nonneg (not_lt.1 h1)
      refine ⟨hx0, ?_⟩
      rw [hx]
      have h3 : ((⌊x⌋ : ℤ) : ℚ) ≤ s.high := (Int.floor_le x).trans h2
      exact_mod_cast h3

/-- **C39** An accepted assignment stores the given integer and leaves the other order alone;
exactly those integers are accepted that keep the order. -/
theorem C39_accepts (s : PSponge) (h0 : 0 ≤ s.low) (k : ℤ) :
    (s.low ≤ k → s.setHigh k = .ok ⟨k, s.low⟩) ∧
    (¬ s.low ≤ k → s.setHigh k = .error .valueError) ∧
    (0 ≤ k → k ≤ s.high → s.setLow k = .ok ⟨s.high, k⟩) ∧
    (¬ (0 ≤ k ∧ k ≤ s.high) → s.setLow k = .error .valueError) := by
  have hk : ∀ k : ℤ, 0 ≤ k → pyInt (k : ℚ) = k := fun k hk => by
    rw [(pyInt_nonneg (by exact_mod_cast hk)).2]; simp
  refine ⟨fun h => ?_, fun h => ?_, fun h1 h2 => ?_, fun h => ?_⟩
  · have h1 : ¬ (k : ℚ) < 0 := by have : (0 : ℤ) ≤ k := h0.trans h; simpa using this
    have h2 : (k : ℚ) ≥ s.low := by exact_mod_cast h
    simp [PSponge.setHigh, h1, h2, hk k (h0.trans h)]
  · have h2 : ¬ (k : ℚ) ≥ s.low := by push Not at h ⊢; exact_mod_cast h
    simp [PSponge.setHigh, h2]
  · have h3 : ¬ (k : ℚ) < 0 := by simpa using h1
    have h4 : (s.high : ℚ) ≥ k := by exact_mod_cast h2
    simp [PSponge.setLow, h3, h4, hk k h1]
  · unfold PSponge.setLow
    by_cases h1 : (k : ℚ) < 0
    · simp [h1]
    · have h1' : 0 ≤ k := by simpa using h1
      have h2 : ¬ (s.high : ℚ) ≥ k := fun h4 => h ⟨h1', by exact_mod_cast h4⟩
      simp [h2]

/-- **C39** Consequently the order of the assignments matters: a valid pair of orders `0 < low` is
refused by a new layer if `low_order` is given first, and accepted the other way round. -/
theorem C39_order_matters (l h : ℤ) (hl : 0 < l) (hh : l ≤ h) :
    PSponge.init.setLow l = .error .valueError ∧
    (PSponge.init.setHigh h).bind (fun s => s.setLow l) = .ok ⟨h, l⟩ := by
  refine ⟨(C39_accepts PSponge.init le_rfl l).2.2.2 ?_, ?_⟩
  · simp only [PSponge.init]; omega
  · rw [(C39_accepts PSponge.init le_rfl h).1 (by simp only [PSponge.init]; omega)]
    exact (C39_accepts ⟨h, _⟩ le_rfl l).2.2.1 (by omega) hh

example : PSponge.init.run [.high 4, .low 3, .high 2, .low (7 / 2), .high (9 / 2)] = ⟨4, 3⟩ := by
  decide +kernel

/-! ### C40 -/

theorem zip_cons_cons (a b : ℤ) (t : List ℤ) :
    (a :: b :: t).dropLast.zip (a :: b :: t).tail
      = (a, b) :: (b :: t).dropLast.zip (b :: t).tail := by
  simp

theorem rangeDown_pairs (lowest step : ℤ) (hs : 1 ≤ step) (n : ℕ) (start : ℤ)
    (hn : (start - lowest).toNat ≤ n) (hl : lowest ≤ start) :
    ∃ a t, rangeDown lowest step n start ++ [lowest, lowest] = a :: t ∧ a = start ∧
      ∃ Q, (a :: t).dropLast.zip (a :: t).tail = Q ++ [(lowest, lowest)] ∧
        (Q ++ [(lowest, lowest)]).IsChain (fun p q => p.2 = q.1) ∧
        ((Q ++ [(lowest, lowest)]).head (by simp)).1 = start ∧
        ∀ p ∈ Q, lowest ≤ p.2 ∧ p.2 < p.1 ∧ p.1 - p.2 ≤ step ∧
          (lowest < p.2 → p.1 - p.2 = step) := by
  induction n generalizing start with
  | zero =>
    have : start = lowest := by omega
    subst this
    exact ⟨start, [start], by simp [rangeDown], rfl, [], by simp, by simp, by simp, by simp⟩
  | succ n ih =>
    by_cases h : lowest < start
    · by_cases h2 : lowest ≤ start - step
      · obtain ⟨a, t, h3, h4, Q, h5, h6, h7, h8⟩ := ih (start - step) (by omega) h2
        refine ⟨start, a :: t, by simp [rangeDown, h, h3], rfl, (start, start - step) :: Q, ?_, ?_,
          by simp, ?_⟩
        · rw [zip_cons_cons, h5, h4]; rfl
        · rw [List.cons_append, List.isChain_cons]
          refine ⟨fun y hy => ?_, h6⟩
          rw [← h7]
          rw [List.head?_eq_some_head (by simp)] at hy
          simp only [Option.mem_def, Option.some.injEq] at hy
          rw [← hy]
        · intro p hp
          rcases List.mem_cons.1 hp with rfl | hp
          · exact ⟨h2, by simp only; omega, by simp only; omega, fun _ => by simp only; omega⟩
          · exact h8 p hp
      · have : rangeDown lowest step n (start - step) = [] := by
          cases n with
          | zero => rfl
          | succ n => simp only [rangeDown]; rw [if_neg (by omega)]
        refine ⟨start, [lowest, lowest], by simp [rangeDown, h, this], rfl, [(start, lowest)],
          by simp, by simp, by simp, ?_⟩
        intro p hp
        rw [List.mem_singleton] at hp
        subst hp
        exact ⟨le_rfl, h, by simp only; omega, fun h' => absurd h' (lt_irrefl _)⟩
    · have : start = lowest := by omega
      subst this
      exact ⟨start, [start], by simp [rangeDown], rfl, [], by simp, by simp, by simp, by simp⟩

/-- **C40** For `highest ≥ lowest` and `step ≥ 1` the pairs start at the highest order, the low order
of each pair is the high order of the next, every pair but the last drops by at least 1 and at most
`step` (exactly `step` unless it ends at the lowest order), and the last pair is
`(lowest, lowest)`. -/
theorem C40_pairs (highest lowest step : ℤ) (hl : lowest ≤ highest) (hs : 1 ≤ step) :
    ∃ Q, orderPairs highest lowest step = Q ++ [(lowest, lowest)] ∧
      ((Q ++ [(lowest, lowest)]).head (by simp)).1 = highest ∧
      (Q ++ [(lowest, lowest)]).IsChain (fun p q => p.2 = q.1) ∧
      ∀ p ∈ Q, lowest ≤ p.2 ∧ p.2 < p.1 ∧ p.1 - p.2 ≤ step ∧
        (lowest < p.2 → p.1 - p.2 = step) := by
  obtain ⟨a, t, h1, h2, Q, h3, h4, h5, h6⟩ :=
    rangeDown_pairs lowest step hs (highest - lowest).toNat highest le_rfl hl
  refine ⟨Q, ?_, h5, h4, h6⟩
  unfold orderPairs
  simp only
  rw [h1, h3]

example : orderPairs 5 0 2 = [(5, 3), (3, 1), (1, 0), (0, 0)] := by decide

/-! ### C41 -/

theorem normalised_eq {x x0 xn : ℝ} (h : x0 ≠ xn) :
    normalisedCoordinate x x0 xn = Bla.interval ((x - x0) / (xn - x0)) 0 1 := by
  have : xn - x0 ≠ 0 := sub_ne_zero.2 h.symm
  unfold normalisedCoordinate bufferCoord
  field_simp
  ring

/-- **C41** For a layer of any orientation the normalised coordinate is 0 on and before the start,
1 on and behind the end, and the affine coordinate in between; the buffer coordinate is the start,
the end, and the coordinate itself. -/
theorem C41_coordinate {x x0 xn : ℝ} (h : x0 ≠ xn) :
    (0 ≤ normalisedCoordinate x x0 xn ∧ normalisedCoordinate x x0 xn ≤ 1) ∧
    ((x - x0) * (xn - x0) ≤ 0 → normalisedCoordinate x x0 xn = 0 ∧ bufferCoord x x0 xn = x0) ∧
    ((xn - x0) * (xn - x0) ≤ (x - x0) * (xn - x0) →
      normalisedCoordinate x x0 xn = 1 ∧ bufferCoord x x0 xn = xn) ∧
    (0 ≤ (x - x0) * (xn - x0) → (x - x0) * (xn - x0) ≤ (xn - x0) * (xn - x0) →
      normalisedCoordinate x x0 xn = (x - x0) / (xn - x0) ∧ bufferCoord x x0 xn = x) := by
  have hL : xn - x0 ≠ 0 := sub_ne_zero.2 h.symm
  have hpos : 0 < (xn - x0) * (xn - x0) := mul_self_pos.2 hL
  have e : (x - x0) / (xn - x0) = (x - x0) * (xn - x0) / ((xn - x0) * (xn - x0)) := by
    field_simp
  obtain ⟨h1, h2, h3, h4, h5⟩ := C45_interval (x := (x - x0) / (xn - x0)) zero_le_one
  rw [normalised_eq h]
  unfold bufferCoord
  refine ⟨⟨h1, h2⟩, fun hx => ?_, fun hx => ?_, fun hx hx' => ?_⟩
  · rw [h4 (by rw [e]; exact div_nonpos_of_nonpos_of_nonneg hx hpos.le)]
    simp
  · rw [h5 (by rw [e, le_div_iff₀ hpos]; linarith)]
    simp
  · rw [h3 (by rw [e]; exact div_nonneg hx hpos.le) (by rw [e, div_le_one hpos]; exact hx')]
    refine ⟨rfl, ?_⟩
    rw [div_mul_cancel₀ _ hL]; ring

/-- **C41** The normalised coordinate increases in the direction of the layer. -/
theorem C41_monotone_coordinate {x y x0 xn : ℝ} (h : x0 ≠ xn)
    (hxy : x * (xn - x0) ≤ y * (xn - x0)) :
    normalisedCoordinate x x0 xn ≤ normalisedCoordinate y x0 xn := by
  have hL : xn - x0 ≠ 0 := sub_ne_zero.2 h.symm
  have hpos : 0 < (xn - x0) * (xn - x0) := mul_self_pos.2 hL
  have e : ∀ x, (x - x0) / (xn - x0) = (x - x0) * (xn - x0) / ((xn - x0) * (xn - x0)) := by
    intro x; field_simp
  rw [normalised_eq h, normalised_eq h]
  unfold Bla.interval
  rw [Bla.max_eq, Bla.min_eq, Bla.max_eq, Bla.min_eq]
  apply min_le_min_right
  apply max_le_max_right
  rw [e, e]
  apply div_le_div_of_nonneg_right _ hpos.le
  nlinarith

/-- The polynomial of the penta sponge function. -/
def Spec.penta (t : ℝ) : ℝ := 6 * t ^ 5 - 15 * t ^ 4 + 10 * t ^ 3

theorem penta_mono {a b : ℝ} (ha : 0 ≤ a) (hab : a ≤ b) (hb : b ≤ 1) :
    Spec.penta a ≤ Spec.penta b := by
  unfold Spec.penta
  obtain ⟨c, rfl⟩ : ∃ c, b = a + c := ⟨b - a, by ring⟩
  obtain ⟨d, hd⟩ : ∃ d, d = 1 - (a + c) := ⟨_, rfl⟩
  have hc : 0 ≤ c := by linarith
  have hd0 : 0 ≤ d := by linarith
  have hsum : a + c + d = 1 := by linarith
  -- the difference is `c` times a polynomial in `a, c, d` with non-negative coefficients
  have key : 6 * (a + c) ^ 5 - 15 * (a + c) ^ 4 + 10 * (a + c) ^ 3
      - (6 * a ^ 5 - 15 * a ^ 4 + 10 * a ^ 3)
      = c * (30 * a ^ 2 * d ^ 2 + 30 * a ^ 2 * d * c + 10 * a ^ 2 * c ^ 2 + 30 * a * c * d ^ 2
          + 20 * a * c ^ 2 * d + 5 * a * c ^ 3 + 10 * c ^ 2 * d ^ 2 + 5 * c ^ 3 * d + c ^ 4) := by
    have : d = 1 - a - c := by linarith
    subst this
    ring
  have : 0 ≤ c * (30 * a ^ 2 * d ^ 2 + 30 * a ^ 2 * d * c + 10 * a ^ 2 * c ^ 2 + 30 * a * c * d ^ 2
          + 20 * a * c ^ 2 * d + 5 * a * c ^ 3 + 10 * c ^ 2 * d ^ 2 + 5 * c ^ 3 * d + c ^ 4) := by
    positivity
  linarith

/-- **C41** The polynomial and the penta sponge function lie between 0 and the weight, have value 0
(for positive order) up to the start and the weight from the end on, and increase along the
layer. -/
theorem C41_sponge {weight x0 xn : ℝ} (hw : 0 ≤ weight) (h : x0 ≠ xn) {order : ℕ}
    (ho : 0 < order) :
    (∀ x, 0 ≤ spongePolynomial weight x x0 xn order ∧
      spongePolynomial weight x x0 xn order ≤ weight ∧
      0 ≤ spongePenta weight x x0 xn ∧ spongePenta weight x x0 xn ≤ weight) ∧
    (∀ x, (x - x0) * (xn - x0) ≤ 0 → spongePolynomial weight x x0 xn order = 0 ∧
      spongePenta weight x x0 xn = 0) ∧
    (∀ x, (xn - x0) * (xn - x0) ≤ (x - x0) * (xn - x0) →
      spongePolynomial weight x x0 xn order = weight ∧ spongePenta weight x x0 xn = weight) ∧
    (∀ x y, x * (xn - x0) ≤ y * (xn - x0) →
      spongePolynomial weight x x0 xn order ≤ spongePolynomial weight y x0 xn order ∧
      spongePenta weight x x0 xn ≤ spongePenta weight y x0 xn) := by
  have hmono : ∀ x y, x * (xn - x0) ≤ y * (xn - x0) →
      spongePolynomial weight x x0 xn order ≤ spongePolynomial weight y x0 xn order ∧
      spongePenta weight x x0 xn ≤ spongePenta weight y x0 xn := by
    intro x y hxy
    have hle := C41_monotone_coordinate h hxy
    have h0 := (C41_coordinate (x := x) h).1
    have h1 := (C41_coordinate (x := y) h).1
    refine ⟨mul_le_mul_of_nonneg_left (pow_le_pow_left₀ h0.1 hle _) hw,
      mul_le_mul_of_nonneg_left ?_ hw⟩
    exact penta_mono h0.1 hle h1.2
  refine ⟨fun x => ?_, fun x hx => ?_, fun x hx => ?_, hmono⟩
  · have h0 := (C41_coordinate (x := x) h).1
    have p0 : 0 ≤ Spec.penta (normalisedCoordinate x x0 xn) := by
      have := penta_mono le_rfl h0.1 h0.2
      simpa [Spec.penta] using this
    have p1 : Spec.penta (normalisedCoordinate x x0 xn) ≤ 1 := by
      have := penta_mono h0.1 h0.2 le_rfl
      have e : Spec.penta 1 = 1 := by norm_num [Spec.penta]
      rwa [e] at this
    refine ⟨mul_nonneg hw (pow_nonneg h0.1 _), ?_, mul_nonneg hw p0, ?_⟩
    · exact mul_le_of_le_one_right hw (pow_le_one₀ h0.1 h0.2)
    · exact mul_le_of_le_one_right hw p1
  · have := ((C41_coordinate (x := x) h).2.1 hx).1
    simp [spongePolynomial, spongePenta, this, ho.ne']
  · have := ((C41_coordinate (x := x) h).2.2.1 hx).1
    simp only [spongePolynomial, spongePenta, this]
    norm_num

/-- **C41** Inside the layer the penta sponge function is `weight` times the penta polynomial of the
normalised coordinate, whose first two derivatives vanish at both ends. -/
theorem C41_penta_smooth {weight x x0 xn : ℝ} :
    spongePenta weight x x0 xn = weight * Spec.penta (normalisedCoordinate x x0 xn) ∧
    ∃ p' p'' : ℝ → ℝ, (∀ t, HasDerivAt Spec.penta (p' t) t) ∧ (∀ t, HasDerivAt p' (p'' t) t) ∧
      p' 0 = 0 ∧ p' 1 = 0 ∧ p'' 0 = 0 ∧ p'' 1 = 0 := by
  refine ⟨rfl, fun t => 30 * t ^ 4 - 60 * t ^ 3 + 30 * t ^ 2,
    fun t => 120 * t ^ 3 - 180 * t ^ 2 + 60 * t, fun t => ?_, fun t => ?_, by norm_num, by norm_num,
    by norm_num, by norm_num⟩
  · have := (((hasDerivAt_pow 5 t).const_mul 6).sub ((hasDerivAt_pow 4 t).const_mul 15)).add
      ((hasDerivAt_pow 3 t).const_mul 10)
    refine HasDerivAt.congr_deriv (f := Spec.penta) this ?_
    norm_num; ring
  · have := (((hasDerivAt_pow 4 t).const_mul 30).sub ((hasDerivAt_pow 3 t).const_mul 60)).add
      ((hasDerivAt_pow 2 t).const_mul 30)
    refine HasDerivAt.congr_deriv this ?_
    norm_num; ring

/-- a layer pointing in negative direction -/
example : (0 : ℝ) ≤ 2 ∧ (-1 : ℝ) ≠ -3 ∧ spongePolynomial 2 (-2) (-1) (-3) 2 = 1 / 2 := by
  refine ⟨by norm_num, by norm_num, ?_⟩
  have := ((C41_coordinate (x := -2) (x0 := -1) (xn := -3) (by norm_num)).2.2.2
    (by norm_num) (by norm_num)).1
  simp only [spongePolynomial, this]
  norm_num

/-! ### C43 -/

variable {δ : Type}

/-- The deformation that belongs to the currently configured mappings. -/
def Spec.currentDeformation (zero : δ) (g : GridDef δ) : List δ :=
  ([g.x.getD zero, g.y.getD zero, g.z.getD zero] : List δ).take g.dim

/-- An assignment of an actual mapping to one of the coordinates. -/
def IsMapping : GridDefOp δ → Prop
  | .x (some _) | .y (some _) | .z (some _) => True
  | _ => False

theorem gridDef_step (zero : δ) (g : GridDef δ) (op : GridDefOp δ) (h : IsMapping op) :
    (g.step zero op).function = some (Spec.currentDeformation zero (g.step zero op)) := by
  cases op with
  | x m => cases m with
    | none => exact h.elim
    | some m => rfl
  | y m => cases m with
    | none => exact h.elim
    | some m => rfl
  | z m => cases m with
    | none => exact h.elim
    | some m => rfl
  | _ => exact h.elim

/-- **C43** Whatever happened before, after assigning a mapping to `x`, `y` or `z` the deformation in
use is the one of the currently configured mappings, and it stays so as long as only mappings
and `order` are assigned. -/
theorem C43_current_partial (zero : δ) (g : GridDef δ) (op : GridDefOp δ) (h : IsMapping op)
    (later : List (GridDefOp δ)) (hl : ∀ o ∈ later, IsMapping o ∨ ∃ k, o = .order k) :
    let g' := later.foldl (GridDef.step zero) (g.step zero op)
    g'.getFunction = .ok (Spec.currentDeformation zero g') := by
  simp only
  suffices H : ∀ g : GridDef δ, g.function = some (Spec.currentDeformation zero g) →
      (later.foldl (GridDef.step zero) g).function
        = some (Spec.currentDeformation zero (later.foldl (GridDef.step zero) g)) by
    have := H _ (gridDef_step zero g op h)
    simp only [GridDef.getFunction, this]
  induction later with
  | nil => exact fun g hg => hg
  | cons o t ih =>
    intro g hg
    refine ih (fun o ho => hl o (by simp [ho])) _ ?_
    rcases hl o (by simp) with ho | ⟨k, rfl⟩
    · exact gridDef_step zero g o ho
    · exact hg

/-- **C43** Each assignment of a mapping is what is read back, the others are unchanged. -/
theorem C43_read_back (zero m : δ) (g : GridDef δ) :
    (let g' := g.step zero (.x (some m)); g'.x = some m ∧ g'.y = g.y ∧ g'.z = g.z ∧ g'.dim = g.dim) ∧
    (let g' := g.step zero (.y (some m)); g'.x = g.x ∧ g'.y = some m ∧ g'.z = g.z ∧ g'.dim = g.dim) ∧
    (let g' := g.step zero (.z (some m)); g'.x = g.x ∧ g'.y = g.y ∧ g'.z = some m ∧ g'.dim = g.dim) :=
  ⟨⟨rfl, rfl, rfl, rfl⟩, ⟨rfl, rfl, rfl, rfl⟩, ⟨rfl, rfl, rfl, rfl⟩⟩

/-- **C43** Removing a mapping by assigning `None` does not: the identity is configured, but the
deformation in use is still the one of the removed mapping, for every non-trivial mapping. -/
theorem C43_fails_none (zero m : δ) (hm : m ≠ zero) :
    let g := ((GridDef.init zero).step zero (.x (some m))).step zero (.x none)
    g.x = some zero ∧ g.getFunction = .ok [m, zero] ∧
      Spec.currentDeformation zero g = [zero, zero] ∧
      g.getFunction ≠ .ok (Spec.currentDeformation zero g) := by
  refine ⟨rfl, rfl, rfl, ?_⟩
  simp only [GridDef.getFunction, GridDef.step, GridDef.init, GridDef.setFunction,
    Spec.currentDeformation, List.foldl]
  simp [hm]

/-- **C43** Changing the dimension after the mappings keeps a deformation of the old dimension. -/
theorem C43_fails_dim (zero m : δ) :
    let g := ((GridDef.init zero).step zero (.x (some m))).step zero (.dim 3)
    g.getFunction = .ok [m, zero] ∧ Spec.currentDeformation zero g = [m, zero, zero] ∧
      g.getFunction ≠ .ok (Spec.currentDeformation zero g) := by
  refine ⟨rfl, rfl, ?_⟩
  simp [GridDef.getFunction, GridDef.step, GridDef.init, GridDef.setFunction,
    Spec.currentDeformation]

/-- **C43** The grid deformation of a solver can never be applied: whatever is configured,
`set_grid_deformation` raises `AttributeError`. -/
theorem C43_fails_apply {G : Type} (configured : G) :
    setGridDeformation configured = .error .attributeError := rfl

/-- **C43** A new grid deformation has no function. -/
theorem C43_init (zero : δ) : (GridDef.init zero).getFunction = .error .valueError := rfl

example : let g := ([.dim 3, .x (some 5), .order 2, .y (some 7), .x (some 6)] :
      List (GridDefOp ℕ)).foldl (GridDef.step 0) (GridDef.init 0)
    g.getFunction = .ok [6, 7, 0] := rfl

end Dream
