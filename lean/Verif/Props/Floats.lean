import Verif.Model.Floats
import Verif.Spec.Floats
import Verif.Props.Timer

/-!
# C111: the timer in floating point arithmetic
-/

namespace Dream
open _root_.Spec

/-! ### Rounding -/

theorem pyRound_eq_of_near {x : ℚ} {n : ℤ} (h : |x - n| < 1 / 2) : pyRound x = n := by
  have h1 := abs_le.1 (pyRound_abs_le x)
  have h2 := abs_lt.1 h
  have h3 : ((pyRound x : ℤ) : ℚ) < ((n + 1 : ℤ) : ℚ) := by push_cast; linarith [h1.2, h2.2]
  have h4 : (((n - 1 : ℤ)) : ℚ) < ((pyRound x : ℤ) : ℚ) := by push_cast; linarith [h1.1, h2.1]
  have h5 : pyRound x < n + 1 := by exact_mod_cast h3
  have h6 : n - 1 < pyRound x := by exact_mod_cast h4
  omega

theorem pyRoundDigits_near {x y : ℚ} {d : ℕ} (hy : Decimals y d) (h : |x - y| < 1 / 10 ^ d / 2) :
    pyRoundDigits x d = y := by
  obtain ⟨a, rfl⟩ := hy
  have h10 : (0 : ℚ) < 10 ^ d := by positivity
  have : pyRound (x * 10 ^ d) = a := by
    apply pyRound_eq_of_near
    have e : x * 10 ^ d - a = (x - a / 10 ^ d) * 10 ^ d := by field_simp
    rw [e, abs_mul, abs_of_pos h10]
    calc |x - a / 10 ^ d| * 10 ^ d < 1 / 10 ^ d / 2 * 10 ^ d := mul_lt_mul_of_pos_right h h10
      _ = 1 / 2 := by field_simp
  rw [pyRoundDigits, this]

variable {fl : ℚ → ℚ} {u : ℚ}

theorem Rounds.pos_bounds (hfl : Rounds fl u) {x : ℚ} (hx : 0 ≤ x) :
    x - u * x ≤ fl x ∧ fl x ≤ x + u * x := by
  have := abs_le.1 (hfl.err x)
  rw [abs_of_nonneg hx] at this
  constructor <;> linarith [this.1, this.2]

theorem Rounds.zero (hfl : Rounds fl u) : fl 0 = 0 := by
  have := hfl.err 0
  simpa using this

/-- **C111** (part that holds) The number of digits of a step is that of the number typed, if it is
small: below `0.45` in double precision. -/
theorem C111_digits_partial (hfl : Rounds fl u) {d : ℚ} (hd : 0 < d) (h16 : Decimals d 16)
    (hu : u * d < 1 / 10 ^ 16 / 2) : setDigit (fl d) = setDigit d := by
  obtain ⟨a, ha⟩ := h16
  have h1 : pyRound (d * 10 ^ 16) = a := by
    have : d * 10 ^ 16 = (a : ℚ) := by rw [ha]; field_simp
    rw [this, pyRound_intCast]
  have h2 : pyRound (fl d * 10 ^ 16) = a := by
    apply pyRound_eq_of_near
    have e : fl d * 10 ^ 16 - a = (fl d - d) * 10 ^ 16 := by rw [ha]; field_simp
    rw [e, abs_mul, abs_of_pos (by positivity : (0 : ℚ) < 10 ^ 16)]
    have := hfl.err d
    rw [abs_of_pos hd] at this
    calc |fl d - d| * 10 ^ 16 < 1 / 10 ^ 16 / 2 * 10 ^ 16 :=
          mul_lt_mul_of_pos_right (by linarith) (by positivity)
      _ = 1 / 2 := by norm_num
  unfold setDigit
  rw [h1, h2]

/-- A product of a rounded integer and a rounded number. -/
theorem product_near (hfl : Rounds fl u) (hu : u ≤ 1 / 100) {m d : ℚ} (hm : 0 ≤ m) (hd : 0 ≤ d) :
    |fl (fl m * fl d) - m * d| ≤ 4 * u * (m * d) := by
  have u0 := hfl.unit
  obtain ⟨a1, a2⟩ := Rounds.pos_bounds hfl hm
  obtain ⟨b1, b2⟩ := Rounds.pos_bounds hfl hd
  have fm : 0 ≤ fl m := by nlinarith
  have fd : 0 ≤ fl d := by nlinarith
  obtain ⟨c1, c2⟩ := Rounds.pos_bounds hfl (mul_nonneg fm fd)
  have hmd := mul_nonneg hm hd
  have up : fl m * fl d ≤ (1 + u) * (1 + u) * (m * d) := by
    calc fl m * fl d ≤ (m + u * m) * (d + u * d) := mul_le_mul a2 b2 fd (by positivity)
      _ = _ := by ring
  have lo : (1 - u) * (1 - u) * (m * d) ≤ fl m * fl d := by
    calc (1 - u) * (1 - u) * (m * d) = (m - u * m) * (d - u * d) := by ring
      _ ≤ _ := mul_le_mul a1 b1 (by nlinarith) fm
  rw [abs_le]
  constructor
  · have h1 : (1 - u) * ((1 - u) * (1 - u) * (m * d)) ≤ (1 - u) * (fl m * fl d) :=
      mul_le_mul_of_nonneg_left lo (by linarith)
    have h2 : (1 - 4 * u) * (m * d) ≤ (1 - u) * ((1 - u) * (1 - u) * (m * d)) := by
      have : 1 - 4 * u ≤ (1 - u) * ((1 - u) * (1 - u)) := by nlinarith [mul_nonneg u0 u0]
      calc _ ≤ (1 - u) * ((1 - u) * (1 - u)) * (m * d) := mul_le_mul_of_nonneg_right this hmd
        _ = _ := by ring
    nlinarith
  · have h1 : (1 + u) * (fl m * fl d) ≤ (1 + u) * ((1 + u) * (1 + u) * (m * d)) :=
      mul_le_mul_of_nonneg_left up (by linarith)
    have h2 : (1 + u) * ((1 + u) * (1 + u) * (m * d)) ≤ (1 + 4 * u) * (m * d) := by
      have : (1 + u) * ((1 + u) * (1 + u)) ≤ 1 + 4 * u := by
        nlinarith [mul_nonneg u0 u0, mul_nonneg (mul_nonneg u0 u0) u0]
      calc _ = (1 + u) * ((1 + u) * (1 + u)) * (m * d) := by ring
        _ ≤ _ := mul_le_mul_of_nonneg_right this hmd
    nlinarith

/-- A time, computed as the code does. -/
theorem time_near (hfl : Rounds fl u) (hu : u ≤ 1 / 100) {s m d : ℚ} (hs : 0 ≤ s) (hm : 0 ≤ m)
    (hd : 0 ≤ d) : |fl (fl s + fl (fl m * fl d)) - (s + m * d)| ≤ 6 * u * (s + m * d) := by
  have u0 := hfl.unit
  have h1 := abs_le.1 (product_near hfl hu hm hd)
  obtain ⟨a1, a2⟩ := Rounds.pos_bounds hfl hs
  have hmd := mul_nonneg hm hd
  have e1 : fl s + fl (fl m * fl d) ≤ (s + m * d) + 4 * u * (s + m * d) := by nlinarith [h1.2]
  have e2 : (s + m * d) - 4 * u * (s + m * d) ≤ fl s + fl (fl m * fl d) := by nlinarith [h1.1]
  have hpos : 0 ≤ fl s + fl (fl m * fl d) := by nlinarith
  obtain ⟨c1, c2⟩ := Rounds.pos_bounds hfl hpos
  have h3 : u * (fl s + fl (fl m * fl d)) ≤ 2 * u * (s + m * d) := by nlinarith
  rw [abs_le]
  constructor <;> linarith

/-- The quotient that determines the number of steps. -/
theorem quotient_near (hfl : Rounds fl u) (hu : u ≤ 1 / 100) {s e m d : ℚ} (hs : 0 ≤ s) (he : s ≤ e)
    (hm : 0 < m) (hd : 0 < d) (hacc : 68 * u * (s + e) < m * d) :
    fl (fl m * fl d) ≠ 0 ∧
    |fl (fl (fl e - fl s) / fl (fl m * fl d)) - (e - s) / (m * d)| < 1 / 4 := by
  have u0 := hfl.unit
  have hh : 0 < m * d := mul_pos hm hd
  obtain ⟨h, hhd⟩ : ∃ h, h = m * d := ⟨_, rfl⟩
  obtain ⟨H, hH⟩ : ∃ H, H = fl (fl m * fl d) := ⟨_, rfl⟩
  have h1 := abs_le.1 (product_near hfl hu hm.le hd.le)
  rw [← hH, ← hhd] at h1
  rw [← hhd] at hh hacc
  rw [← hH, ← hhd]
  have hHl : h * (3 / 5) ≤ H := by nlinarith [h1.1]
  have hH0 : 0 < H := by nlinarith
  refine ⟨hH0.ne', ?_⟩
  obtain ⟨a1, a2⟩ := Rounds.pos_bounds hfl hs
  obtain ⟨b1, b2⟩ := Rounds.pos_bounds hfl (hs.trans he)
  obtain ⟨A, hA⟩ : ∃ A, A = fl (fl e - fl s) := ⟨_, rfl⟩
  rw [← hA]
  have hse : 0 ≤ s + e := by linarith
  -- the difference
  have hD : |(fl e - fl s) - (e - s)| ≤ u * (s + e) := by
    rw [abs_le]; constructor <;> linarith
  have hDa : |fl e - fl s| ≤ 2 * (s + e) := by
    have := abs_le.1 hD
    rw [abs_le]; constructor <;> nlinarith
  have hAd : |A - (e - s)| ≤ 3 * u * (s + e) := by
    have h2 := hfl.err (fl e - fl s)
    rw [← hA] at h2
    have h3 : u * |fl e - fl s| ≤ u * (2 * (s + e)) := mul_le_mul_of_nonneg_left hDa u0
    calc |A - (e - s)| = |(A - (fl e - fl s)) + ((fl e - fl s) - (e - s))| := by ring_nf
      _ ≤ |A - (fl e - fl s)| + |(fl e - fl s) - (e - s)| := abs_add_le _ _
      _ ≤ _ := by linarith
  have hq1 : |A / H - (e - s) / h| ≤ 7 * u * (s + e) / H := by
    have e1 : A / H - (e - s) / h = ((A - (e - s)) + (e - s) * ((h - H) / h)) / H := by
      field_simp
      ring
    rw [e1, abs_div, abs_of_pos hH0]
    refine div_le_div_of_nonneg_right ?_ hH0.le
    have h2 : |(e - s) * ((h - H) / h)| ≤ 4 * u * (s + e) := by
      rw [abs_mul, abs_of_nonneg (by linarith : 0 ≤ e - s), abs_div, abs_of_pos hh]
      have h3 : |h - H| / h ≤ 4 * u := by
        rw [div_le_iff₀ hh, abs_le]; constructor <;> linarith [h1.1, h1.2]
      calc (e - s) * (|h - H| / h) ≤ (s + e) * (4 * u) :=
            mul_le_mul (by linarith) h3 (by positivity) hse
        _ = _ := by ring
    calc _ ≤ |A - (e - s)| + |(e - s) * ((h - H) / h)| := abs_add_le _ _
      _ ≤ _ := by linarith
  have hAa : |A| ≤ 2 * (s + e) := by
    have := abs_le.1 hAd
    rw [abs_le]; constructor <;> nlinarith
  have hq2 : |fl (A / H) - A / H| ≤ 2 * u * (s + e) / H := by
    have h2 := hfl.err (A / H)
    rw [abs_div A H, abs_of_pos hH0] at h2
    calc _ ≤ u * (|A| / H) := h2
      _ ≤ u * (2 * (s + e) / H) :=
        mul_le_mul_of_nonneg_left (div_le_div_of_nonneg_right hAa hH0.le) u0
      _ = _ := by ring
  have hsum : 7 * u * (s + e) / H + 2 * u * (s + e) / H < 1 / 4 := by
    rw [← add_div, div_lt_iff₀ hH0]
    nlinarith
  calc _ = |(fl (A / H) - A / H) + (A / H - (e - s) / h)| := by ring_nf
    _ ≤ |fl (A / H) - A / H| + |A / H - (e - s) / h| := abs_add_le _ _
    _ < _ := by linarith

/-! ### The run -/

theorem Timer.runFl_eq (fl : ℚ → ℚ) (tm : Timer) (incl : Bool) (stride : ℕ) (m : ℤ)
    (h : fl (fl stride * tm.step) ≠ 0)
    (hm : pyRound (fl (fl (tm.stop - tm.start) / fl (fl stride * tm.step))) = m) :
    tm.runFl fl incl stride = .ok ((List.range (m + 1 - (1 - incl.toNat : ℕ)).toNat).map fun k =>
      (fl (tm.start + fl (fl (stride * (1 - incl.toNat + k) : ℕ) * tm.step)),
        fl (pyRoundDigits
          (fl (tm.start + fl (fl (stride * (1 - incl.toNat + k) : ℕ) * tm.step))) tm.digit))) := by
  unfold Timer.runFl pyRange
  rw [if_neg h]
  simp only [hm, List.range'_eq_map_range, List.map_map]
  rfl

/-- What is asked of the numbers a user types: the step is a decimal number and the float shows as
many decimals as the number typed (see `C111_digits_partial` and `C111_fails_above_one`), the start
has no more decimals than the step, and the precision suffices for the interval. -/
structure Typed (fl : ℚ → ℚ) (u : ℚ) (s e d : ℚ) : Prop where
  start : 0 ≤ s
  order : s < e
  step : 0 < d
  decimals : Decimals d 16
  aligned : Decimals s (setDigit d)
  digits : setDigit (fl d) = setDigit d
  coarse : u ≤ 1 / 100
  precise : 100 * u * (s + e) < 1 / 10 ^ setDigit d

theorem Typed.step_decimals {s e d : ℚ} (h : Typed fl u s e d) : Decimals d (setDigit d) :=
  (C02_digit_counts_decimals d h.decimals _ (setDigit_le_16 _)).1 le_rfl

theorem Typed.unit_le_step {s e d : ℚ} (h : Typed fl u s e d) : 1 / 10 ^ setDigit d ≤ d := by
  obtain ⟨a, ha⟩ := h.step_decimals
  have h10 : (0 : ℚ) < 10 ^ setDigit d := by positivity
  have hd := h.step
  have h1 : (0 : ℚ) < a := by
    have : (a : ℚ) = d * 10 ^ setDigit d := by
      generalize (10 : ℚ) ^ setDigit d = t at ha h10
      rw [ha]; field_simp
    rw [this]; positivity
  have h2 : (1 : ℤ) ≤ a := by
    have : (0 : ℤ) < a := by exact_mod_cast h1
    omega
  have h3 : (1 : ℚ) ≤ a := by exact_mod_cast h2
  calc (1 : ℚ) / 10 ^ setDigit d ≤ (a : ℚ) / 10 ^ setDigit d := div_le_div_of_nonneg_right h3 h10.le
    _ = d := ha.symm

theorem Typed.time_decimals {s e d : ℚ} (h : Typed fl u s e d) (j : ℕ) :
    Decimals (s + j * d) (setDigit d) := by
  obtain ⟨a, ha⟩ := h.step_decimals
  obtain ⟨b, hb⟩ := h.aligned
  refine ⟨b + j * a, ?_⟩
  have h10 : (10 : ℚ) ^ setDigit d ≠ 0 := by positivity
  generalize (10 : ℚ) ^ setDigit d = t at ha hb h10
  rw [ha, hb]; push_cast; field_simp

/-- One visited time and its label. -/
theorem Typed.label (hfl : Rounds fl u) {s e d : ℚ} (h : Typed fl u s e d) (j : ℕ)
    (hj : s + j * d ≤ 2 * (s + e)) :
    |fl (fl s + fl (fl (j : ℕ) * fl d)) - (s + j * d)| ≤ 6 * u * (s + j * d) ∧
    fl (pyRoundDigits (fl (fl s + fl (fl (j : ℕ) * fl d))) (setDigit (fl d))) = fl (s + j * d) := by
  have h1 := time_near hfl h.coarse h.start (Nat.cast_nonneg j) h.step.le
  refine ⟨h1, ?_⟩
  rw [h.digits]
  congr 1
  apply pyRoundDigits_near (h.time_decimals j)
  refine h1.trans_lt ?_
  have u0 := hfl.unit
  have h2 : 6 * u * (s + j * d) ≤ 12 * u * (s + e) := by nlinarith
  have h3 := h.precise
  have h4 : 0 ≤ u * (s + e) := mul_nonneg u0 (by linarith [h.order, h.start])
  linarith

theorem Typed.refines (hfl : Rounds fl u) {s e d : ℚ} (h : Typed fl u s e d) (incl : Bool)
    {stride : ℕ} (hs : 1 ≤ stride) (m : ℕ) (hm : |(e - s) / (stride * d) - m| ≤ 1 / 4) :
    ∃ l l', (Timer.typed fl s e d).runFl fl incl stride = .ok l ∧
      (Timer.typed id s e d).run incl stride = .ok l' ∧
      List.Forall₂ (fun p p' => |p.1 - p'.1| ≤ 6 * u * p'.1 ∧ p.2 = fl p'.2 ∧ p'.2 = p'.1 ∧
        p'.1 ≤ 2 * (s + e)) l l' := by
  have hd := h.step
  have u0 := hfl.unit
  have hs' : (1 : ℚ) ≤ stride := by exact_mod_cast hs
  have hsp : (0 : ℚ) < stride := by linarith
  have hh : 0 < (stride : ℚ) * d := by positivity
  have hstep : d ≤ stride * d := by nlinarith
  have hse : 0 ≤ s + e := by linarith [h.start, h.order]
  have hacc : 68 * u * (s + e) < stride * d := by
    have h1 := h.precise
    have h2 := h.unit_le_step
    have h3 : 0 ≤ u * (s + e) := by positivity
    linarith
  obtain ⟨hne, hq⟩ := quotient_near hfl h.coarse h.start h.order.le hsp hd hacc
  have hN : pyRound (fl (fl (fl e - fl s) / fl (fl (stride : ℚ) * fl d))) = (m : ℤ) := by
    apply pyRound_eq_of_near
    push_cast
    have h1 := abs_lt.1 hq
    have h2 := abs_le.1 hm
    rw [abs_lt]; constructor <;> linarith [h1.1, h1.2, h2.1, h2.2]
  have hN' : pyRound ((e - s) / (stride * d)) = (m : ℤ) := by
    apply pyRound_eq_of_near
    push_cast
    linarith
  refine ⟨_, _, Timer.runFl_eq fl _ incl stride m hne hN,
    Timer.run_eq (Timer.typed id s e d) incl stride hh.ne', ?_⟩
  have hN'' : pyRound (((Timer.typed id s e d).stop - (Timer.typed id s e d).start) /
      (stride * (Timer.typed id s e d).step)) = (m : ℤ) := hN'
  rw [hN'', List.forall₂_map_left_iff, List.forall₂_map_right_iff, List.forall₂_same]
  intro k hk
  rw [List.mem_range] at hk
  have hkm : 1 - incl.toNat + k ≤ m := by omega
  generalize 1 - incl.toNat + k = i at hkm
  have hcast : (((stride * i : ℕ) : ℕ) : ℚ) * d = stride * i * d := by push_cast; ring
  have hbound : s + ((stride * i : ℕ) : ℚ) * d ≤ 2 * (s + e) := by
    have hi : (i : ℚ) ≤ m := by exact_mod_cast hkm
    have h1 := (abs_le.1 hm).1
    have h2 : (m : ℚ) * (stride * d) ≤ (e - s) + stride * d / 4 := by
      have : (m : ℚ) ≤ (e - s) / (stride * d) + 1 / 4 := by linarith
      calc (m : ℚ) * (stride * d) ≤ ((e - s) / (stride * d) + 1 / 4) * (stride * d) :=
            mul_le_mul_of_nonneg_right this hh.le
        _ = _ := by field_simp
    have h3 : (i : ℚ) * (stride * d) ≤ m * (stride * d) := mul_le_mul_of_nonneg_right hi hh.le
    rw [hcast]
    have h0 := h.start
    have h00 := h.order
    rcases Nat.eq_zero_or_pos m with hm0 | hm0
    · have : i = 0 := by omega
      subst this
      simp
      linarith
    · have h4 : (1 : ℚ) ≤ m := by exact_mod_cast hm0
      nlinarith
  obtain ⟨r1, r2⟩ := h.label hfl (stride * i) hbound
  have hl' : pyRoundDigits (s + stride * i * d) (setDigit d) = s + stride * i * d := by
    apply pyRoundDigits_near
    · rw [← hcast]; exact h.time_decimals _
    · simp
  simp only [Timer.typed, id]
  rw [hcast] at r1 r2
  rw [hl']
  exact ⟨r1, r2, rfl, hcast ▸ hbound⟩

/-- **C111** (part that holds) The timer in floating point arithmetic does what exact arithmetic
says: with numbers typed as in `Typed`, and an interval that does not end near the middle between two
visited times, as many times are visited as in exact arithmetic, each with a relative error of at
most six units, and the labels are the floats nearest to the exact labels. -/
theorem C111_refines_partial (hfl : Rounds fl u) {s e d : ℚ} (h : Typed fl u s e d) (incl : Bool)
    {stride : ℕ} (hs : 1 ≤ stride) (m : ℕ) (hm : |(e - s) / (stride * d) - m| ≤ 1 / 4) :
    ∃ l l', (Timer.typed fl s e d).runFl fl incl stride = .ok l ∧
      (Timer.typed id s e d).run incl stride = .ok l' ∧
      List.Forall₂ (fun p p' => |p.1 - p'.1| ≤ 6 * u * p'.1 ∧ p.2 = fl p'.2 ∧ p'.2 = p'.1) l l' := by
  obtain ⟨l, l', h1, h2, h3⟩ := Typed.refines hfl h incl hs m hm
  exact ⟨l, l', h1, h2, h3.imp fun _ _ h => ⟨h.1, h.2.1, h.2.2.1⟩⟩

/-- **C111** (part that holds) If the interval is a number of strides, exactly these are made; the
label of each is the float a user gets by typing the exact time, and the last is the end of the
interval. -/
theorem C111_labels_partial (hfl : Rounds fl u) {s e d : ℚ} (h : Typed fl u s e d) (incl : Bool)
    {stride : ℕ} (hs : 1 ≤ stride) (n : ℕ) (hn : e = s + n * (stride * d)) :
    ∃ l, (Timer.typed fl s e d).runFl fl incl stride = .ok l ∧
      l.length = n + (if incl then 1 else 0) ∧
      (∀ (k : ℕ) (hk : k < l.length),
        (l[k]).2 = fl (s + (k + if incl then 0 else 1) * (stride * d))) ∧
      (l.map Prod.snd).getLast? = some (fl e) := by
  have hs' : (1 : ℚ) ≤ stride := by exact_mod_cast hs
  have hd := h.step
  have hh : 0 < (stride : ℚ) * d := by positivity
  obtain ⟨l, l', h1, h2, h3⟩ := C111_refines_partial hfl h incl hs n (by
    have : (e - s) / (stride * d) - n = 0 := by rw [hn]; field_simp; ring
    rw [this]; norm_num)
  obtain ⟨l1, e1, hlen, hlast⟩ := C01_timer_hits_end (Timer.typed id s e d) incl stride n h.order
    h.step hs hn
  obtain ⟨l2, e2, heq, -⟩ := C01_timer_visits_interval (Timer.typed id s e d) incl stride h.order
    h.step hs
  rw [h2] at e1 e2
  cases e1
  cases e2
  have hl := h3.length_eq
  refine ⟨l, h1, by omega, ?_, ?_⟩
  · intro k hk
    have h4 := (List.forall₂_iff_get.1 h3).2 k hk (by omega)
    have h5 := heq k (by simpa using hl ▸ hk)
    simp only [List.get_eq_getElem] at h4
    rw [h4.2.1, h4.2.2]
    simp only [List.getElem_map] at h5
    rw [h5]
    congr 1
    simp only [Timer.typed, id]
    cases incl <;> simp <;> ring
  · have h4 : l.map Prod.snd = (l'.map Prod.fst).map fl := by
      rw [List.map_map]
      clear h1 h2 heq hlast hlen hl
      induction h3 with
      | nil => rfl
      | cons a b ih => simp only [List.map_cons, ih, a.2.1, a.2.2, Function.comp_apply]
    rw [h4, List.getLast?_map, hlast]
    rfl

/-- **C111** (part that holds) The labels are strictly increasing floats, so no two steps share one. -/
theorem C111_increasing_partial (hfl : Rounds fl u) {s e d : ℚ} (h : Typed fl u s e d) (incl : Bool)
    {stride : ℕ} (hs : 1 ≤ stride) (m : ℕ) (hm : |(e - s) / (stride * d) - m| ≤ 1 / 4)
    (l : List (ℚ × ℚ)) (hl : (Timer.typed fl s e d).runFl fl incl stride = .ok l) :
    (l.map Prod.snd).Pairwise (· < ·) := by
  have hs' : (1 : ℚ) ≤ stride := by exact_mod_cast hs
  have hd := h.step
  have u0 := hfl.unit
  have hstep : d ≤ stride * d := by nlinarith
  obtain ⟨l1, l', h1, h2, h3⟩ := Typed.refines hfl h incl hs m hm
  rw [hl] at h1
  cases h1
  obtain ⟨l2, e2, heq, -⟩ := C01_timer_visits_interval (Timer.typed id s e d) incl stride h.order
    h.step hs
  rw [h2] at e2
  cases e2
  have hlen := h3.length_eq
  rw [List.pairwise_iff_getElem]
  intro i j hi hj hij
  simp only [List.length_map] at hi hj
  simp only [List.getElem_map]
  have ai := (List.forall₂_iff_get.1 h3).2 i hi (by omega)
  have aj := (List.forall₂_iff_get.1 h3).2 j hj (by omega)
  have bi := heq i (by simpa using hlen ▸ hi)
  have bj := heq j (by simpa using hlen ▸ hj)
  simp only [List.get_eq_getElem] at ai aj
  simp only [List.getElem_map] at bi bj
  rw [ai.2.1, aj.2.1, ai.2.2.1, aj.2.2.1]
  have ci := ai.2.2.2
  have cj := aj.2.2.2
  obtain ⟨x, hx⟩ : ∃ x, x = (l'[i]'(by omega)).1 := ⟨_, rfl⟩
  obtain ⟨y, hy⟩ : ∃ y, y = (l'[j]'(by omega)).1 := ⟨_, rfl⟩
  rw [← hx] at bi ci ⊢
  rw [← hy] at bj cj ⊢
  have hij' : (i : ℚ) + 1 ≤ j := by exact_mod_cast hij
  have hyx : x + stride * d ≤ y := by
    rw [bi, bj]
    have : ((i : ℚ) + 1) * (stride * d) ≤ j * (stride * d) :=
      mul_le_mul_of_nonneg_right hij' (by linarith)
    simp only [Timer.typed, id]
    linarith
  have hx0 : 0 ≤ x := by
    rw [bi]
    have := h.start
    simp only [Timer.typed, id]
    have h4 : (0 : ℚ) ≤ if incl = true then 0 else (stride : ℚ) * d := by
      split_ifs <;> linarith
    have h5 : (0 : ℚ) ≤ i * (stride * d) := by positivity
    linarith
  obtain ⟨-, x2⟩ := Rounds.pos_bounds hfl hx0
  obtain ⟨y1, -⟩ := Rounds.pos_bounds hfl (by linarith : 0 ≤ y)
  have g1 : u * x ≤ 2 * u * (s + e) := by nlinarith
  have g2 : u * y ≤ 2 * u * (s + e) := by nlinarith
  have g3 := h.precise
  have g4 := h.unit_le_step
  have g5 : 0 ≤ u * (s + e) := mul_nonneg u0 (by linarith [h.order, h.start])
  linarith

/-! ### Double precision -/

/-- **C111** Double precision has the relative error `2⁻⁵³`. -/
theorem C111_double : Rounds double (1 / 2 ^ 53) where
  unit := by positivity
  err x := by
    unfold double
    split_ifs with h0
    · simp [h0]
    · obtain ⟨ulp, hu⟩ : ∃ ulp : ℚ, ulp = 2 ^ (Int.log 2 |x| - 52) := ⟨_, rfl⟩
      have hup : 0 < ulp := by rw [hu]; exact zpow_pos two_pos _
      rw [← hu]
      have h1 : ulp * 2 ^ 52 ≤ |x| := by
        have := Int.zpow_log_le_self (b := 2) (r := |x|) one_lt_two (abs_pos.2 h0)
        rw [hu, ← zpow_natCast, ← zpow_add₀ two_ne_zero]
        simpa using this
      have h2 : (pyRound (x / ulp) : ℚ) * ulp - x = (pyRound (x / ulp) - x / ulp) * ulp := by
        field_simp
      rw [h2, abs_mul, abs_of_pos hup]
      have h3 := pyRound_abs_le (x / ulp)
      calc _ ≤ 1 / 2 * ulp := mul_le_mul_of_nonneg_right h3 hup.le
        _ ≤ _ := by linarith

/-- A double from its exponent and significand. -/
theorem double_eq {x : ℚ} (e m : ℤ) (hx : (2 : ℚ) ^ e ≤ x) (hx' : x < 2 ^ (e + 1))
    (hm : |x / 2 ^ (e - 52) - m| < 1 / 2) : double x = m * 2 ^ (e - 52) := by
  have hx0 : 0 < x := lt_of_lt_of_le (zpow_pos two_pos _) hx
  have hlog : Int.log 2 |x| = e := by
    rw [abs_of_pos hx0]
    apply le_antisymm
    · have : Int.log 2 x < e + 1 := (Int.lt_zpow_iff_log_lt one_lt_two hx0).1 (by exact_mod_cast hx')
      omega
    · exact (Int.zpow_le_iff_le_log one_lt_two hx0).1 (by exact_mod_cast hx)
  unfold double
  rw [if_neg hx0.ne', hlog, pyRound_eq_of_near hm]

/-- Interval (0, 2) and step 0.1 in double precision: twenty steps, the third of them with the label
`0.3` although the parameter is set to `0.30000000000000004`. -/
theorem typed_tenth : Typed double (1 / 2 ^ 53) 0 2 (1/10) where
  start := le_rfl
  order := by norm_num
  step := by norm_num
  decimals := ⟨10 ^ 15, by norm_num⟩
  aligned := ⟨0, by simp⟩
  digits := C111_digits_partial C111_double (by norm_num) ⟨10 ^ 15, by norm_num⟩ (by norm_num)
  coarse := by norm_num
  precise := by rw [setDigit_tenth]; norm_num

example : ∃ l, (Timer.typed double 0 2 (1/10)).runFl double false 1 = .ok l ∧ l.length = 20 ∧
    (∃ p, l[2]? = some p ∧ p.2 = double (3/10)) ∧ (l.map Prod.snd).getLast? = some (double 2) := by
  obtain ⟨l, h1, h2, h3, h4⟩ := C111_labels_partial C111_double typed_tenth false (stride := 1) le_rfl 20
    (by norm_num)
  refine ⟨l, h1, h2, ⟨l[2]'(by rw [h2]; norm_num), by simp [h2], ?_⟩, h4⟩
  rw [h3 2 (by rw [h2]; norm_num)]
  norm_num

/-- An interval that is no multiple of the step, (0.3, 2.32): twenty times, all labels different. -/
theorem typed_uneven : Typed double (1 / 2 ^ 53) (3/10) (232/100) (1/10) where
  start := by norm_num
  order := by norm_num
  step := by norm_num
  decimals := ⟨10 ^ 15, by norm_num⟩
  aligned := ⟨3, by rw [setDigit_tenth]; norm_num⟩
  digits := C111_digits_partial C111_double (by norm_num) ⟨10 ^ 15, by norm_num⟩ (by norm_num)
  coarse := by norm_num
  precise := by rw [setDigit_tenth]; norm_num

example : ∃ l, (Timer.typed double (3/10) (232/100) (1/10)).runFl double true 1 = .ok l ∧
    (l.map Prod.snd).Pairwise (· < ·) := by
  have hm : |((232/100 : ℚ) - 3/10) / ((1 : ℕ) * (1/10)) - (20 : ℕ)| ≤ 1 / 4 := by
    norm_num [abs_le]
  obtain ⟨l, l', h1, -⟩ := C111_refines_partial C111_double typed_uneven true (stride := 1) le_rfl 20 hm
  exact ⟨l, h1, C111_increasing_partial C111_double typed_uneven true le_rfl 20 hm l h1⟩

/-- Steps that are floats themselves need no bound on their size: step 2 on the interval (0, 10). -/
theorem typed_two : Typed double (1 / 2 ^ 53) 0 10 2 where
  start := le_rfl
  order := by norm_num
  step := by norm_num
  decimals := ⟨2 * 10 ^ 16, by norm_num⟩
  aligned := ⟨0, by simp⟩
  digits := by
    rw [double_eq (x := 2) 1 (2 ^ 52) (by norm_num) (by norm_num) (by norm_num [abs_lt])]
    norm_num
  coarse := by norm_num
  precise := by
    have h : setDigit 2 = 0 := Nat.le_zero.1
      ((C02_digit_counts_decimals 2 ⟨2 * 10 ^ 16, by norm_num⟩ 0 (by norm_num)).2 ⟨2, by norm_num⟩)
    rw [h]; norm_num

example : ∃ l, (Timer.typed double 0 10 2).runFl double false 1 = .ok l ∧ l.length = 5 ∧
    (l.map Prod.snd).getLast? = some (double 10) := by
  obtain ⟨l, h1, h2, -, h4⟩ := C111_labels_partial C111_double typed_two false (stride := 1) le_rfl 5
    (by norm_num)
  exact ⟨l, h1, h2, h4⟩

/-- **C111 fails for larger steps**: in double precision a timer over (0, 11) with step 1.1 is taken
to have sixteen decimals, and the third label is `3.3000000000000003`, not `3.3`: the file saved at
this time is not the one a user who types `3.3` asks for. -/
theorem C111_fails_above_one :
    (Timer.typed double 0 11 (11/10)).digit = 16 ∧
    ∃ l, (Timer.typed double 0 11 (11/10)).runFl double false 1 = .ok l ∧ l.length = 10 ∧
      ∃ p, l[2]? = some p ∧ p.2 = 7430939385161319 / 2 ^ 51 ∧ p.2 ≠ double (33/10) := by
  have d11 : double (11/10) = 4953959590107546 / 2 ^ 52 := by
    rw [double_eq 0 4953959590107546 (by norm_num) (by norm_num) (by norm_num [abs_lt])]
    norm_num
  have d33 : double (33/10) = 7430939385161318 / 2 ^ 51 := by
    rw [double_eq 1 7430939385161318 (by norm_num) (by norm_num) (by norm_num [abs_lt])]
    norm_num
  have dE : double 11 = 11 := by
    rw [double_eq 3 (11 * 2 ^ 49) (by norm_num) (by norm_num) (by norm_num [abs_lt])]
    norm_num
  have d1 : double 1 = 1 := by
    rw [double_eq 0 (2 ^ 52) (by norm_num) (by norm_num) (by norm_num [abs_lt])]
    norm_num
  have d3 : double 3 = 3 := by
    rw [double_eq 1 (3 * 2 ^ 51) (by norm_num) (by norm_num) (by norm_num [abs_lt])]
    norm_num
  have d0 : double 0 = 0 := by simp [double]
  have hdig : setDigit (double (11/10)) = 16 := by
    have hr : pyRound (double (11/10) * 10 ^ 16) = 11000000000000001 := by
      apply pyRound_eq_of_near
      rw [d11]
      norm_num [abs_lt]
    apply le_antisymm (setDigit_le_16 _)
    by_contra hc
    have := (setDigit_le_iff_dvd (double (11/10)) 15 (by norm_num)).1 (by omega)
    rw [hr] at this
    norm_num at this
  have dt : double (4953959590107546 / 2 ^ 52) = 4953959590107546 / 2 ^ 52 := by
    rw [double_eq 0 4953959590107546 (by norm_num) (by norm_num) (by norm_num [abs_lt])]
    norm_num
  have dp : double (3 * (4953959590107546 / 2 ^ 52)) = 7430939385161319 / 2 ^ 51 := by
    rw [double_eq 1 7430939385161319 (by norm_num) (by norm_num) (by norm_num [abs_lt])]
    norm_num
  have dp' : double (7430939385161319 / 2 ^ 51) = 7430939385161319 / 2 ^ 51 := by
    rw [double_eq 1 7430939385161319 (by norm_num) (by norm_num) (by norm_num [abs_lt])]
    norm_num
  have dl : double (pyRoundDigits (7430939385161319 / 2 ^ 51) 16) = 7430939385161319 / 2 ^ 51 := by
    have hr : pyRound (7430939385161319 / 2 ^ 51 * 10 ^ 16) = 33000000000000003 := by
      apply pyRound_eq_of_near
      norm_num [abs_lt]
    rw [pyRoundDigits, hr,
      double_eq 1 7430939385161319 (by norm_num) (by norm_num) (by norm_num [abs_lt])]
    norm_num
  refine ⟨hdig, _, Timer.runFl_eq double _ false 1 10 ?_ ?_, ?_, ?_⟩
  · simp only [Timer.typed, Nat.cast_one, d1, one_mul, d11, dt]
    norm_num
  · simp only [Timer.typed, Nat.cast_one, d1, one_mul, d11, dt, dE, d0, sub_zero]
    apply pyRound_eq_of_near
    have h1 := abs_le.1 (C111_double.err (11 / (4953959590107546 / 2 ^ 52)))
    have h2 : |(11 : ℚ) / (4953959590107546 / 2 ^ 52)| = 11 / (4953959590107546 / 2 ^ 52) :=
      abs_of_pos (by norm_num)
    rw [h2] at h1
    rw [abs_lt]
    constructor
    · have := h1.1
      norm_num at this ⊢
      linarith
    · have := h1.2
      norm_num at this ⊢
      linarith
  · simp
  · refine ⟨(7430939385161319 / 2 ^ 51, 7430939385161319 / 2 ^ 51), ?_, rfl, ?_⟩
    · have e3 : (((1 * (1 - false.toNat + 2) : ℕ) : ℕ) : ℚ) = 3 := by norm_num
      rw [List.getElem?_map, List.getElem?_range (by norm_num), Option.map_some]
      simp only [Timer.typed, e3, d3, d11, dp, d0, zero_add, dp']
      rw [← d11, hdig, dl]
    · rw [d33]
      norm_num

end Dream
