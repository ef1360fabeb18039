import Verif.Model.Time
import Verif.Spec.Time
import Verif.Lemmas.Digit

/-!
# C01, C02: the timer
-/

namespace Dream

/-- The list produced by the timer in closed form (helper). -/
theorem Timer.run_eq (tm : Timer) (incl : Bool) (stride : ℕ) (h : stride * tm.step ≠ 0) :
    tm.run incl stride = .ok ((List.range
      (pyRound ((tm.stop - tm.start) / (stride * tm.step)) + 1 - (1 - incl.toNat : ℕ)).toNat).map
      fun k => (tm.start + stride * ((1 - incl.toNat + k : ℕ) : ℚ) * tm.step,
        pyRoundDigits (tm.start + stride * ((1 - incl.toNat + k : ℕ) : ℚ) * tm.step) tm.digit)) := by
  unfold Timer.run pyRange
  rw [if_neg h]
  simp only [List.range'_eq_map_range, List.map_map]
  rfl

/-- **C01** Iterating a timer with a valid interval, positive step `dt` and stride
`s ≥ 1` never raises; the time parameter runs through `start + s*i*dt` for
consecutive `i` (from 0 if `include_start`, else from 1), strictly increasing, its
last value is within half a stride of `stop`, and nothing is visited only if the
interval is at most half a stride long. -/
theorem C01_timer_visits_interval (tm : Timer) (incl : Bool) (stride : ℕ)
    (hint : tm.start < tm.stop) (hstep : 0 < tm.step) (hs : 1 ≤ stride) :
    ∃ l, tm.run incl stride = .ok l ∧
      Spec.Equidistant (tm.start + if incl then 0 else stride * tm.step) (stride * tm.step)
        (l.map Prod.fst) ∧
      (l.map Prod.fst).Pairwise (· < ·) ∧
      (∀ t ∈ (l.map Prod.fst).getLast?, |t - tm.stop| ≤ stride * tm.step / 2) ∧
      (l = [] ↔ incl = false ∧ tm.stop - tm.start ≤ stride * tm.step / 2) := by
  have hs' : (0 : ℚ) < stride := by exact_mod_cast hs
  have hh : (0 : ℚ) < stride * tm.step := by positivity
  refine ⟨_, tm.run_eq incl stride hh.ne', ?_, ?_, ?_, ?_⟩
  · intro k hk
    simp only [List.map_map, List.getElem_map, List.getElem_range, Function.comp_apply]
    cases incl <;> simp <;> ring
  · simp only [List.map_map]
    rw [List.pairwise_map]
    apply List.Pairwise.imp _ List.pairwise_lt_range
    intro a b hab
    have : (a : ℚ) < b := by exact_mod_cast hab
    simp only [Function.comp_apply]
    push_cast
    nlinarith
  · intro t ht
    set q := (tm.stop - tm.start) / (stride * tm.step) with hq
    have hq0 : 0 ≤ q := by apply div_nonneg <;> linarith
    have hr0 := pyRound_nonneg hq0
    have hr := abs_le.1 (pyRound_abs_le q)
    set n := (pyRound q + 1 - (1 - incl.toNat : ℕ)).toNat with hn
    have hmem := List.mem_of_mem_getLast? ht
    rw [List.map_map] at ht
    rcases Nat.eq_zero_or_pos n with h0 | h0
    · rw [h0] at ht; simp at ht
    · have : n = (n - 1) + 1 := by omega
      rw [this, List.range_succ, List.map_append] at ht
      simp at ht
      have hc : ((1 - incl.toNat + (n - 1) : ℕ) : ℤ) = pyRound q := by
        cases incl <;> simp at hn ⊢ <;> omega
      have hc' : ((1 - incl.toNat + (n - 1) : ℕ) : ℚ) = pyRound q := by exact_mod_cast hc
      have ht' : t = tm.start + stride * ((1 - incl.toNat + (n - 1) : ℕ) : ℚ) * tm.step := by
        rw [← ht]; push_cast; ring
      rw [ht', hc']
      have hstop : tm.stop = tm.start + q * (stride * tm.step) := by
        rw [hq]; field_simp; ring
      rw [hstop]
      have e : tm.start + ↑stride * (pyRound q : ℚ) * tm.step - (tm.start + q * (↑stride * tm.step))
        = (pyRound q - q) * (stride * tm.step) := by ring
      rw [e, abs_mul, abs_of_pos hh]
      have := pyRound_abs_le q
      nlinarith
  · set q := (tm.stop - tm.start) / (stride * tm.step) with hq
    have hq0 : 0 ≤ q := by apply div_nonneg <;> linarith
    have hr0 := pyRound_nonneg hq0
    have key : tm.stop - tm.start ≤ stride * tm.step / 2 ↔ q ≤ 1 / 2 := by
      rw [hq, div_le_iff₀ hh]; constructor <;> intro h <;> linarith
    rw [key, List.map_eq_nil_iff, List.range_eq_nil]
    have hz : pyRound q = 0 ↔ q ≤ 1 / 2 := by
      constructor
      · intro h
        have := le_pyRound q
        rw [h] at this; push_cast at this; linarith
      · intro h
        have hf : ⌊q⌋ = 0 := by
          rw [Int.floor_eq_iff]; push_cast; constructor <;> linarith
        unfold pyRound
        rw [hf]; simp only [Int.cast_zero, sub_zero]
        split_ifs <;> first | rfl | (exfalso; linarith) | simp_all
    rw [← hz]
    cases incl <;> simp <;> omega

/-- **C01** If the stride divides the interval, `start + n*h = stop`, exactly `n`
steps are made (one more entry with `include_start`) and the last one is `stop`. -/
theorem C01_timer_hits_end (tm : Timer) (incl : Bool) (stride n : ℕ)
    (hint : tm.start < tm.stop) (hstep : 0 < tm.step) (hs : 1 ≤ stride)
    (hn : tm.stop = tm.start + n * (stride * tm.step)) :
    ∃ l, tm.run incl stride = .ok l ∧ l.length = n + (if incl then 1 else 0) ∧
      (l.map Prod.fst).getLast? = some tm.stop := by
  have hs' : (0 : ℚ) < stride := by exact_mod_cast hs
  have hh : (0 : ℚ) < stride * tm.step := by positivity
  have hq : (tm.stop - tm.start) / (stride * tm.step) = n := by
    rw [hn]; field_simp; ring
  have hn0 : 0 < n := by
    rcases Nat.eq_zero_or_pos n with h | h
    · subst h; simp at hn; linarith
    · exact h
  refine ⟨_, tm.run_eq incl stride hh.ne', ?_, ?_⟩
  · rw [hq, pyRound_natCast]
    cases incl <;> simp
  · rw [hq, pyRound_natCast, List.map_map]
    have : ((n : ℤ) + 1 - (1 - incl.toNat : ℕ)).toNat = (n + incl.toNat - 1) + 1 := by
      cases incl <;> simp <;> omega
    rw [this, List.range_succ, List.map_append]
    simp only [List.map_cons, List.map_nil, Function.comp_apply, List.getLast?_append_cons,
      List.getLast?_singleton, Option.some.injEq]
    have hc : 1 - incl.toNat + (n + incl.toNat - 1) = n := by cases incl <;> simp; omega
    rw [hc, hn]; ring

/-- The hypotheses of C01 on a concrete timer: interval (1/2, 2), step 1/4, stride 3,
which is visited in two steps ending exactly at 2. -/
example : ∃ l, ({ start := 1/2, stop := 2, step := 1/4, digit := 2, t := 0 } : Timer).run false 3
    = .ok l ∧ l.length = 2 ∧ (l.map Prod.fst).getLast? = some 2 :=
  C01_timer_hits_end _ false 3 2 (by norm_num) (by norm_num) (by norm_num) (by norm_num)

example : ∃ l, ({ start := 1/2, stop := 2, step := 2/5, digit := 1, t := 0 } : Timer).run true 1
    = .ok l ∧ ∀ t ∈ (l.map Prod.fst).getLast?, |t - 2| ≤ ((1:ℕ):ℚ) * (2/5) / 2 :=
  let ⟨l, h, _, _, h', _⟩ := C01_timer_visits_interval
    { start := 1/2, stop := 2, step := 2/5, digit := 1, t := 0 } true 1
    (by norm_num) (by norm_num) (by norm_num)
  ⟨l, h, h'⟩

/-- **C01** A zero step or stride raises instead of looping. -/
theorem C01_timer_zero_step (tm : Timer) (incl : Bool) (stride : ℕ)
    (h : tm.step = 0 ∨ stride = 0) : tm.run incl stride = .error .zeroDivision := by
  unfold Timer.run
  rw [if_pos]
  rcases h with h | h <;> simp [h]

/-- **C02** (part that holds) If step and start have at most as many decimals as the
step shows, every label is the exact time. -/
theorem C02_labels_exact_partial (tm : Timer) (incl : Bool) (stride : ℕ) (l : List (ℚ × ℚ))
    (hdig : tm.digit = setDigit tm.step) (hstep : Spec.Decimals tm.step 16)
    (hstart : Spec.Decimals tm.start tm.digit) (hrun : tm.run incl stride = .ok l) :
    ∀ p ∈ l, p.2 = p.1 := by
  obtain ⟨b, hb⟩ := hstep
  obtain ⟨a, ha⟩ := hstart
  obtain ⟨c, hc⟩ := (setDigit_le_iff tm.step b hb (setDigit tm.step) (setDigit_le_16 _)).1 le_rfl
  rw [← hdig] at hc
  by_cases h0 : stride * tm.step = 0
  · unfold Timer.run at hrun; rw [if_pos h0] at hrun; cases hrun
  · rw [tm.run_eq incl stride h0] at hrun
    injection hrun with hrun
    subst hrun
    intro p hp
    simp only [List.mem_map] at hp
    obtain ⟨k, _, rfl⟩ := hp
    apply pyRoundDigits_of_multiple _ _ (a + stride * (1 - incl.toNat + k : ℕ) * c)
    rw [ha]
    generalize tm.digit = d at *
    rw [hc]
    push_cast
    field_simp

/-- **C02** (part that holds) Whatever the start time: labels are strictly
increasing, hence pairwise different, if one stride exceeds one unit of the last
shown decimal. -/
theorem C02_labels_distinct_partial (tm : Timer) (incl : Bool) (stride : ℕ) (l : List (ℚ × ℚ))
    (h : 1 / 10 ^ tm.digit < stride * tm.step) (hrun : tm.run incl stride = .ok l) :
    (l.map Prod.snd).Pairwise (· < ·) := by
  have h10 : (0 : ℚ) < 1 / 10 ^ tm.digit := by positivity
  have h0 : (stride : ℚ) * tm.step ≠ 0 := by linarith
  rw [tm.run_eq incl stride h0] at hrun
  injection hrun with hrun
  subst hrun
  rw [List.map_map, List.pairwise_map]
  apply List.Pairwise.imp _ List.pairwise_lt_range
  intro a b hab
  simp only [Function.comp_apply]
  apply pyRoundDigits_lt
  have : (a : ℚ) + 1 ≤ b := by exact_mod_cast hab
  push_cast
  nlinarith

/-- **C02** (exact labels are distinct) Corollary: under the hypotheses of
`C02_labels_exact_partial` with a positive stride, no two steps share a label. -/
theorem C02_exact_labels_nodup_partial (tm : Timer) (incl : Bool) (stride : ℕ) (l : List (ℚ × ℚ))
    (hint : tm.start < tm.stop) (hpos : 0 < tm.step) (hs : 1 ≤ stride)
    (hdig : tm.digit = setDigit tm.step) (hstep : Spec.Decimals tm.step 16)
    (hstart : Spec.Decimals tm.start tm.digit) (hrun : tm.run incl stride = .ok l) :
    (l.map Prod.snd).Nodup := by
  have hex := C02_labels_exact_partial tm incl stride l hdig hstep hstart hrun
  obtain ⟨l', hl', _, hp, _⟩ := C01_timer_visits_interval tm incl stride hint hpos hs
  rw [hrun] at hl'; injection hl' with hl'; subst hl'
  have : l.map Prod.snd = l.map Prod.fst := List.map_congr_left hex
  rw [this]
  exact hp.imp fun h => ne_of_lt h

/-- The number of label digits is the number of decimals of the step (for steps
with at most 16 decimals). -/
theorem C02_digit_counts_decimals (step : ℚ) (h : Spec.Decimals step 16) (d : ℕ) (hd : d ≤ 16) :
    setDigit step ≤ d ↔ Spec.Decimals step d := by
  obtain ⟨b, hb⟩ := h
  exact setDigit_le_iff step b hb d hd

theorem setDigit_tenth : setDigit (1/10) = 1 := by
  apply le_antisymm
  · exact (C02_digit_counts_decimals _ ⟨10^15, by norm_num⟩ 1 (by norm_num)).2 ⟨1, by norm_num⟩
  · by_contra h
    have : setDigit (1/10) ≤ 0 := by omega
    obtain ⟨a, ha⟩ := (C02_digit_counts_decimals _ ⟨10^15, by norm_num⟩ 0 (by norm_num)).1 this
    have : (1 : ℚ) = ((10 * a : ℤ) : ℚ) := by push_cast; linarith
    have : (1 : ℤ) = 10 * a := by exact_mod_cast this
    omega

/-- Hypotheses of the partial theorems on a concrete case: start 3/10, step 1/10. -/
example : ∀ l, ({ start := 3/10, stop := 2, step := 1/10, digit := setDigit (1/10), t := 0 } :
    Timer).run false 1 = .ok l → (l.map Prod.snd).Nodup := fun l hl =>
  C02_exact_labels_nodup_partial _ false 1 l (by norm_num) (by norm_num) (by norm_num) rfl
    ⟨10^15, by norm_num⟩ ⟨3, by simp only [setDigit_tenth]; norm_num⟩ hl

/-- **C02 fails in general**: a timer built with the public setters, interval
(0.05, 0.45) and step 0.1, makes four steps of which the first two (times 0.15 and
0.25) carry the same label 0.2. -/
theorem C02_fails_labels_collide :
    ∃ tm : Timer, Timer.default.setInterval (1/20) (9/20) = .ok tm ∧
      ∃ l, (tm.setStep (1/10)).run false 1 = .ok l ∧ l.length = 4 ∧
        l[0]? = some (3/20, 1/5) ∧ l[1]? = some (1/4, 1/5) := by
  have hset : Timer.default.setInterval (1/20) (9/20)
      = .ok { Timer.default with start := 1/20, stop := 9/20 } := by
    unfold Timer.setInterval; norm_num
  have hr : ∀ x : ℚ, x = 4 → pyRound x = 4 := fun x hx => by
    rw [hx]; exact_mod_cast pyRound_natCast 4
  have h15 : pyRound (3/2) = 2 := by
    have : ⌊(3/2 : ℚ)⌋ = 1 := by rw [Int.floor_eq_iff]; norm_num
    unfold pyRound; rw [this]; norm_num
  have h25 : pyRound (5/2) = 2 := by
    have : ⌊(5/2 : ℚ)⌋ = 2 := by rw [Int.floor_eq_iff]; norm_num
    unfold pyRound; rw [this]; norm_num
  refine ⟨_, hset, _, Timer.run_eq _ _ _ (by simp [Timer.setStep]), ?_, ?_, ?_⟩ <;>
    simp only [Timer.setStep, setDigit_tenth] <;>
    rw [hr _ (by norm_num)] <;> norm_num [List.range_succ, pyRoundDigits, h15, h25, show Int.toNat 4 = 4 from rfl]

/-- The interval an assignment asks for, if it is admissible: both ends non-negative, the end
after the start. -/
def TimerOp.validInterval : TimerOp → Option (ℚ × ℚ)
  | .interval s e => if 0 ≤ s ∧ s < e then some (s, e) else none
  | .step _ => none

/-- The step an assignment asks for. -/
def TimerOp.newStep : TimerOp → Option ℚ
  | .interval _ _ => none
  | .step dt => some dt

theorem lastOr_append {α β : Type} (f : α → Option β) (d : β) (l : List α) (a : α) :
    Spec.lastOr f d (l ++ [a]) = (f a).getD (Spec.lastOr f d l) := by
  unfold Spec.lastOr
  rw [List.filterMap_append]
  cases h : f a <;> simp [List.filterMap_cons, h, List.getLast?_append]

/-- **C01/C02** After any history of assignments (rejected ones raise) to a new timer, its interval is the last
admissible one assigned, its step the last one assigned, and the labels have the number of
decimals of that step. In particular `0 ≤ start < end` always holds. -/
theorem C01_history (h : List TimerOp) :
    let tm := h.foldl Timer.assign Timer.default
    (tm.start, tm.stop) = Spec.lastOr TimerOp.validInterval (0, 1) h ∧
    tm.step = Spec.lastOr TimerOp.newStep (1 / 10000) h ∧
    tm.digit = setDigit tm.step ∧ 0 ≤ tm.start ∧ tm.start < tm.stop := by
  induction h using List.reverseRecOn with
  | nil => simp [Timer.default, Spec.lastOr]
  | append_singleton l a ih =>
    simp only [List.foldl_append, List.foldl_cons, List.foldl_nil, lastOr_append]
    generalize l.foldl Timer.assign Timer.default = tm at ih
    obtain ⟨h1, h2, h3, h4, h5⟩ := ih
    cases a with
    | step dt => simp [Timer.assign, Timer.setStep, TimerOp.validInterval, TimerOp.newStep, h1, h4, h5]
    | interval s e =>
      by_cases hv : 0 ≤ s ∧ s < e
      · have e1 : ¬ (s < 0 ∨ e < 0) := by push Not; exact ⟨hv.1, by linarith⟩
        have e2 : ¬ s ≥ e := not_le.2 hv.2
        simp [Timer.assign, Timer.setInterval, TimerOp.validInterval, TimerOp.newStep, e1, e2, hv, h2, h3,
          ← h2]
      · have : tm.setInterval s e = .error .valueError := by
          unfold Timer.setInterval
          by_cases e1 : s < 0 ∨ e < 0
          · rw [if_pos e1]
          · rw [if_neg e1, if_pos]
            push Not at e1 hv
            exact hv e1.1
        simp [Timer.assign, this, TimerOp.validInterval, TimerOp.newStep, hv, h1, h2, h3, h4, h5]

/-- **C02** (part that holds) for every configured timer: if the step last assigned has at most
sixteen decimals and the start no more decimals than the step, then all labels are exact. -/
theorem C02_configured_partial (h : List TimerOp) (incl : Bool) (stride : ℕ) (l : List (ℚ × ℚ))
    (hpos : 0 < Spec.lastOr TimerOp.newStep (1 / 10000) h) (hs : 1 ≤ stride)
    (hstep : Spec.Decimals (Spec.lastOr TimerOp.newStep (1 / 10000) h) 16)
    (hstart : ∀ d, Spec.Decimals (Spec.lastOr TimerOp.newStep (1 / 10000) h) d →
      Spec.Decimals (Spec.lastOr TimerOp.validInterval (0, 1) h).1 d)
    (hrun : (h.foldl Timer.assign Timer.default).run incl stride = .ok l) :
    (∀ p ∈ l, p.2 = p.1) ∧ (l.map Prod.snd).Nodup := by
  obtain ⟨h1, h2, h3, h4, h5⟩ := C01_history h
  have e1 := congrArg Prod.fst h1
  simp only at e1
  rw [← h2] at hpos hstep hstart
  rw [← e1] at hstart
  have hd : Spec.Decimals (h.foldl Timer.assign Timer.default).start
      (h.foldl Timer.assign Timer.default).digit := by
    apply hstart
    rw [h3]
    exact (C02_digit_counts_decimals _ hstep _ (setDigit_le_16 _)).1 le_rfl
  exact ⟨C02_labels_exact_partial _ incl stride l h3 hstep hd hrun,
    C02_exact_labels_nodup_partial _ incl stride l h5 hpos hs h3 hstep hd hrun⟩

/-- A history with a rejected interval: the earlier one stays. -/
example :
    let tm := List.foldl Timer.assign Timer.default
      [.interval (3/10) 2, .step (1/10), .interval 5 4, .interval (-1) 3]
    (tm.start, tm.stop) = (3/10, 2) ∧ tm.step = 1/10 := by
  obtain ⟨h1, h2, -⟩ := C01_history
    [TimerOp.interval (3/10) 2, .step (1/10), .interval 5 4, .interval (-1) 3]
  refine ⟨h1.trans ?_, h2.trans ?_⟩ <;>
    norm_num [Spec.lastOr, TimerOp.validInterval, TimerOp.newStep, List.filterMap_cons]

/-- The hypotheses of `C02_configured_partial` for that history. -/
example : ∀ l, ([TimerOp.interval (3/10) 2, .step (1/10)].foldl Timer.assign Timer.default).run false 1
    = .ok l → (l.map Prod.snd).Nodup := fun l hl => by
  have e1 : Spec.lastOr TimerOp.newStep (1 / 10000) [.interval (3/10) 2, .step (1/10)] = 1/10 := rfl
  have e2 : Spec.lastOr TimerOp.validInterval (0, 1) [.interval (3/10) 2, .step (1/10)] = (3/10, 2) := by
    norm_num [Spec.lastOr, TimerOp.validInterval, List.filterMap_cons]
  refine (C02_configured_partial _ false 1 l ?_ le_rfl ?_ ?_ hl).2
  · rw [e1]; norm_num
  · rw [e1]; exact ⟨10^15, by norm_num⟩
  · rw [e1, e2]
    rintro d ⟨a, ha⟩
    exact ⟨3 * a, by push_cast; rw [mul_div_assoc, ← ha]; norm_num⟩

end Dream
