import Verif.Spec.Options

/-!
# C03: validated options
-/

namespace Dream
open Spec

theorem toFloat_proper {fl : Rounding} {x : PyNum} (h : Proper fl x) : x.toFloat fl = .ok x := by
  cases x with
  | fin q => simp only [Proper] at h; simp [PyNum.toFloat, h]
  | nan => cases h
  | inf n => rfl

/-- The comparisons of Python agree with the order of the extended numbers. -/
theorem lt_denote {x y : PyNum} {a b : WithBot (WithTop ℚ)} (hx : denote x = some a)
    (hy : denote y = some b) : x.lt y = true ↔ a < b := by
  cases x with
  | nan => cases hx
  | fin p =>
    cases y with
    | nan => cases hy
    | fin q => cases hx; cases hy; simp [PyNum.lt]
    | inf n =>
      cases n <;> cases hx <;> cases hy
      · simpa [PyNum.lt] using WithBot.coe_lt_coe.2 (WithTop.coe_lt_top p)
      · simp [PyNum.lt]
  | inf m =>
    cases y with
    | nan => cases hy
    | fin q => cases m <;> cases hx <;> cases hy <;> simp [PyNum.lt]
    | inf n => cases m <;> cases n <;> cases hx <;> cases hy <;> simp [PyNum.lt]

theorem le_denote {x y : PyNum} {a b : WithBot (WithTop ℚ)} (hx : denote x = some a)
    (hy : denote y = some b) : x.le y = true ↔ a ≤ b := by
  have : x.le y = !(y.lt x) := by
    cases x with
    | nan => cases hx
    | fin p => cases y with
      | nan => cases hy
      | _ => rfl
    | inf m => cases y with
      | nan => cases hy
      | _ => rfl
  rw [this, Bool.not_eq_true', ← Bool.not_eq_true, lt_denote hy hx, not_lt]

theorem proper_denote {fl : Rounding} {x : PyNum} (h : Proper fl x) : ∃ a, denote x = some a := by
  cases x with
  | fin q => exact ⟨_, rfl⟩
  | nan => cases h
  | inf n => cases n <;> exact ⟨_, rfl⟩

theorem denote_zero : denote (.fin 0) = some 0 := rfl

/-- **C03** The Mach number is accepted exactly if it is a number `>= 0`, and stored as it is. -/
theorem C03_mach {fl : Rounding} {x : PyNum} {a : WithBot (WithTop ℚ)} (hp : Proper fl x)
    (hx : denote x = some a) :
    setMach fl (.num x) = if 0 ≤ a then .ok x else .error .valueError := by
  have h := lt_denote hx denote_zero
  by_cases hc : a < 0
  · simp [setMach, PyVal.number, bind, Except.bind, h.2 hc, not_le.2 hc, throw, throwThe,
      MonadExceptOf.throw]
  · have : x.lt (.fin 0) = false := by
      rw [← Bool.not_eq_true]; exact fun hh => hc (h.1 hh)
    simp [setMach, PyVal.number, bind, Except.bind, this, not_lt.1 hc, toFloat_proper hp, pure,
      Except.pure]

/-- **C03** Reynolds number, Prandtl number and convergence criterion are accepted exactly if
they are numbers `> 0`, and stored as they are. -/
theorem C03_positive {fl : Rounding} {x : PyNum} {a : WithBot (WithTop ℚ)} (hp : Proper fl x)
    (hx : denote x = some a) :
    setPositive fl (.num x) = (if 0 < a then .ok x else .error .valueError) ∧
    setCriterion fl (.num x) = (if 0 < a then .ok x else .error .valueError) := by
  have h := le_denote hx denote_zero
  have key : setPositive fl (.num x) = if 0 < a then .ok x else .error .valueError := by
    by_cases hc : a ≤ 0
    · simp [setPositive, PyVal.number, bind, Except.bind, h.2 hc, not_lt.2 hc, throw, throwThe,
        MonadExceptOf.throw]
    · have : x.le (.fin 0) = false := by
        rw [← Bool.not_eq_true]; exact fun hh => hc (h.1 hh)
      simp [setPositive, PyVal.number, bind, Except.bind, this, not_le.1 hc, toFloat_proper hp,
        pure, Except.pure]
  exact ⟨key, key⟩

/-- **C03** The interval is accepted exactly if `0 <= start < end`, and stored as it is. -/
theorem C03_interval {fl : Rounding} {x y : PyNum} {a b : WithBot (WithTop ℚ)}
    (hpx : Proper fl x) (hpy : Proper fl y) (hx : denote x = some a) (hy : denote y = some b) :
    setInterval fl (.seq [x, y]) =
      if 0 ≤ a ∧ a < b then .ok (x, y) else .error .valueError := by
  have h1 := lt_denote hx denote_zero
  have h2 := lt_denote hy denote_zero
  have h3 := le_denote hy hx
  by_cases c1 : a < 0
  · simp [setInterval, h1.2 c1, not_le.2 c1, bind, Except.bind, throw, throwThe,
      MonadExceptOf.throw]
  have e1 : x.lt (.fin 0) = false := by rw [← Bool.not_eq_true]; exact fun hh => c1 (h1.1 hh)
  by_cases c2 : b < 0
  · have : ¬ a < b := fun hab => c1 (hab.trans c2)
    simp [setInterval, e1, h2.2 c2, this, bind, Except.bind, throw, throwThe, MonadExceptOf.throw]
  have e2 : y.lt (.fin 0) = false := by rw [← Bool.not_eq_true]; exact fun hh => c2 (h2.1 hh)
  by_cases c3 : b ≤ a
  · simp [setInterval, e1, e2, h3.2 c3, not_lt.2 c3, bind, Except.bind, throw, throwThe,
      MonadExceptOf.throw, pure, Except.pure]
  have e3 : y.le x = false := by rw [← Bool.not_eq_true]; exact fun hh => c3 (h3.1 hh)
  simp [setInterval, e1, e2, e3, not_lt.1 c1, not_le.1 c3, bind, Except.bind, pure, Except.pure,
    toFloat_proper hpx, toFloat_proper hpy]

/-- **C03** Rates: a finite number is accepted exactly if it is at least one, and stored
truncated. `nan` and infinities are refused. No restriction on the number. -/
theorem C03_rate (x : PyNum) :
    (∀ i, setRate (.num x) = .ok i ↔ ∃ q, x = .fin q ∧ 1 ≤ q ∧ i = ⌊q⌋) := by
  intro i
  cases x with
  | nan => simp [setRate, PyVal.number, PyNum.toInt, bind, Except.bind]
  | inf n => simp [setRate, PyVal.number, PyNum.toInt, bind, Except.bind]
  | fin q =>
    have hpos : 0 < pyInt q ↔ 1 ≤ q := by
      unfold pyInt
      split_ifs with h0
      · rw [Int.lt_iff_add_one_le, zero_add, Int.le_floor]
        norm_num
      · constructor
        · intro h
          have : (⌈q⌉ : ℤ) ≤ 0 := Int.ceil_le.2 (by push_cast; linarith)
          omega
        · intro h; linarith
    by_cases hq : 1 ≤ q
    · have h1 : ¬ pyInt q ≤ 0 := not_le.2 (hpos.2 hq)
      have h2 : pyInt q = ⌊q⌋ := by unfold pyInt; rw [if_pos (by linarith)]
      have : setRate (.num (.fin q)) = .ok (pyInt q) := by
        simp [setRate, PyVal.number, PyNum.toInt, bind, Except.bind, h1, pure, Except.pure]
      rw [this, h2]
      simp [hq, eq_comm]
    · have h1 : pyInt q ≤ 0 := not_lt.1 fun h => hq (hpos.1 h)
      simp [setRate, PyVal.number, PyNum.toInt, bind, Except.bind, h1, throw, throwThe,
        MonadExceptOf.throw, hq]

/-- **C03** What a refused rate raises: `ValueError` for `nan` and for every finite number below one,
`OverflowError` for an infinity, `TypeError` for anything that is not a number. -/
theorem C03_rate_refused :
    setRate (.num .nan) = .error .valueError ∧
    (∀ q : ℚ, q < 1 → setRate (.num (.fin q)) = .error .valueError) ∧
    (∀ n, setRate (.num (.inf n)) = .error .overflow) ∧
    (∀ v, (∀ x, v ≠ .num x) → setRate v = .error .typeError) := by
  refine ⟨rfl, fun q hq => ?_, fun n => rfl, fun v hv => ?_⟩
  · have h1 : pyInt q ≤ 0 := by
      unfold pyInt
      split_ifs with h0
      · have : ⌊q⌋ < 1 := Int.floor_lt.2 (by push_cast; exact hq)
        omega
      · exact Int.ceil_le.2 (by push_cast; linarith)
    simp [setRate, PyVal.number, PyNum.toInt, bind, Except.bind, h1, throw, throwThe,
      MonadExceptOf.throw]
  · cases v with
    | num x => exact absurd rfl (hv x)
    | seq xs => rfl
    | other => rfl

example : setRate (.num (.fin (9 / 10))) = .error .valueError :=
  C03_rate_refused.2.1 _ (by norm_num)

/-- **C03** Options that need one number refuse everything else with `TypeError`; an interval that is
a sequence of another length than two is refused with `ValueError`. -/
theorem C03_not_a_number (fl : Rounding) (v : PyVal) (hv : ∀ x, v ≠ .num x) :
    setMach fl v = .error .typeError ∧ setPositive fl v = .error .typeError ∧
    setCriterion fl v = .error .typeError ∧
    (∀ x, setInterval fl (.num x) = .error .typeError) ∧
    (∀ xs : List PyNum, xs.length ≠ 2 → setInterval fl (.seq xs) = .error .valueError) := by
  have hn : v.number = .error .typeError := by
    cases v with
    | num x => exact absurd rfl (hv x)
    | seq xs => rfl
    | other => rfl
  refine ⟨by simp [setMach, hn, bind, Except.bind], by simp [setPositive, hn, bind, Except.bind],
    by simp [setCriterion, hn, bind, Except.bind], fun x => rfl, fun xs hxs => ?_⟩
  match xs, hxs with
  | [], _ => rfl
  | [_], _ => rfl
  | [_, _], h => exact absurd rfl h
  | _ :: _ :: _ :: _, _ => rfl

example (fl : Rounding) : setMach fl .other = .error .typeError :=
  (C03_not_a_number fl .other (fun _ h => by cases h)).1

/-- **C03** A rejected assignment leaves every option as it was. -/
theorem C03_rejected (fl : Rounding) (o : OptName) (v : PyVal) (σ : Options) (e : PyErr)
    (h : (setOption fl o v σ).1 = .error e) : (setOption fl o v σ).2 = σ := by
  have key : ∀ {α : Type} (r : Except PyErr α) (put : α → Options),
      (storeWith r put σ).1 = .error e → (storeWith r put σ).2 = σ := by
    intro α r put hr
    cases r with
    | ok v => cases hr
    | error e => rfl
  cases o <;> exact key _ _ h

/-- **C03** After any history of accepted and rejected assignments every option satisfies its
constraint, provided that no assigned number is `nan` and finite numbers are floats.
Missing: `nan` (`C03_fails_nan`) and exact numbers that lose their property when converted
to a float (`C03_fails_rounding`). -/
theorem C03_history_partial (fl : Rounding) (h : List (OptName × PyVal))
    (hp : ∀ e ∈ h, ProperVal fl e.2) (σ : Options) (hσ : ValidOptions σ) :
    ValidOptions (setAll fl h σ) := by
  induction h generalizing σ with
  | nil => exact hσ
  | cons e h ih =>
    refine ih (fun x hx => hp x (by simp [hx])) _ ?_
    have hv := hp e (by simp)
    obtain ⟨o, v⟩ := e
    simp only at hv ⊢
    have rate : ∀ i, setRate v = .ok i → 0 < i := by
      intro i hi
      cases v with
      | num x =>
        obtain ⟨q, _, h1, h2⟩ := (C03_rate x i).1 hi
        rw [h2, Int.lt_iff_add_one_le, zero_add, Int.le_floor]
        exact_mod_cast h1
      | seq xs => cases hi
      | other => cases hi
    have pos : ∀ x, (setPositive fl v = .ok x ∨ setCriterion fl v = .ok x) → Is (0 < ·) x := by
      intro x hx
      cases v with
      | num y =>
        obtain ⟨a, ha⟩ := proper_denote hv
        obtain ⟨e1, e2⟩ := C03_positive hv ha
        have : (if 0 < a then Except.ok y else .error PyErr.valueError) = .ok x := by
          rcases hx with hx | hx
          · rw [← e1]; exact hx
          · rw [← e2]; exact hx
        split_ifs at this with hc
        cases this
        exact ⟨a, ha, hc⟩
      | seq xs => rcases hx with hx | hx <;> cases hx
      | other => rcases hx with hx | hx <;> cases hx
    cases o with
    | interval =>
      cases hr : setInterval fl v with
      | error e => simp only [setOption, storeWith, hr]; exact hσ
      | ok x =>
        simp only [setOption, storeWith, hr]
        refine { hσ with interval := ?_ }
        cases v with
        | num y => cases hr
        | other => cases hr
        | seq xs =>
          match xs, hr, hv with
          | [s, t], hr, hv =>
            have hs : Proper fl s := hv s (by simp)
            have ht : Proper fl t := hv t (by simp)
            obtain ⟨a, ha⟩ := proper_denote hs
            obtain ⟨b, hb⟩ := proper_denote ht
            rw [C03_interval hs ht ha hb] at hr
            split_ifs at hr with hc
            cases hr
            exact ⟨a, b, ha, hb, hc⟩
          | [], hr, _ => cases hr
          | [_], hr, _ => cases hr
          | _ :: _ :: _ :: _, hr, _ => cases hr
    | mach =>
      cases hr : setMach fl v with
      | error e => simp only [setOption, storeWith, hr]; exact hσ
      | ok x =>
        simp only [setOption, storeWith, hr]
        refine { hσ with mach := ?_ }
        cases v with
        | num y =>
          obtain ⟨a, ha⟩ := proper_denote hv
          rw [C03_mach hv ha] at hr
          split_ifs at hr with hc
          cases hr
          exact ⟨a, ha, hc⟩
        | seq xs => cases hr
        | other => cases hr
    | reynolds =>
      cases hr : setPositive fl v with
      | error e => simp only [setOption, storeWith, hr]; exact hσ
      | ok x => simp only [setOption, storeWith, hr]; exact { hσ with reynolds := pos x (.inl hr) }
    | prandtl =>
      cases hr : setPositive fl v with
      | error e => simp only [setOption, storeWith, hr]; exact hσ
      | ok x => simp only [setOption, storeWith, hr]; exact { hσ with prandtl := pos x (.inl hr) }
    | criterion =>
      cases hr : setCriterion fl v with
      | error e => simp only [setOption, storeWith, hr]; exact hσ
      | ok x => simp only [setOption, storeWith, hr]; exact { hσ with criterion := pos x (.inr hr) }
    | vtkRate =>
      cases hr : setRate v with
      | error e => simp only [setOption, storeWith, hr]; exact hσ
      | ok x => simp only [setOption, storeWith, hr]; exact { hσ with vtkRate := rate x hr }
    | gfuRate =>
      cases hr : setRate v with
      | error e => simp only [setOption, storeWith, hr]; exact hσ
      | ok x => simp only [setOption, storeWith, hr]; exact { hσ with gfuRate := rate x hr }
    | levelRate =>
      cases hr : setRate v with
      | error e => simp only [setOption, storeWith, hr]; exact hσ
      | ok x => simp only [setOption, storeWith, hr]; exact { hσ with levelRate := rate x hr }
    | sensorRate =>
      cases hr : setRate v with
      | error e => simp only [setOption, storeWith, hr]; exact hσ
      | ok x => simp only [setOption, storeWith, hr]; exact { hσ with sensorRate := rate x hr }

/-- **C03** The defaults satisfy the constraints. -/
theorem C03_init : ValidOptions .init where
  interval := ⟨_, _, rfl, rfl, le_refl _, WithBot.coe_lt_coe.2 (WithTop.coe_lt_coe.2 (by norm_num))⟩
  mach := ⟨_, rfl, WithBot.coe_le_coe.2 (WithTop.coe_le_coe.2 (by norm_num))⟩
  reynolds := ⟨_, rfl, WithBot.coe_lt_coe.2 (WithTop.coe_lt_coe.2 (by norm_num))⟩
  prandtl := ⟨_, rfl, WithBot.coe_lt_coe.2 (WithTop.coe_lt_coe.2 (by norm_num))⟩
  criterion := ⟨_, rfl, WithBot.coe_lt_coe.2 (WithTop.coe_lt_coe.2 (by norm_num))⟩
  vtkRate := by decide
  gfuRate := by decide
  levelRate := by decide
  sensorRate := by decide

/-- **C03 fails**: `nan` passes every check on numbers, and the interval check. -/
theorem C03_fails_nan (fl : Rounding) (σ : Options) :
    (∀ o ∈ [OptName.mach, .reynolds, .prandtl, .criterion],
      (setOption fl o (.num .nan) σ).1 = .ok () ∧ ¬ ValidOptions (setOption fl o (.num .nan) σ).2) ∧
    (setOption fl .interval (.seq [.nan, .nan]) σ).1 = .ok () ∧
    ¬ ValidOptions (setOption fl .interval (.seq [.nan, .nan]) σ).2 := by
  have nn : ∀ P, ¬ Is P .nan := by rintro P ⟨e, h, _⟩; cases h
  refine ⟨?_, rfl, ?_⟩
  · intro o ho
    simp only [List.mem_cons, List.not_mem_nil, or_false] at ho
    rcases ho with rfl | rfl | rfl | rfl
    · exact ⟨rfl, fun h => nn _ h.mach⟩
    · exact ⟨rfl, fun h => nn _ h.reynolds⟩
    · exact ⟨rfl, fun h => nn _ h.prandtl⟩
    · exact ⟨rfl, fun h => nn _ h.criterion⟩
  · intro h
    obtain ⟨a, b, ha, _⟩ := h.interval
    cases ha

/-- **C03 fails**: the interval is checked before it is converted to floats, so two exact
numbers with the same float (such as 2^53 and 2^53 + 1) give an empty interval; likewise a positive exact
number whose float is zero (such as 10^-400) is accepted as criterion. -/
theorem C03_fails_rounding (fl : Rounding) (σ : Options) {p q r s : ℚ} (hp : 0 ≤ p) (hpq : p < q)
    (h1 : fl p = some r) (h2 : fl q = some r) (hs : 0 < s) (h3 : fl s = some 0) :
    (setOption fl .interval (.seq [.fin p, .fin q]) σ).1 = .ok () ∧
    ¬ ValidOptions (setOption fl .interval (.seq [.fin p, .fin q]) σ).2 ∧
    (setOption fl .criterion (.num (.fin s)) σ).1 = .ok () ∧
    ¬ ValidOptions (setOption fl .criterion (.num (.fin s)) σ).2 := by
  have e : setInterval fl (.seq [.fin p, .fin q]) = .ok (.fin r, .fin r) := by
    simp [setInterval, PyNum.lt, PyNum.le, not_lt.2 hp, not_lt.2 (hp.trans hpq.le), hpq, bind,
      Except.bind, pure, Except.pure, PyNum.toFloat, h1, h2]
  have e' : setCriterion fl (.num (.fin s)) = .ok (.fin 0) := by
    simp [setCriterion, PyVal.number, PyNum.lt, PyNum.le, hs, bind, Except.bind, pure,
      Except.pure, PyNum.toFloat, h3]
  simp only [setOption, e, e', storeWith, true_and]
  refine ⟨fun h => ?_, fun h => ?_⟩
  · obtain ⟨a, b, ha, hb, _, hab⟩ := h.interval
    rw [ha] at hb
    cases hb
    exact lt_irrefl _ hab
  · obtain ⟨a, ha, h0⟩ := h.criterion
    cases ha
    exact lt_irrefl _ h0

/-- Non-vacuity: with exact conversion a history with accepted and refused values. -/
example : ∃ (fl : Rounding) (h : List (OptName × PyVal)), (∀ e ∈ h, ProperVal fl e.2) ∧
    (setAll fl h .init).mach = .fin 2 ∧ (setAll fl h .init).vtkRate = 3 := by
  refine ⟨some, [(.mach, .num (.fin 2)), (.mach, .num (.fin (-1))), (.vtkRate, .num (.fin (7/2))),
    (.vtkRate, .num (.fin (1/2))), (.interval, .seq [.fin 0, .inf false])], ?_, ?_, ?_⟩
  · simp [ProperVal, Proper]
  · decide +kernel
  · decide +kernel

end Dream
