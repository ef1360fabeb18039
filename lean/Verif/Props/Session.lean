import Verif.Model.Session
import Verif.Props.Timer
import Verif.Props.Transient
import Verif.Props.Replay

/-!
# C81: runs can be split and restarted
-/

set_option linter.unusedSectionVars false

noncomputable section

namespace Dream

variable {ι X Y : Type}

/-! ## The times of consecutive intervals -/

/-- Time and label of `n` steps `h` from `t0`. -/
def stepTimes (t0 h : ℚ) (digit n : ℕ) : List (ℚ × ℚ) :=
  (List.range n).map fun k : ℕ =>
    (t0 + ((k : ℚ) + 1) * h, pyRoundDigits (t0 + ((k : ℚ) + 1) * h) digit)

theorem stepTimes_add (t0 h : ℚ) (digit n m : ℕ) :
    stepTimes t0 h digit (n + m) = stepTimes t0 h digit n ++ stepTimes (t0 + n * h) h digit m := by
  unfold stepTimes
  rw [List.range_add, List.map_append, List.map_map]
  congr 1
  apply List.map_congr_left
  intro k _
  have : t0 + (((n + k : ℕ) : ℚ) + 1) * h = t0 + n * h + ((k : ℚ) + 1) * h := by push_cast; ring
  simp only [Function.comp_apply, this]

theorem stepTimes_length (t0 h : ℚ) (digit n : ℕ) : (stepTimes t0 h digit n).length = n := by
  simp [stepTimes]

theorem stepTimes_getLast (t0 h : ℚ) (digit n : ℕ) :
    (stepTimes t0 h digit (n + 1)).getLast?
      = some (t0 + ((n : ℚ) + 1) * h, pyRoundDigits (t0 + ((n : ℚ) + 1) * h) digit) := by
  simp [stepTimes, List.range_succ]

theorem run_stepTimes (tm : Timer) (n : ℕ) (hh : 0 < tm.step)
    (hstop : tm.stop = tm.start + n * tm.step) :
    tm.run false 1 = .ok (stepTimes tm.start tm.step tm.digit n) := by
  have h1 : ((1 : ℕ) : ℚ) * tm.step ≠ 0 := by simpa using hh.ne'
  rw [Timer.run_eq tm false 1 h1]
  have hq : (tm.stop - tm.start) / (((1 : ℕ) : ℚ) * tm.step) = n := by
    rw [hstop]; field_simp; ring
  rw [hq, pyRound_natCast]
  have : ((n : ℤ) + 1 - ((1 - false.toNat : ℕ) : ℤ)).toNat = n := by simp
  rw [this]
  unfold stepTimes
  congr 1
  apply List.map_congr_left
  intro k _
  have : tm.start + ((1 : ℕ) : ℚ) * ((1 - false.toNat + k : ℕ) : ℚ) * tm.step
      = tm.start + ((k : ℚ) + 1) * tm.step := by
    simp [add_comm]
  rw [this]

section
variable [AddCommGroup X] [Module ℝ X] [AddCommGroup Y]

/-! ## Splitting -/

/-- The time loop without its files. -/
def Script.core (c : Script ι X Y) (dt : ℝ) : List (ℚ × ℚ) → RunState ι X →
    Except PyErr (List (ℚ × X) × RunState ι X)
  | [], st => .ok ([], st)
  | (t, label) :: ts, st => do
    let st ← transientRound c.P c.s dt c.N st t
    let (ys, last) ← Script.core c dt ts st
    .ok ((label, st.x) :: ys, last)

theorem loop_core (c : Script ι X Y) (dt : ℝ) (it : ℕ) (ts : List (ℚ × ℚ)) (st : RunState ι X) :
    (c.loop dt it ts st).map (fun r => (r.1, r.2.2)) = c.core dt ts st := by
  induction ts generalizing it st with
  | nil => rfl
  | cons a ts ih =>
    obtain ⟨t, label⟩ := a
    simp only [Script.loop, Script.core]
    cases transientRound c.P c.s dt c.N st t with
    | error e => rfl
    | ok st1 =>
      have := ih (it + 1) st1
      show ((c.loop dt (it + 1) ts st1).bind _).map _ = (c.core dt ts st1).bind _
      rw [← this]
      cases c.loop dt (it + 1) ts st1 <;> rfl

theorem core_append (c : Script ι X Y) (dt : ℝ) (ts us : List (ℚ × ℚ)) (st : RunState ι X) :
    c.core dt (ts ++ us) st = (c.core dt ts st).bind fun r =>
      (c.core dt us r.2).map fun q => (r.1 ++ q.1, q.2) := by
  induction ts generalizing st with
  | nil =>
    show _ = (c.core dt us st).map _
    rw [List.nil_append]
    cases c.core dt us st <;> rfl
  | cons a ts ih =>
    obtain ⟨t, label⟩ := a
    simp only [List.cons_append, Script.core]
    cases transientRound c.P c.s dt c.N st t with
    | error e => rfl
    | ok st1 =>
      show (c.core dt (ts ++ us) st1).bind _ = ((c.core dt ts st1).bind _).bind _
      rw [ih]
      cases c.core dt ts st1 with
      | error e => rfl
      | ok r =>
        show ((c.core dt us r.2).map _).bind _ = (c.core dt us r.2).map _
        cases c.core dt us r.2 <;> rfl

/-- What a user sees of a script: everything it yields, the unknowns and time levels it ends with,
and the value of the time parameter. -/
def Session.seen (r : List (ℚ × X) × Session ι X) : List (ℚ × X) × RunState ι X × ℚ :=
  (r.1, r.2.run, r.2.timer.t)

theorem solve_seen (c : Script ι X Y) (S : Session ι X) (n : ℕ) (hn : 1 ≤ n)
    (hh : 0 < S.timer.step) (hstop : S.timer.stop = S.timer.start + n * S.timer.step) :
    (S.solve c).map Session.seen
      = (c.core S.timer.step (stepTimes S.timer.start S.timer.step S.timer.digit n) S.run).map
          fun r => (r.1, r.2, S.timer.stop) := by
  obtain ⟨m, rfl⟩ : ∃ m, n = m + 1 := ⟨n - 1, by omega⟩
  simp only [Session.solve, run_stepTimes S.timer _ hh hstop]
  rw [← loop_core c _ 0]
  show ((c.loop _ 0 _ _).bind _).map _ = _
  cases c.loop (S.timer.step : ℝ) 0 (stepTimes S.timer.start S.timer.step S.timer.digit (m + 1))
      S.run with
  | error e => rfl
  | ok r =>
    simp only [Except.bind, Except.map, stepTimes_getLast]
    rw [hstop]
    simp [Session.seen]

/-- The statements that run the timer over consecutive intervals of `n₁, n₂, …` steps. -/
def pieces (t0 h : ℚ) : List ℕ → List Stmt
  | [] => []
  | n :: ns => .interval t0 (t0 + n * h) :: .solve :: pieces (t0 + n * h) h ns

theorem setInterval_ok (tm : Timer) (s e : ℚ) (h0 : 0 ≤ s) (h1 : s < e) :
    tm.setInterval s e = .ok { tm with start := s, stop := e } := by
  unfold Timer.setInterval
  rw [if_neg (by push Not; exact ⟨h0, by linarith⟩), if_neg (not_le.2 h1)]

theorem solve_timer (c : Script ι X Y) (S S' : Session ι X) (ys : List (ℚ × X))
    (h : S.solve c = .ok (ys, S')) : S'.timer = { S.timer with t := S'.timer.t } := by
  simp only [Session.solve] at h
  cases h1 : S.timer.run false 1 with
  | error e => rw [h1] at h; cases h
  | ok ts =>
    rw [h1] at h
    change (c.loop (S.timer.step : ℝ) 0 ts S.run).bind _ = _ at h
    cases h2 : c.loop (S.timer.step : ℝ) 0 ts S.run with
    | error e => rw [h2] at h; cases h
    | ok r =>
      rw [h2] at h
      simp only [Except.bind] at h
      cases h3 : ts.getLast? with
      | none => rw [h3] at h; cases h
      | some tl =>
        rw [h3] at h
        have := (Prod.mk.inj (Except.ok.inj h)).2
        rw [← this]

theorem script_pieces (c : Script ι X Y) (h : ℚ) (d : ℕ) (hh : 0 < h) (ns : List ℕ)
    (hns : ∀ n ∈ ns, 1 ≤ n) (t0 : ℚ) (ht0 : 0 ≤ t0) (S : Session ι X) (hS : S.timer.step = h)
    (hd : S.timer.digit = d) :
    (Session.script c (pieces t0 h ns) S).map Session.seen
      = (c.core h (stepTimes t0 h d ns.sum) S.run).map fun r =>
          (r.1, r.2, if ns = [] then S.timer.t else t0 + ns.sum * h) := by
  induction ns generalizing t0 S with
  | nil => rfl
  | cons n ns ih =>
    have hn : 1 ≤ n := hns n (by simp)
    have hnq : (1 : ℚ) ≤ n := by exact_mod_cast hn
    have hpos : t0 < t0 + n * h := by nlinarith
    simp only [pieces, Session.script, Session.exec, setInterval_ok S.timer t0 _ ht0 hpos]
    set S1 : Session ι X := { S with timer := { S.timer with start := t0, stop := t0 + n * h } }
      with hS1
    have hsolve := solve_seen c S1 n hn (by rw [hS1]; simpa [hS] using hh) (by simp [hS1, hS])
    have e1 : S1.timer.step = h := hS
    have e2 : S1.timer.digit = d := hd
    have e3 : S1.timer.start = t0 := rfl
    have e4 : S1.run = S.run := rfl
    have e5 : S1.timer.stop = t0 + n * h := rfl
    rw [e1, e2, e3, e4, e5] at hsolve
    rw [List.sum_cons, stepTimes_add, core_append]
    show Except.map Session.seen (Except.bind (Except.bind (S1.solve c) _) _) = _
    cases h1 : c.core h (stepTimes t0 h d n) S.run with
    | error e =>
      rw [h1] at hsolve
      cases h2 : S1.solve c with
      | error e' =>
        rw [h2] at hsolve
        have : e' = e := by simpa [Except.map] using hsolve
        rw [this]; rfl
      | ok r => rw [h2] at hsolve; simp [Except.map] at hsolve
    | ok q =>
      rw [h1] at hsolve
      cases h2 : S1.solve c with
      | error e' => rw [h2] at hsolve; simp [Except.map] at hsolve
      | ok r =>
        rw [h2] at hsolve
        obtain ⟨ys, S2⟩ := r
        have hseen : (ys, S2.run, S2.timer.t) = (q.1, q.2, t0 + n * h) := by
          simpa [Except.map, Session.seen] using hsolve
        have htm := solve_timer c S1 S2 ys h2
        have ih' := ih (fun m hm => hns m (by simp [hm])) (t0 + n * h) (by linarith) S2
          (by rw [htm]; exact e1) (by rw [htm]; exact e2)
        have hr : S2.run = q.2 := by injection hseen with a b; injection b
        have hy : ys = q.1 := by injection hseen
        have htt : S2.timer.t = t0 + n * h := by injection hseen with a b; injection b
        rw [hr, htt] at ih'
        simp only [Except.bind]
        show Except.map Session.seen (Except.bind (Except.bind (Session.script c _ S2) _) _) = _
        cases h3 : c.core h (stepTimes (t0 + n * h) h d ns.sum) q.2 with
        | error e =>
          rw [h3] at ih'
          cases h4 : Session.script c (pieces (t0 + n * h) h ns) S2 with
          | error e' =>
            rw [h4] at ih'
            have : e' = e := by simpa [Except.map] using ih'
            rw [this]; rfl
          | ok r => rw [h4] at ih'; simp [Except.map] at ih'
        | ok q' =>
          rw [h3] at ih'
          cases h4 : Session.script c (pieces (t0 + n * h) h ns) S2 with
          | error e' => rw [h4] at ih'; simp [Except.map] at ih'
          | ok r =>
            rw [h4] at ih'
            obtain ⟨zs, S3⟩ := r
            have h5 : (zs, S3.run, S3.timer.t)
                = (q'.1, q'.2, if ns = [] then t0 + n * h else t0 + n * h + ns.sum * h) := by
              simpa [Except.map, Session.seen] using ih'
            injection h5 with h6 h7
            injection h7 with h7 h8
            simp only [Except.bind, Except.map, Session.seen, List.nil_append, hy, h6, h7, h8]
            congr 3
            by_cases hnil : ns = []
            · subst hnil; simp
            · rw [if_neg hnil, if_neg (by simp)]; push_cast; ring

/-- **C81** Splitting a run. Whatever solver, whatever state a script has reached (time levels
included): solving over consecutive intervals of `n₁, n₂, …` steps, the end of one being the start
of the next, yields the same labels and the same states, leaves the same unknowns, time levels and
time behind, and raises the same exceptions as solving over the whole interval at once. -/
theorem C81_split (c : Script ι X Y) (S : Session ι X) (t0 : ℚ) (ns : List ℕ) (hne : ns ≠ [])
    (hns : ∀ n ∈ ns, 1 ≤ n) (ht0 : 0 ≤ t0) (hh : 0 < S.timer.step) :
    (Session.script c (pieces t0 S.timer.step ns) S).map Session.seen
      = (Session.script c [.interval t0 (t0 + ns.sum * S.timer.step), .solve] S).map
          Session.seen := by
  have hsum : 1 ≤ ns.sum := by
    obtain ⟨n, rest, rfl⟩ := List.exists_cons_of_ne_nil hne
    have := hns n (by simp)
    rw [List.sum_cons]; omega
  have h1 := script_pieces c S.timer.step S.timer.digit hh ns hns t0 ht0 S rfl rfl
  have h2 := script_pieces c S.timer.step S.timer.digit hh [ns.sum] (by simpa using hsum) t0 ht0 S
    rfl rfl
  simp only [List.sum_cons, List.sum_nil, add_zero, if_neg hne, if_neg (List.cons_ne_nil _ _),
    pieces] at h1 h2
  rw [h1, h2]

/-! ## Restarting -/

/-- The state after a step: unknowns `cur`, time levels of `prev` and `cur`. -/
def Script.at (c : Script ι X Y) (prev cur : X) : RunState ι X :=
  ⟨cur, c.s.levelsOf (c.P.comp prev) (c.P.comp cur)⟩

/-- The states after each of the steps `ts`, with their labels. -/
def Script.path (c : Script ι X Y) (dt : ℝ) (prev cur : X) :
    List (ℚ × ℚ) → List (ℚ × RunState ι X)
  | [] => []
  | (t, label) :: ts =>
    (label, c.at cur (c.N.solve (c.P.stepEquation (c.s.quotient dt) t cur prev) cur).u) ::
      Script.path c dt cur (c.N.solve (c.P.stepEquation (c.s.quotient dt) t cur prev) cur).u ts

theorem path_labels (c : Script ι X Y) (dt : ℝ) (prev cur : X) (ts : List (ℚ × ℚ)) :
    (c.path dt prev cur ts).map Prod.fst = ts.map Prod.snd := by
  induction ts generalizing prev cur with
  | nil => rfl
  | cons a ts ih => simp [Script.path, ih]

theorem path_length (c : Script ι X Y) (dt : ℝ) (prev cur : X) (ts : List (ℚ × ℚ)) :
    (c.path dt prev cur ts).length = ts.length := by
  have := congrArg List.length (path_labels c dt prev cur ts)
  simpa using this

theorem path_drop (c : Script ι X Y) (dt : ℝ) (prev cur : X) (ts : List (ℚ × ℚ)) (i : ℕ)
    (hi : i < ts.length) :
    ∃ p q, (c.path dt prev cur ts)[i]? = some (ts[i].2, c.at p q) ∧
      (c.path dt prev cur ts).drop (i + 1) = c.path dt p q (ts.drop (i + 1)) := by
  induction ts generalizing prev cur i with
  | nil => simp at hi
  | cons a ts ih =>
    cases i with
    | zero => exact ⟨_, _, rfl, rfl⟩
    | succ i =>
      obtain ⟨p, q, h1, h2⟩ := ih cur
        (c.N.solve (c.P.stepEquation (c.s.quotient dt) a.1 cur prev) cur).u i (by simpa using hi)
      exact ⟨p, q, by simpa [Script.path] using h1, by simpa [Script.path] using h2⟩

theorem loop_path (c : Script ι X Y) (dt : ℝ) (it : ℕ) (ts : List (ℚ × ℚ)) (prev cur : X) :
    c.loop dt it ts (c.at prev cur) = .ok
      ((c.path dt prev cur ts).map fun p => (p.1, p.2.x),
       ((c.path dt prev cur ts).zipIdx it).flatMap fun p => c.save p.1.2 p.1.1 p.2,
       (((c.path dt prev cur ts).map Prod.snd).getLast?).getD (c.at prev cur)) := by
  induction ts generalizing it prev cur with
  | nil => rfl
  | cons a ts ih =>
    obtain ⟨t, label⟩ := a
    have hround := round_levelsOf c.P c.s dt c.N t prev cur
    simp only [Script.loop]
    unfold Script.at at *
    rw [hround]
    have := ih (it + 1) cur (c.N.solve (c.P.stepEquation (c.s.quotient dt) t cur prev) cur).u
    show Except.bind (c.loop dt (it + 1) ts _) _ = _
    rw [this]
    simp only [Except.bind, Script.path, List.map_cons, List.zipIdx_cons, List.flatMap_cons,
      Script.at]
    congr 3
    cases c.path dt cur (c.N.solve (c.P.stepEquation (c.s.quotient dt) t cur prev) cur).u ts with
    | nil => rfl
    | cons b l => simp [List.getLast?_cons_cons, List.getLast?_cons]

/-- A completed run from a state that follows a step. -/
theorem solve_path (c : Script ι X Y) (tm : Timer) (files : Dict GFile (X ⊕ (ι → ℝ)))
    (prev cur : X) (n : ℕ) (hh : 0 < tm.step) (hstop : tm.stop = tm.start + (n + 1 : ℕ) * tm.step) :
    ∃ last, (c.path tm.step prev cur (stepTimes tm.start tm.step tm.digit (n + 1))).getLast?
        = some last ∧
      Session.solve c ⟨tm, c.at prev cur, files⟩ = .ok
        ((c.path tm.step prev cur (stepTimes tm.start tm.step tm.digit (n + 1))).map
            fun p => (p.1, p.2.x),
          ⟨{ tm with t := tm.stop }, last.2,
            (c.save (c.at prev cur) tm.t 0 ++
              (((c.path tm.step prev cur
                (stepTimes tm.start tm.step tm.digit (n + 1))).zipIdx).flatMap
                  fun p => c.save p.1.2 p.1.1 p.2) ++
              c.savePost last.2 last.1 n).foldl (fun d w => d.set w.1 w.2) files⟩) := by
  set ts := stepTimes tm.start tm.step tm.digit (n + 1) with hts
  have hlen : (c.path tm.step prev cur ts).length = n + 1 := by
    rw [path_length, hts, stepTimes_length]
  cases hl : (c.path tm.step prev cur ts).getLast? with
  | none =>
    rw [List.getLast?_eq_none_iff] at hl
    rw [hl] at hlen
    simp at hlen
  | some last =>
    refine ⟨last, rfl, ?_⟩
    have hlab : some last.1 = (ts.map Prod.snd).getLast? := by
      rw [← path_labels c tm.step prev cur ts, List.getLast?_map, hl]
      rfl
    rw [List.getLast?_map, hts, stepTimes_getLast] at hlab
    simp only [Option.map_some, Option.some.injEq] at hlab
    simp only [Session.solve, run_stepTimes tm _ hh hstop]
    show Except.bind (c.loop _ 0 ts _) _ = _
    rw [loop_path]
    simp only [Except.bind, hts, stepTimes_getLast, stepTimes_length]
    rw [← hts, List.getLast?_map, hl, ← hlab]
    simp only [Option.map_some, Option.getD_some, Nat.add_sub_cancel]
    rw [hstop]
    push_cast
    rfl

theorem save_state_mem (c : Script ι X Y) (rate tlRate : ℕ) (hc : c.stream = some (rate, tlRate))
    (st : RunState ι X) (t L : ℚ) (it : ℕ) (v : X ⊕ (ι → ℝ)) :
    (GFile.state (some L), v) ∈ c.save st t it ↔ L = t ∧ it % rate = 0 ∧ v = .inl st.x := by
  simp only [Script.save, hc]
  exact mem_gfuSave_state ..

theorem save_level_mem (c : Script ι X Y) (rate tlRate : ℕ) (hc : c.stream = some (rate, tlRate))
    (st : RunState ι X) (t L : ℚ) (it : ℕ) (f l : String) (v : X ⊕ (ι → ℝ)) :
    (GFile.level L f l, v) ∈ c.save st t it ↔ L = t ∧ it % tlRate = 0 ∧
      (f, l) ∈ st.levels.map (fun kv => (c.fes, kv.1)) ∧
      v = .inr ((st.levels.get? l).getD fun _ => 0) := by
  simp only [Script.save, hc]
  exact mem_gfuSave_level ..

theorem savePost_sub (c : Script ι X Y) (st : RunState ι X) (t : ℚ) (it : ℕ)
    (w : GFile × (X ⊕ (ι → ℝ))) (h : w ∈ c.savePost st t it) : w ∈ c.save st t 0 := by
  unfold Script.savePost at h
  cases hc : c.stream with
  | none => rw [hc] at h; simp at h
  | some r =>
    rw [hc] at h
    simp only at h
    split at h
    · exact h
    · simp at h

theorem path_inj (c : Script ι X Y) (dt : ℝ) (prev cur : X) (ts : List (ℚ × ℚ))
    (hnd : (ts.map Prod.snd).Nodup) (i j : ℕ) (a b : ℚ × RunState ι X)
    (ha : (c.path dt prev cur ts)[i]? = some a) (hb : (c.path dt prev cur ts)[j]? = some b)
    (hab : a.1 = b.1) : i = j := by
  rw [← path_labels c dt prev cur] at hnd
  have h1 : ((c.path dt prev cur ts).map Prod.fst)[i]? = some a.1 := by simp [ha]
  have h2 : ((c.path dt prev cur ts).map Prod.fst)[j]? = some a.1 := by simp [hb, hab]
  obtain ⟨hi, e1⟩ := List.getElem?_eq_some_iff.1 h1
  obtain ⟨hj, e2⟩ := List.getElem?_eq_some_iff.1 h2
  exact (List.Nodup.getElem_inj_iff hnd).1 (e1.trans e2.symm)

/-- What the files hold that were written at a step which is not the last. -/
theorem files_step (c : Script ι X Y) (dt : ℝ) (prev cur : X) (ts : List (ℚ × ℚ))
    (hnd : (ts.map Prod.snd).Nodup) (pre : List (GFile × (X ⊕ (ι → ℝ)))) (n : ℕ)
    (last a : ℚ × RunState ι X) (files : Dict GFile (X ⊕ (ι → ℝ))) (k : GFile)
    (v : X ⊕ (ι → ℝ)) (i : ℕ) (hi : i + 1 < ts.length)
    (hl : (c.path dt prev cur ts).getLast? = some last)
    (ha : (c.path dt prev cur ts)[i]? = some a)
    (hk : ∀ st t it w, (k, w) ∈ c.save st t it → t = a.1)
    (hv : ∀ t it w, (k, w) ∈ c.save a.2 t it → w = v)
    (hmem : (k, v) ∈ c.save a.2 a.1 i) :
    Dict.get? ((pre ++ (((c.path dt prev cur ts).zipIdx).flatMap
      fun p => c.save p.1.2 p.1.1 p.2) ++ c.savePost last.2 last.1 n).foldl
        (fun d w => d.set w.1 w.2) files) k = some v := by
  rw [List.append_assoc, List.foldl_append]
  have hlast : (c.path dt prev cur ts)[ts.length - 1]? = some last := by
    rw [List.getLast?_eq_getElem?, path_length] at hl
    exact hl
  apply foldl_set_some
  · apply List.mem_append_left
    rw [List.mem_flatMap]
    exact ⟨(a, i), by rw [List.mem_zipIdx_iff_getElem?]; exact ha, hmem⟩
  · intro w hw
    rcases List.mem_append.1 hw with hw | hw
    · rw [List.mem_flatMap] at hw
      obtain ⟨⟨b, j⟩, hb, hw⟩ := hw
      rw [List.mem_zipIdx_iff_getElem?] at hb
      have e : i = j := path_inj c dt prev cur ts hnd i j a b ha hb (hk _ _ _ _ hw).symm
      subst e
      have : a = b := Option.some.inj (ha.symm.trans hb)
      subst this
      exact hv _ _ _ hw
    · have e := hk _ _ _ _ (savePost_sub c _ _ _ _ hw)
      have := path_inj c dt prev cur ts hnd i _ a last ha hlast e.symm
      omega

theorem loadLevels_at (c : Script ι X Y) (files : Dict GFile (X ⊕ (ι → ℝ))) (L : ℚ)
    (a b p q r : ι → ℝ) (x : X)
    (hf : ∀ l ∈ c.s.levelNames,
      files.get? (.level L c.fes l) = some (.inr (((c.s.levelsOf a b).get? l).getD fun _ => 0))) :
    Session.loadLevelsLoop c files L (((c.s.levelsOf p q).set "n+1" r).map Prod.fst)
        ⟨x, (c.s.levelsOf p q).set "n+1" r⟩
      = .ok ⟨c.put b x, c.s.levelsOf a b⟩ := by
  cases hs : c.s with
  | implicitEuler =>
    rw [hs] at hf
    have h1 := hf "n" (by decide)
    have h2 := hf "n+1" (by decide)
    have e1 : ((Scheme.implicitEuler.levelsOf a b).get? "n").getD (fun _ => 0) = b := rfl
    have e2 : ((Scheme.implicitEuler.levelsOf a b).get? "n+1").getD (fun _ => 0) = b := rfl
    rw [e1] at h1
    rw [e2] at h2
    have hkeys : ((Scheme.implicitEuler.levelsOf p q).set "n+1" r).map Prod.fst = ["n", "n+1"] :=
      rfl
    rw [hkeys]
    simp only [Session.loadLevelsLoop, h1, h2]
    rw [if_pos trivial, if_neg (by decide : ¬ "n" = "n+1")]
    rfl
  | bdf2 =>
    rw [hs] at hf
    have h0 := hf "n-1" (by decide)
    have h1 := hf "n" (by decide)
    have h2 := hf "n+1" (by decide)
    have e0 : ((Scheme.bdf2.levelsOf a b).get? "n-1").getD (fun _ => 0) = a := rfl
    have e1 : ((Scheme.bdf2.levelsOf a b).get? "n").getD (fun _ => 0) = b := rfl
    have e2 : ((Scheme.bdf2.levelsOf a b).get? "n+1").getD (fun _ => 0) = b := rfl
    rw [e0] at h0
    rw [e1] at h1
    rw [e2] at h2
    have hkeys : ((Scheme.bdf2.levelsOf p q).set "n+1" r).map Prod.fst = ["n-1", "n", "n+1"] :=
      rfl
    rw [hkeys]
    simp only [Session.loadLevelsLoop, h0, h1, h2]
    rw [if_pos trivial, if_neg (by decide : ¬ "n" = "n+1"),
      if_neg (by decide : ¬ "n-1" = "n+1")]
    rfl

/-- The statements of a new run of `n` steps. -/
def freshRun (t0 h : ℚ) (n : ℕ) : List Stmt :=
  [.step h, .interval t0 (t0 + n * h), .solve]

theorem start_at (c : Script ι X Y) (x0 : X) (files : Dict GFile (X ⊕ (ι → ℝ))) :
    c.start x0 files = .ok ⟨Timer.default, c.at x0 x0, files⟩ := by
  simp only [Script.start, init_levelsOf]
  rfl

/-- The timer of a new process after its step and interval are set. -/
def newTimer (t0 t1 h : ℚ) : Timer :=
  { start := t0, stop := t1, step := h, digit := setDigit h, t := 0 }

theorem configured (t0 t1 h : ℚ) (h0 : 0 ≤ t0) (h1 : t0 < t1) :
    (Timer.default.setStep h).setInterval t0 t1 = .ok (newTimer t0 t1 h) := by
  rw [setInterval_ok _ _ _ h0 h1]
  rfl

theorem script_cons (c : Script ι X Y) (a : Stmt) (as : List Stmt) (S S1 S2 : Session ι X)
    (ys zs : List (ℚ × X)) (h1 : S.exec c a = .ok (ys, S1))
    (h2 : Session.script c as S1 = .ok (zs, S2)) :
    Session.script c (a :: as) S = .ok (ys ++ zs, S2) := by
  simp only [Session.script, h1]
  show Except.bind (Session.script c as S1) _ = _
  rw [h2]
  rfl

theorem script_silent (c : Script ι X Y) (a : Stmt) (as : List Stmt) (S S1 : Session ι X)
    (h1 : S.exec c a = .ok ([], S1)) :
    Session.script c (a :: as) S = Session.script c as S1 := by
  simp only [Session.script, h1]
  show Except.bind (Session.script c as S1) _ = _
  cases Session.script c as S1 <;> rfl

theorem script_solve (c : Script ι X Y) (S S1 : Session ι X) (ys : List (ℚ × X))
    (h : S.solve c = .ok (ys, S1)) : Session.script c [.solve] S = .ok (ys, S1) := by
  have := script_cons c .solve [] S S1 S1 ys [] h rfl
  rwa [List.append_nil] at this

/-- Setting up the timer of a new process. -/
theorem script_setup (c : Script ι X Y) (t0 t1 h : ℚ) (h0 : 0 ≤ t0) (h1 : t0 < t1)
    (as : List Stmt) (st : RunState ι X) (files : Dict GFile (X ⊕ (ι → ℝ)))
    (r : List (ℚ × X) × Session ι X)
    (hr : Session.script c as ⟨newTimer t0 t1 h, st, files⟩ = .ok r) :
    Session.script c (.step h :: .interval t0 t1 :: as) ⟨Timer.default, st, files⟩ = .ok r := by
  have e1 : Session.exec c ⟨Timer.default.setStep h, st, files⟩ (.interval t0 t1)
      = .ok (([] : List (ℚ × X)), ⟨newTimer t0 t1 h, st, files⟩) := by
    simp only [Session.exec]
    rw [configured t0 t1 h h0 h1]
    rfl
  exact script_cons c (.step h) _ ⟨Timer.default, st, files⟩ ⟨Timer.default.setStep h, st, files⟩
    r.2 [] r.1 rfl (script_cons c _ as _ _ r.2 [] r.1 e1 hr)

theorem script_setup_eq (c : Script ι X Y) (t0 t1 h : ℚ) (h0 : 0 ≤ t0) (h1 : t0 < t1)
    (as : List Stmt) (st : RunState ι X) (files : Dict GFile (X ⊕ (ι → ℝ))) :
    Session.script c (.step h :: .interval t0 t1 :: as) ⟨Timer.default, st, files⟩
      = Session.script c as ⟨newTimer t0 t1 h, st, files⟩ := by
  refine (script_silent c (.step h) _ _ ⟨Timer.default.setStep h, st, files⟩ rfl).trans
    (script_silent c _ as _ _ ?_)
  simp only [Session.exec]
  rw [configured t0 t1 h h0 h1]
  rfl

theorem script_solve_eq (c : Script ι X Y) (S : Session ι X) :
    Session.script c [.solve] S = S.solve c := by
  cases h1 : S.solve c with
  | error e =>
    simp only [Session.script, Session.exec, h1]
    rfl
  | ok r => exact script_solve c S r.2 r.1 h1

/-- What a run of `m + 1` steps in a new process writes. -/
def Script.allWrites (c : Script ι X Y) (t h : ℚ) (x0 : X) (ts : List (ℚ × ℚ))
    (last : ℚ × RunState ι X) (m : ℕ) : List (GFile × (X ⊕ (ι → ℝ))) :=
  c.save (c.at x0 x0) t 0 ++ (((c.path h x0 x0 ts).zipIdx).flatMap
    fun p => c.save p.1.2 p.1.1 p.2) ++ c.savePost last.2 last.1 m

/-- What a new run of `m + 1` steps yields and leaves behind. -/
theorem freshRun_path (c : Script ι X Y) (x0 : X) (files : Dict GFile (X ⊕ (ι → ℝ))) (t0 h : ℚ)
    (m : ℕ) (ht0 : 0 ≤ t0) (hh : 0 < h) :
    ∃ last, (c.path h x0 x0 (stepTimes t0 h (setDigit h) (m + 1))).getLast? = some last ∧
      Session.script c (freshRun t0 h (m + 1)) ⟨Timer.default, c.at x0 x0, files⟩ = .ok
        ((c.path h x0 x0 (stepTimes t0 h (setDigit h) (m + 1))).map fun p => (p.1, p.2.x),
          ⟨{ newTimer t0 (t0 + (m + 1 : ℕ) * h) h with t := t0 + (m + 1 : ℕ) * h }, last.2,
            (c.allWrites 0 h x0 (stepTimes t0 h (setDigit h) (m + 1)) last m).foldl
              (fun d w => d.set w.1 w.2) files⟩) := by
  have hpos : t0 < t0 + (m + 1 : ℕ) * h := by
    have : (0 : ℚ) < (m + 1 : ℕ) * h := by positivity
    linarith
  obtain ⟨last, hl, hs⟩ := solve_path c (newTimer t0 (t0 + (m + 1 : ℕ) * h) h) files x0 x0 m hh rfl
  exact ⟨last, hl, script_setup c t0 _ h ht0 hpos _ _ _ _ (script_solve c _ _ _ hs)⟩

/-- The step `i` of a new run: its label, its state, what was saved of it, and what a run does
that continues from this state over the rest of the interval. -/
theorem freshRun_step (c : Script ι X Y) (rate tlRate : ℕ)
    (hc : c.stream = some (rate, tlRate)) (x0 : X) (files : Dict GFile (X ⊕ (ι → ℝ)))
    (t0 h : ℚ) (hh : 0 < h) (m i : ℕ) (hi : i < m) (last : ℚ × RunState ι X)
    (hl : (c.path h x0 x0 (stepTimes t0 h (setDigit h) (m + 1))).getLast? = some last)
    (hnd : ((c.path h x0 x0 (stepTimes t0 h (setDigit h) (m + 1))).map Prod.fst).Nodup) (L : ℚ)
    (hL : ((c.path h x0 x0 (stepTimes t0 h (setDigit h) (m + 1))).map Prod.fst)[i]? = some L) :
    ∃ p q, (c.path h x0 x0 (stepTimes t0 h (setDigit h) (m + 1)))[i]? = some (L, c.at p q) ∧
      (rate ∣ i → Dict.get? ((c.allWrites 0 h x0 (stepTimes t0 h (setDigit h) (m + 1)) last
        m).foldl (fun d w => d.set w.1 w.2) files) (.state (some L)) = some (.inl q)) ∧
      (tlRate ∣ i → ∀ l ∈ c.s.levelNames,
        Dict.get? ((c.allWrites 0 h x0 (stepTimes t0 h (setDigit h) (m + 1)) last
          m).foldl (fun d w => d.set w.1 w.2) files) (.level L c.fes l) = some (.inr
            (((c.s.levelsOf (c.P.comp p) (c.P.comp q)).get? l).getD fun _ => 0))) ∧
      ∀ fs, ∃ T', Session.solve c
          ⟨newTimer (t0 + ((i : ℚ) + 1) * h) (t0 + (m + 1 : ℕ) * h) h, c.at p q, fs⟩
          = .ok (((c.path h x0 x0 (stepTimes t0 h (setDigit h) (m + 1))).map
              fun p => (p.1, p.2.x)).drop (i + 1), T') ∧
        T'.run = last.2 ∧ T'.timer.t = t0 + (m + 1 : ℕ) * h := by
  set ts := stepTimes t0 h (setDigit h) (m + 1) with hts
  have hlen : ts.length = m + 1 := by rw [hts, stepTimes_length]
  have hnd' : (ts.map Prod.snd).Nodup := by rwa [← path_labels c (h : ℝ) x0 x0 ts]
  obtain ⟨p, q, hpq, hdrop⟩ := path_drop c (h : ℝ) x0 x0 ts i (by omega)
  have hLi : L = (ts[i]'(by omega)).2 := by
    simp only [List.getElem?_map, hpq, Option.map_some, Option.some.injEq] at hL
    exact hL.symm
  rw [← hLi] at hpq
  refine ⟨p, q, hpq, ?_, ?_, ?_⟩
  · intro hr
    apply files_step c h x0 x0 ts hnd' _ m last (L, c.at p q) files _ _ i (by omega) hl hpq
    · intro st t it w hw
      exact ((save_state_mem c rate tlRate hc ..).1 hw).1.symm
    · intro t it w hw
      exact ((save_state_mem c rate tlRate hc ..).1 hw).2.2
    · exact (save_state_mem c rate tlRate hc ..).2 ⟨rfl, Nat.mod_eq_zero_of_dvd hr, rfl⟩
  · intro htl l hlm
    apply files_step c h x0 x0 ts hnd' _ m last (L, c.at p q) files _ _ i (by omega) hl hpq
    · intro st t it w hw
      exact ((save_level_mem c rate tlRate hc ..).1 hw).1.symm
    · intro t it w hw
      exact ((save_level_mem c rate tlRate hc ..).1 hw).2.2.2
    · refine (save_level_mem c rate tlRate hc ..).2
        ⟨rfl, Nat.mod_eq_zero_of_dvd htl, ?_, rfl⟩
      have : (c.at p q).levels.map Prod.fst = c.s.levelNames := by
        unfold Script.at
        cases c.s <;> rfl
      rw [← this] at hlm
      obtain ⟨kv, hkv, rfl⟩ := List.mem_map.1 hlm
      exact List.mem_map.2 ⟨kv, hkv, rfl⟩
  · intro fs
    obtain ⟨k, hk⟩ : ∃ k, m + 1 = i + 1 + (k + 1) := ⟨m - i - 1, by omega⟩
    have hstop : t0 + (m + 1 : ℕ) * h = t0 + ((i : ℚ) + 1) * h + (k + 1 : ℕ) * h := by
      rw [hk]; push_cast; ring
    obtain ⟨last', hl', hs'⟩ := solve_path c
      (newTimer (t0 + ((i : ℚ) + 1) * h) (t0 + (m + 1 : ℕ) * h) h) fs p q k hh hstop
    have hts' : ts.drop (i + 1) = stepTimes (t0 + ((i : ℚ) + 1) * h) h (setDigit h) (k + 1) := by
      rw [hts, hk, stepTimes_add, List.drop_left' (by rw [stepTimes_length])]
      push_cast
      rfl
    have hlast : last' = last := by
      have e : (c.path h x0 x0 ts).getLast? = ((c.path h x0 x0 ts).drop (i + 1)).getLast? := by
        rw [List.getLast?_drop, if_neg (by rw [path_length]; omega)]
      rw [hl, hdrop, hts'] at e
      exact Option.some.inj (hl'.symm.trans e.symm)
    have hys : ((c.path h x0 x0 ts).map fun p => (p.1, p.2.x)).drop (i + 1)
        = (c.path h p q (stepTimes (t0 + ((i : ℚ) + 1) * h) h (setDigit h) (k + 1))).map
            fun p => (p.1, p.2.x) := by
      rw [← List.map_drop, hdrop, hts']
    rw [hys]
    exact ⟨_, hs', congrArg Prod.snd hlast, rfl⟩

theorem loop_labels (c : Script ι X Y) (dt : ℝ) (it : ℕ) (ts : List (ℚ × ℚ)) (st st' : RunState ι X)
    (ys : List (ℚ × X)) (ws : List (GFile × (X ⊕ (ι → ℝ))))
    (h : c.loop dt it ts st = .ok (ys, ws, st')) :
    ys.map Prod.fst = ts.map Prod.snd ∧
      ∀ L v, (GFile.state (some L), v) ∈ ws → L ∈ ts.map Prod.snd := by
  induction ts generalizing it st ys ws with
  | nil =>
    simp only [Script.loop, Except.ok.injEq, Prod.mk.injEq] at h
    obtain ⟨rfl, rfl, rfl⟩ := h
    simp
  | cons a ts ih =>
    obtain ⟨t, label⟩ := a
    simp only [Script.loop] at h
    cases h1 : transientRound c.P c.s dt c.N st t with
    | error e => rw [h1] at h; cases h
    | ok st1 =>
      rw [h1] at h
      change Except.bind (c.loop dt (it + 1) ts st1) _ = _ at h
      cases h2 : c.loop dt (it + 1) ts st1 with
      | error e => rw [h2] at h; cases h
      | ok r =>
        obtain ⟨ys1, ws1, st2⟩ := r
        rw [h2] at h
        simp only [Except.bind, Except.ok.injEq, Prod.mk.injEq] at h
        obtain ⟨rfl, rfl, rfl⟩ := h
        obtain ⟨i1, i2⟩ := ih _ _ _ _ h2
        refine ⟨by simp [i1], fun L v hm => ?_⟩
        rcases List.mem_append.1 hm with hm | hm
        · cases hc : c.stream with
          | none => simp [Script.save, hc] at hm
          | some r =>
            have := ((save_state_mem c r.1 r.2 hc ..).1 hm).1
            simp [this]
        · have := i2 L v hm
          simp only [List.map_cons, List.mem_cons]
          exact .inr this

/-- **C81** What a run writes first: the unknowns it starts from, under the present value of the
time parameter, whatever the interval. A file of this name is replaced. -/
theorem C81_first_file (c : Script ι X Y) (rate tlRate : ℕ) (hc : c.stream = some (rate, tlRate))
    (S S' : Session ι X) (ys : List (ℚ × X)) (h : S.solve c = .ok (ys, S'))
    (ht : S.timer.t ∉ ys.map Prod.fst) :
    S'.files.get? (.state (some S.timer.t)) = some (.inl S.run.x) := by
  simp only [Session.solve] at h
  cases h1 : S.timer.run false 1 with
  | error e => rw [h1] at h; cases h
  | ok ts =>
    rw [h1] at h
    change Except.bind (c.loop (S.timer.step : ℝ) 0 ts S.run) _ = _ at h
    cases h2 : c.loop (S.timer.step : ℝ) 0 ts S.run with
    | error e => rw [h2] at h; cases h
    | ok r =>
      obtain ⟨ys1, ws, st⟩ := r
      rw [h2] at h
      simp only [Except.bind] at h
      obtain ⟨i1, i2⟩ := loop_labels c _ _ _ _ _ _ _ h2
      cases h3 : ts.getLast? with
      | none => rw [h3] at h; cases h
      | some tl =>
        rw [h3] at h
        have h4 := Prod.mk.inj (Except.ok.inj h)
        obtain ⟨rfl, h5⟩ := h4
        rw [i1] at ht
        rw [← h5]
        simp only
        rw [List.append_assoc, List.foldl_append, foldl_set_none]
        · apply foldl_set_some
          · exact (save_state_mem c rate tlRate hc ..).2 ⟨rfl, Nat.zero_mod _, rfl⟩
          · intro v hv
            exact ((save_state_mem c rate tlRate hc ..).1 hv).2.2
        · intro w hw e
          obtain ⟨k, v⟩ := w
          simp only at e
          subst e
          rcases List.mem_append.1 hw with hw | hw
          · exact ht (i2 _ _ hw)
          · have := ((save_state_mem c rate tlRate hc ..).1 (savePost_sub c _ _ _ _ hw)).1
            apply ht
            rw [this]
            exact List.mem_map.2 ⟨tl, List.mem_of_getLast? h3, rfl⟩

theorem loop_last (c : Script ι X Y) (dt : ℝ) (it : ℕ) (ts : List (ℚ × ℚ)) (st st' : RunState ι X)
    (ys : List (ℚ × X)) (ws : List (GFile × (X ⊕ (ι → ℝ)))) (tl : ℚ × ℚ) (hl : ts.getLast? = some tl)
    (h : c.loop dt it ts st = .ok (ys, ws, st')) :
    ys.getLast? = some (tl.2, st'.x) ∧ ∃ ws₀, ws = ws₀ ++ c.save st' tl.2 (it + (ts.length - 1)) := by
  induction ts generalizing it st ys ws with
  | nil => cases hl
  | cons a ts ih =>
    obtain ⟨t, label⟩ := a
    simp only [Script.loop] at h
    cases h1 : transientRound c.P c.s dt c.N st t with
    | error e => rw [h1] at h; cases h
    | ok st1 =>
      rw [h1] at h
      change Except.bind (c.loop dt (it + 1) ts st1) _ = _ at h
      cases h2 : c.loop dt (it + 1) ts st1 with
      | error e => rw [h2] at h; cases h
      | ok r =>
        obtain ⟨ys1, ws1, st2⟩ := r
        rw [h2] at h
        simp only [Except.bind, Except.ok.injEq, Prod.mk.injEq] at h
        obtain ⟨rfl, rfl, rfl⟩ := h
        cases ts with
        | nil =>
          simp only [Script.loop, Except.ok.injEq, Prod.mk.injEq] at h2
          obtain ⟨rfl, rfl, rfl⟩ := h2
          simp only [List.getLast?_singleton, Option.some.injEq] at hl
          subst hl
          exact ⟨rfl, [], by simp⟩
        | cons b ts =>
          rw [List.getLast?_cons_cons] at hl
          obtain ⟨i1, ws₀, i2⟩ := ih (it + 1) st1 ys1 ws1 hl h2
          refine ⟨?_, c.save st1 label it ++ ws₀, ?_⟩
          · cases ys1 with
            | nil => cases i1
            | cons y ys1 => rw [List.getLast?_cons_cons]; exact i1
          · rw [i2, List.append_assoc]
            congr 3
            simp only [List.length_cons]
            omega

/-- **C81** What a run leaves behind: whatever the rate, the unknowns after the last step are in the file
with the last label. -/
theorem C81_last_file (c : Script ι X Y) (rate tlRate : ℕ) (hc : c.stream = some (rate, tlRate))
    (S S' : Session ι X) (ys : List (ℚ × X)) (h : S.solve c = .ok (ys, S')) :
    ∃ L, ys.getLast? = some (L, S'.run.x) ∧
      S'.files.get? (.state (some L)) = some (.inl S'.run.x) := by
  simp only [Session.solve] at h
  cases h1 : S.timer.run false 1 with
  | error e => rw [h1] at h; cases h
  | ok ts =>
    rw [h1] at h
    change Except.bind (c.loop (S.timer.step : ℝ) 0 ts S.run) _ = _ at h
    cases h2 : c.loop (S.timer.step : ℝ) 0 ts S.run with
    | error e => rw [h2] at h; cases h
    | ok r =>
      obtain ⟨ys1, ws, st⟩ := r
      rw [h2] at h
      simp only [Except.bind] at h
      cases h3 : ts.getLast? with
      | none => rw [h3] at h; cases h
      | some tl =>
        rw [h3] at h
        have h4 := Prod.mk.inj (Except.ok.inj h)
        obtain ⟨rfl, h5⟩ := h4
        obtain ⟨i1, ws₀, i2⟩ := loop_last c _ _ _ _ _ _ _ tl h3 h2
        rw [← h5]
        refine ⟨tl.2, i1, ?_⟩
        simp only
        rw [i2, ← List.append_assoc, List.append_assoc, List.foldl_append]
        apply foldl_set_some
        · rw [List.mem_append, Nat.zero_add]
          by_cases hz : (ts.length - 1) % rate = 0
          · exact .inl ((save_state_mem c rate tlRate hc ..).2 ⟨rfl, hz, rfl⟩)
          · right
            unfold Script.savePost
            rw [hc]
            simp only [hz, not_false_eq_true, if_true]
            exact (save_state_mem c rate tlRate hc ..).2 ⟨rfl, Nat.zero_mod _, rfl⟩
        · intro v hv
          rcases List.mem_append.1 hv with hv | hv
          · exact ((save_state_mem c rate tlRate hc ..).1 hv).2.2
          · exact ((save_state_mem c rate tlRate hc ..).1 (savePost_sub c _ _ _ _ hv)).2.2

/-- The time in the name of a file. -/
def GFile.time : GFile → Option ℚ
  | .state t => t
  | .level t _ _ => some t

theorem save_time (c : Script ι X Y) (st : RunState ι X) (t : ℚ) (it : ℕ)
    (w : GFile × (X ⊕ (ι → ℝ))) (h : w ∈ c.save st t it) : w.1.time = some t := by
  unfold Script.save gfuSave at h
  cases hc : c.stream with
  | none => rw [hc] at h; simp at h
  | some r =>
    rw [hc] at h
    simp only [List.mem_append] at h
    rcases h with h | h
    · split at h
      · obtain ⟨a, -, rfl⟩ := List.mem_map.1 h
        rfl
      · simp at h
    · split at h
      · rw [List.mem_singleton.1 h]; rfl
      · simp at h

theorem loop_time (c : Script ι X Y) (dt : ℝ) (it : ℕ) (ts : List (ℚ × ℚ)) (st st' : RunState ι X)
    (ys : List (ℚ × X)) (ws : List (GFile × (X ⊕ (ι → ℝ))))
    (h : c.loop dt it ts st = .ok (ys, ws, st')) (w : GFile × (X ⊕ (ι → ℝ))) (hw : w ∈ ws) :
    ∃ L ∈ ts.map Prod.snd, w.1.time = some L := by
  induction ts generalizing it st ys ws with
  | nil =>
    simp only [Script.loop, Except.ok.injEq, Prod.mk.injEq] at h
    obtain ⟨rfl, rfl, rfl⟩ := h
    simp at hw
  | cons a ts ih =>
    obtain ⟨t, label⟩ := a
    simp only [Script.loop] at h
    cases h1 : transientRound c.P c.s dt c.N st t with
    | error e => rw [h1] at h; cases h
    | ok st1 =>
      rw [h1] at h
      change Except.bind (c.loop dt (it + 1) ts st1) _ = _ at h
      cases h2 : c.loop dt (it + 1) ts st1 with
      | error e => rw [h2] at h; cases h
      | ok r =>
        obtain ⟨ys1, ws1, st2⟩ := r
        rw [h2] at h
        simp only [Except.bind, Except.ok.injEq, Prod.mk.injEq] at h
        obtain ⟨rfl, rfl, rfl⟩ := h
        rcases List.mem_append.1 hw with hm | hm
        · exact ⟨label, by simp, save_time c _ _ _ w hm⟩
        · obtain ⟨L, hL, e⟩ := ih _ _ _ _ h2 hm
          exact ⟨L, by simp only [List.map_cons, List.mem_cons]; exact .inr hL, e⟩

/-- **C81** What a run leaves alone: every file whose name carries neither one of the times it
yields nor the value the time parameter had before. -/
theorem C81_other_files_partial (c : Script ι X Y) (S S' : Session ι X) (ys : List (ℚ × X))
    (h : S.solve c = .ok (ys, S')) (f : GFile) (hf : f.time ≠ some S.timer.t)
    (hy : ∀ y ∈ ys, f.time ≠ some y.1) : S'.files.get? f = S.files.get? f := by
  simp only [Session.solve] at h
  cases h1 : S.timer.run false 1 with
  | error e => rw [h1] at h; cases h
  | ok ts =>
    rw [h1] at h
    change Except.bind (c.loop (S.timer.step : ℝ) 0 ts S.run) _ = _ at h
    cases h2 : c.loop (S.timer.step : ℝ) 0 ts S.run with
    | error e => rw [h2] at h; cases h
    | ok r =>
      obtain ⟨ys1, ws, st⟩ := r
      rw [h2] at h
      simp only [Except.bind] at h
      obtain ⟨i1, -⟩ := loop_labels c _ _ _ _ _ _ _ h2
      cases h3 : ts.getLast? with
      | none => rw [h3] at h; cases h
      | some tl =>
        rw [h3] at h
        have h4 := Prod.mk.inj (Except.ok.inj h)
        obtain ⟨rfl, h5⟩ := h4
        have hlab : ∀ L ∈ ts.map Prod.snd, f.time ≠ some L := by
          intro L hL
          rw [← i1] at hL
          obtain ⟨y, hy1, rfl⟩ := List.mem_map.1 hL
          exact hy y hy1
        rw [← h5]
        apply foldl_set_none
        rintro w hw rfl
        rcases List.mem_append.1 hw with hw | hw
        · rcases List.mem_append.1 hw with hw | hw
          · exact hf (save_time c _ _ _ w hw)
          · obtain ⟨L, hL, e⟩ := loop_time c _ _ _ _ _ _ _ h2 w hw
            exact hlab L hL e
        · exact hlab tl.2 (List.mem_map.2 ⟨tl, List.mem_of_getLast? h3, rfl⟩)
            (save_time c _ _ _ w (savePost_sub c _ _ _ _ hw))

theorem restart_core (c : Script ι X Y) (hput : ∀ x, c.put (c.P.comp x) x = x) (rate tlRate : ℕ)
    (hc : c.stream = some (rate, tlRate)) (x0 x0' : X) (files : Dict GFile (X ⊕ (ι → ℝ)))
    (t0 h : ℚ) (ht0 : 0 ≤ t0) (hh : 0 < h) (n i : ℕ) (hi : i + 1 < n) (hr : rate ∣ i)
    (htl : tlRate ∣ i) :
    ∃ S ys S', c.start x0 files = .ok S ∧ Session.script c (freshRun t0 h n) S = .ok (ys, S') ∧
      ys.length = n ∧
      ((ys.map Prod.fst).Nodup → ∀ L, (ys.map Prod.fst)[i]? = some L →
        ∃ T T', c.start x0' S'.files = .ok T ∧
          Session.script c [.step h, .interval (t0 + ((i : ℚ) + 1) * h) (t0 + n * h), .loadState L,
            .loadLevels L, .solve] T = .ok (ys.drop (i + 1), T') ∧
          T'.run = S'.run ∧ T'.timer.t = S'.timer.t ∧
          ((0 : ℚ) ∉ ys.map Prod.fst → ∀ x, ys[i]? = some (L, x) →
            S'.files.get? (.state (some 0)) = some (.inl x0) ∧
            T'.files.get? (.state (some 0)) = some (.inl x))) := by
  obtain ⟨m, rfl⟩ : ∃ m, n = m + 1 := ⟨n - 1, by omega⟩
  obtain ⟨last, hl, hrun⟩ := freshRun_path c x0 files t0 h m ht0 hh
  refine ⟨_, _, _, start_at c x0 files, hrun, by simp [path_length, stepTimes_length], ?_⟩
  intro hnd L hL
  simp only [List.map_map, Function.comp_def] at hnd hL
  obtain ⟨p, q, hpq, hstate, hlevel, hrest⟩ := freshRun_step c rate tlRate hc x0 files t0 h hh m i
    (by omega) last hl hnd L hL
  set fs := (c.allWrites 0 h x0 (stepTimes t0 h (setDigit h) (m + 1)) last m).foldl
      (fun d w => d.set w.1 w.2) files with hfs
  obtain ⟨T', hT, hT1, hT2⟩ := hrest fs
  have hpos : t0 + ((i : ℚ) + 1) * h < t0 + (m + 1 : ℕ) * h := by
    have : (i : ℚ) + 1 < (m + 1 : ℕ) := by exact_mod_cast hi
    nlinarith
  have hstart : 0 ≤ t0 + ((i : ℚ) + 1) * h := by positivity
  refine ⟨_, T', start_at c x0' fs, ?_, hT1, hT2, ?_⟩
  rotate_left
  · intro h0 x hx
    have hxq : x = q := by
      simp only [List.getElem?_map, hpq, Option.map_some, Option.some.injEq, Prod.mk.injEq] at hx
      exact hx.2.symm
    constructor
    · have hlt : t0 < t0 + (m + 1 : ℕ) * h := by
        have : (0 : ℚ) < (m + 1 : ℕ) * h := by positivity
        linarith
      have h1 := (script_setup_eq c t0 (t0 + (m + 1 : ℕ) * h) h ht0 hlt [.solve] (c.at x0 x0)
        files).symm.trans hrun
      rw [script_solve_eq] at h1
      exact C81_first_file c rate tlRate hc _ _ _ h1 h0
    · rw [hxq]
      refine C81_first_file c rate tlRate hc _ _ _ hT fun hm => h0 ?_
      obtain ⟨y, hy, e⟩ := List.mem_map.1 hm
      exact List.mem_map.2 ⟨y, List.mem_of_mem_drop hy, e⟩
  apply script_setup c _ _ h hstart hpos _ _ _ (_, _)
  have e1 : Session.exec c ⟨newTimer (t0 + ((i : ℚ) + 1) * h) (t0 + (m + 1 : ℕ) * h) h,
        c.at x0' x0', fs⟩ (.loadState L) = .ok ([], ⟨newTimer (t0 + ((i : ℚ) + 1) * h)
          (t0 + (m + 1 : ℕ) * h) h,
        ⟨q, (c.s.levelsOf (c.P.comp x0') (c.P.comp x0')).set "n+1" (c.P.comp q)⟩, fs⟩) := by
    simp only [Session.exec, Session.loadState, hstate hr]
    rfl
  have e2 : Session.exec c ⟨newTimer (t0 + ((i : ℚ) + 1) * h) (t0 + (m + 1 : ℕ) * h) h,
        ⟨q, (c.s.levelsOf (c.P.comp x0') (c.P.comp x0')).set "n+1" (c.P.comp q)⟩, fs⟩
        (.loadLevels L) = .ok ([], ⟨newTimer (t0 + ((i : ℚ) + 1) * h)
          (t0 + (m + 1 : ℕ) * h) h, c.at p q, fs⟩) := by
    simp only [Session.exec, Session.loadLevels]
    rw [loadLevels_at c fs L (c.P.comp p) (c.P.comp q) _ _ _ _ (hlevel htl), hput]
    rfl
  exact script_cons c _ _ _ _ _ [] _ e1 (script_cons c _ _ _ _ _ [] _ e2 (script_solve c _ _ _ hT))

/-- **C81** Restarting. A run of `n` steps is saved; a new process, with whatever initial state,
loads the unknowns and the time levels saved at the label of step `i`, which both rates divide, and
solves the rest of the interval: it yields exactly what the first run yielded after that step, and
ends with the same unknowns, time levels and time. The labels have to be distinct (C02). -/
theorem C81_restart (c : Script ι X Y) (hput : ∀ x, c.put (c.P.comp x) x = x) (rate tlRate : ℕ)
    (hc : c.stream = some (rate, tlRate)) (x0 x0' : X) (files : Dict GFile (X ⊕ (ι → ℝ)))
    (t0 h : ℚ) (ht0 : 0 ≤ t0) (hh : 0 < h) (n i : ℕ) (hi : i + 1 < n) (hr : rate ∣ i)
    (htl : tlRate ∣ i) :
    ∃ S ys S', c.start x0 files = .ok S ∧ Session.script c (freshRun t0 h n) S = .ok (ys, S') ∧
      ys.length = n ∧
      ((ys.map Prod.fst).Nodup → ∀ L, (ys.map Prod.fst)[i]? = some L →
        ∃ T T', c.start x0' S'.files = .ok T ∧
          Session.script c [.step h, .interval (t0 + ((i : ℚ) + 1) * h) (t0 + n * h), .loadState L,
            .loadLevels L, .solve] T = .ok (ys.drop (i + 1), T') ∧
          T'.run = S'.run ∧ T'.timer.t = S'.timer.t) := by
  obtain ⟨S, ys, S', h1, h2, h3, h4⟩ := restart_core c hput rate tlRate hc x0 x0' files t0 h ht0 hh
    n i hi hr htl
  refine ⟨S, ys, S', h1, h2, h3, fun hnd L hL => ?_⟩
  obtain ⟨T, T', k1, k2, k3, k4, -⟩ := h4 hnd L hL
  exact ⟨T, T', k1, k2, k3, k4⟩

/-- **C81 fails** for the files: the run that is restarted writes the state it starts from under
the time `0`, not under the time it starts from, and so replaces the initial state the first run
had saved. -/
theorem C81_fails_overwrite (c : Script ι X Y) (hput : ∀ x, c.put (c.P.comp x) x = x) (rate tlRate : ℕ)
    (hc : c.stream = some (rate, tlRate)) (x0 x0' : X) (files : Dict GFile (X ⊕ (ι → ℝ)))
    (t0 h : ℚ) (ht0 : 0 ≤ t0) (hh : 0 < h) (n i : ℕ) (hi : i + 1 < n) (hr : rate ∣ i)
    (htl : tlRate ∣ i) :
    ∃ S ys S', c.start x0 files = .ok S ∧ Session.script c (freshRun t0 h n) S = .ok (ys, S') ∧
      ys.length = n ∧
      ((ys.map Prod.fst).Nodup → ∀ L, (ys.map Prod.fst)[i]? = some L →
        ∃ T T', c.start x0' S'.files = .ok T ∧
          Session.script c [.step h, .interval (t0 + ((i : ℚ) + 1) * h) (t0 + n * h), .loadState L,
            .loadLevels L, .solve] T = .ok (ys.drop (i + 1), T') ∧
                    ((0 : ℚ) ∉ ys.map Prod.fst → ∀ x, ys[i]? = some (L, x) →
            S'.files.get? (.state (some 0)) = some (.inl x0) ∧
            T'.files.get? (.state (some 0)) = some (.inl x))) := by
  obtain ⟨S, ys, S', h1, h2, h3, h4⟩ := restart_core c hput rate tlRate hc x0 x0' files t0 h ht0 hh
    n i hi hr htl
  refine ⟨S, ys, S', h1, h2, h3, fun hnd L hL => ?_⟩
  obtain ⟨T, T', k1, k2, k3, k4, k5⟩ := h4 hnd L hL
  exact ⟨T, T', k1, k2, k5⟩

/-- For the equations of a time step with step `dt`, the nonlinear solver finds the same solution
wherever it starts. -/
def Script.StartFree (c : Script ι X Y) (dt : ℝ) : Prop :=
  ∀ (t : ℚ) (p q : ι → ℝ) (x y : X),
    (c.N.solve (fun z => c.P.spatial t z +
      c.P.mass fun i => c.s.quotient dt (c.P.comp z i) (q i) (p i)) x).u
    = (c.N.solve (fun z => c.P.spatial t z +
      c.P.mass fun i => c.s.quotient dt (c.P.comp z i) (q i) (p i)) y).u

/-- One round depends on the unknowns only through the starting point of the nonlinear solver. -/
theorem round_start (c : Script ι X Y) (dt : ℝ) (hN : c.StartFree dt) (t : ℚ) (a b p q : ι → ℝ)
    (x y : X) :
    transientRound c.P c.s dt c.N ⟨x, (c.s.levelsOf p q).set "n+1" a⟩ t
      = transientRound c.P c.s dt c.N ⟨y, (c.s.levelsOf p q).set "n+1" b⟩ t := by
  have hset : ∀ v w : ι → ℝ, ((c.s.levelsOf p q).set "n+1" v).set "n+1" w
      = (c.s.levelsOf p q).set "n+1" w := by
    intro v w; cases c.s <;> rfl
  have hres : ∀ (v : ι → ℝ) z, c.P.residual c.s dt ((c.s.levelsOf p q).set "n+1" v) t z
      = .ok (c.P.spatial t z + c.P.mass fun i => c.s.quotient dt (c.P.comp z i) (q i) (p i)) := by
    intro v z
    simp only [Problem.residual, Scheme.temporal, hset]
    have := temporal_levelsOf c.s dt p q (c.P.comp z)
    unfold Scheme.temporal at this
    rw [this]
    rfl
  simp only [transientRound, hres]
  show Except.bind (Except.ok _) _ = Except.bind (Except.ok _) _
  simp only [Except.bind]
  have e := hN t p q x y
  simp only [valueOr]
  rw [e]
  simp only [timeStep, hset]

theorem loop_start (c : Script ι X Y) (dt : ℝ) (hN : c.StartFree dt) (it : ℕ) (ts : List (ℚ × ℚ))
    (hts : ts ≠ []) (a b p q : ι → ℝ) (x y : X) :
    c.loop dt it ts ⟨x, (c.s.levelsOf p q).set "n+1" a⟩
      = c.loop dt it ts ⟨y, (c.s.levelsOf p q).set "n+1" b⟩ := by
  obtain ⟨⟨t, l⟩, rest, rfl⟩ := List.exists_cons_of_ne_nil hts
  simp only [Script.loop]
  rw [round_start c dt hN t a b p q x y]

/-- What a run yields, and the state it ends with, depends on the unknowns only through the
starting point of the nonlinear solver. -/
theorem solve_start (c : Script ι X Y) (tm : Timer) (hN : c.StartFree tm.step) (a b p q : ι → ℝ)
    (x y : X) (fs gs : Dict GFile (X ⊕ (ι → ℝ))) :
    (Session.solve c ⟨tm, ⟨x, (c.s.levelsOf p q).set "n+1" a⟩, fs⟩).map Session.seen
      = (Session.solve c ⟨tm, ⟨y, (c.s.levelsOf p q).set "n+1" b⟩, gs⟩).map Session.seen := by
  simp only [Session.solve]
  cases h1 : tm.run false 1 with
  | error e => rfl
  | ok ts =>
    show Except.map _ (Except.bind (c.loop _ 0 ts _) _) = Except.map _ (Except.bind (c.loop _ 0 ts _) _)
    by_cases hne : ts = []
    · subst hne; rfl
    · rw [loop_start c _ hN 0 ts hne a b p q x y]
      cases c.loop (tm.step : ℝ) 0 ts ⟨y, (c.s.levelsOf p q).set "n+1" b⟩ with
      | error e => rfl
      | ok r =>
        simp only [Except.bind]
        cases ts.getLast? <;> rfl

/-- **C81** If the nonlinear solver finds the solution wherever it starts, the time levels alone
are enough to restart from: no matter whether the unknowns were saved at that step. -/
theorem C81_restart_levels (c : Script ι X Y) (rate tlRate : ℕ)
    (hc : c.stream = some (rate, tlRate)) (x0 x0' : X) (files : Dict GFile (X ⊕ (ι → ℝ)))
    (t0 h : ℚ) (hN : c.StartFree h) (ht0 : 0 ≤ t0) (hh : 0 < h) (n i : ℕ) (hi : i + 1 < n) (htl : tlRate ∣ i) :
    ∃ S ys S', c.start x0 files = .ok S ∧ Session.script c (freshRun t0 h n) S = .ok (ys, S') ∧
      ys.length = n ∧
      ((ys.map Prod.fst).Nodup → ∀ L, (ys.map Prod.fst)[i]? = some L →
        ∃ T T', c.start x0' S'.files = .ok T ∧
          Session.script c [.step h, .interval (t0 + ((i : ℚ) + 1) * h) (t0 + n * h),
            .loadLevels L, .solve] T = .ok (ys.drop (i + 1), T') ∧
          T'.run = S'.run ∧ T'.timer.t = S'.timer.t) := by
  obtain ⟨m, rfl⟩ : ∃ m, n = m + 1 := ⟨n - 1, by omega⟩
  obtain ⟨last, hl, hrun⟩ := freshRun_path c x0 files t0 h m ht0 hh
  refine ⟨_, _, _, start_at c x0 files, hrun, by simp [path_length, stepTimes_length], ?_⟩
  intro hnd L hL
  simp only [List.map_map, Function.comp_def] at hnd hL
  obtain ⟨p, q, hpq, hstate, hlevel, hrest⟩ := freshRun_step c rate tlRate hc x0 files t0 h hh m i
    (by omega) last hl hnd L hL
  set fs := (c.allWrites 0 h x0 (stepTimes t0 h (setDigit h) (m + 1)) last m).foldl
      (fun d w => d.set w.1 w.2) files with hfs
  obtain ⟨T', hT, hT1, hT2⟩ := hrest fs
  have hpos : t0 + ((i : ℚ) + 1) * h < t0 + (m + 1 : ℕ) * h := by
    have : (i : ℚ) + 1 < (m + 1 : ℕ) := by exact_mod_cast hi
    nlinarith
  have hstart : 0 ≤ t0 + ((i : ℚ) + 1) * h := by positivity
  have hself : ∀ a b : ι → ℝ, (c.s.levelsOf a b).set "n+1" b = c.s.levelsOf a b := by
    intro a b; cases c.s <;> rfl
  have e2 : Session.exec c ⟨newTimer (t0 + ((i : ℚ) + 1) * h) (t0 + (m + 1 : ℕ) * h) h,
        c.at x0' x0', fs⟩ (.loadLevels L) = .ok ([], ⟨newTimer (t0 + ((i : ℚ) + 1) * h)
          (t0 + (m + 1 : ℕ) * h) h,
          ⟨c.put (c.P.comp q) x0', c.s.levelsOf (c.P.comp p) (c.P.comp q)⟩, fs⟩) := by
    have := loadLevels_at c fs L (c.P.comp p) (c.P.comp q) (c.P.comp x0') (c.P.comp x0')
      (c.P.comp x0') x0' (hlevel htl)
    rw [hself] at this
    simp only [Session.exec, Session.loadLevels, Script.at]
    rw [this]
    rfl
  have hs := solve_start c (newTimer (t0 + ((i : ℚ) + 1) * h) (t0 + (m + 1 : ℕ) * h) h) hN
    (c.P.comp q) (c.P.comp q) (c.P.comp p) (c.P.comp q) (c.put (c.P.comp q) x0') q fs fs
  rw [hself] at hs
  unfold Script.at at hT
  rw [hT] at hs
  cases hT3 : Session.solve c ⟨newTimer (t0 + ((i : ℚ) + 1) * h) (t0 + (m + 1 : ℕ) * h) h,
      ⟨c.put (c.P.comp q) x0', c.s.levelsOf (c.P.comp p) (c.P.comp q)⟩, fs⟩ with
  | error e => rw [hT3] at hs; simp [Except.map] at hs
  | ok r =>
    rw [hT3] at hs
    obtain ⟨zs, U⟩ := r
    have h5 := Except.ok.inj hs
    simp only [Session.seen, Prod.mk.injEq] at h5
    refine ⟨_, U, start_at c x0' fs, ?_, h5.2.1.trans hT1, h5.2.2.trans hT2⟩
    apply script_setup c _ _ h hstart hpos _ _ _ (_, _)
    rw [← h5.1]
    exact script_cons c _ _ _ _ _ [] _ e2 (script_solve c _ _ _ hT3)

/-- **C81** The unknowns alone are not: a new process that loads only them (`load_routine`) and
solves yields exactly what it would have yielded without loading anything, because the time levels
still hold the initial state. -/
theorem C81_state_only (c : Script ι X Y) (x0 : X) (files : Dict GFile (X ⊕ (ι → ℝ)))
    (t0 t1 h L : ℚ) (hN : c.StartFree h) (ht0 : 0 ≤ t0) (ht1 : t0 < t1) (x : X)
    (hx : files.get? (.state (some L)) = some (.inl x)) :
    ∃ T, c.start x0 files = .ok T ∧
      (Session.script c [.step h, .interval t0 t1, .loadState L, .solve] T).map Session.seen
        = (Session.script c [.step h, .interval t0 t1, .solve] T).map Session.seen := by
  refine ⟨_, start_at c x0 files, ?_⟩
  have hself : ∀ a b : ι → ℝ, (c.s.levelsOf a b).set "n+1" b = c.s.levelsOf a b := by
    intro a b; cases c.s <;> rfl
  have hs := solve_start c (newTimer t0 t1 h) hN (c.P.comp x) (c.P.comp x0) (c.P.comp x0)
    (c.P.comp x0) x x0 files files
  rw [hself] at hs
  have e2 : Session.script c [.loadState L, .solve] ⟨newTimer t0 t1 h, c.at x0 x0, files⟩
      = Session.solve c ⟨newTimer t0 t1 h,
          ⟨x, (c.s.levelsOf (c.P.comp x0) (c.P.comp x0)).set "n+1" (c.P.comp x)⟩, files⟩ := by
    rw [← script_solve_eq]
    apply script_silent
    simp only [Session.exec, Session.loadState]
    rw [hx]
    rfl
  rw [script_setup_eq c t0 t1 h ht0 ht1, script_setup_eq c t0 t1 h ht0 ht1, script_solve_eq, e2]
  exact hs

end

/-! ## Concrete cases: uniform motion -/

/-- `u' = 1`, all steps saved. -/
def motion (s : Scheme) : Script Unit ℝ ℝ :=
  { P := scalarProblem fun _ => -1, s := s, N := scalarNewton 1 (1/100) 10, fes := "U",
    put := fun v _ => v (), stream := some (1, 1) }

theorem motion_solve (s : Scheme) (h : ℝ) (hh : 0 < h) (t : ℚ) (p q : Unit → ℝ) (x : ℝ) :
    ((motion s).N.solve (fun z => (motion s).P.spatial t z +
      (motion s).P.mass fun i => s.quotient h ((motion s).P.comp z i) (q i) (p i)) x).u
    = match s with
      | .implicitEuler => q () + h
      | .bdf2 => (4 * q () - p () + 2 * h) / 3 := by
  cases s with
  | implicitEuler =>
    have := solve_affine (scalarNewton 1 (1/100) 10) (scalarNewton_exact _ _ _) rfl (by decide)
      (fun z => (motion .implicitEuler).P.spatial t z + (motion .implicitEuler).P.mass fun i =>
        Scheme.implicitEuler.quotient h ((motion .implicitEuler).P.comp z i) (q i) (p i))
      (LinearEquiv.smulOfNeZero ℝ ℝ (1 / h) (by positivity)) (-1 - q () / h)
      (by intro z
          simp only [motion, scalarProblem, Scheme.quotient, Spec.backwardEuler,
            LinearEquiv.smulOfNeZero_apply, smul_eq_mul]
          ring) x
    simp only [motion, scalarProblem, Scheme.quotient, Spec.backwardEuler] at this ⊢
    generalize NLState.u _ = w at this ⊢
    field_simp at this
    linarith
  | bdf2 =>
    have := solve_affine (scalarNewton 1 (1/100) 10) (scalarNewton_exact _ _ _) rfl (by decide)
      (fun z => (motion .bdf2).P.spatial t z + (motion .bdf2).P.mass fun i =>
        Scheme.bdf2.quotient h ((motion .bdf2).P.comp z i) (q i) (p i))
      (LinearEquiv.smulOfNeZero ℝ ℝ (3 / (2 * h)) (by positivity))
      (-1 + (-4 * q () + p ()) / (2 * h))
      (by intro z
          simp only [motion, scalarProblem, Scheme.quotient, Spec.backward2,
            LinearEquiv.smulOfNeZero_apply, smul_eq_mul]
          ring) x
    simp only [motion, scalarProblem, Scheme.quotient, Spec.backward2] at this ⊢
    generalize NLState.u _ = w at this ⊢
    field_simp at this
    linarith

theorem motion_startFree (s : Scheme) (h : ℝ) (hh : 0 < h) : (motion s).StartFree h := by
  intro t p q x y
  have e1 := motion_solve s h hh t p q x
  have e2 := motion_solve s h hh t p q y
  exact e1.trans e2.symm

/-- The next state of uniform motion. -/
def motionNext (s : Scheme) (h p q : ℝ) : ℝ :=
  match s with
  | .implicitEuler => q + h
  | .bdf2 => (4 * q - p + 2 * h) / 3

theorem motion_path (s : Scheme) (h : ℝ) (hh : 0 < h) (p q : ℝ) (t l : ℚ) (ts : List (ℚ × ℚ)) :
    (motion s).path h p q ((t, l) :: ts)
      = (l, (motion s).at q (motionNext s h p q)) :: (motion s).path h q (motionNext s h p q) ts := by
  have := motion_solve s h hh t (fun _ => p) (fun _ => q) q
  have e : ((motion s).N.solve ((motion s).P.stepEquation ((motion s).s.quotient h) t q p) q).u
      = motionNext s h p q := by
    refine Eq.trans ?_ (this.trans ?_)
    · rfl
    · cases s <;> rfl
  simp only [Script.path, e]

theorem motion_times : stepTimes 0 (1/2) (setDigit (1/2)) 4
    = [(1/2, 1/2), (1, 1), (3/2, 3/2), (2, 2)] := by decide +kernel

/-- What four steps `1/2` from `0` yield. -/
def motionYields : Scheme → List (ℚ × ℝ)
  | .implicitEuler => [(1/2, 1/2), (1, 1), (3/2, 3/2), (2, 2)]
  | .bdf2 => [(1/2, 1/3), (1, 7/9), (3/2, 34/27), (2, 142/81)]

theorem motion_four (s : Scheme) (files : Dict GFile (ℝ ⊕ (Unit → ℝ))) (S S' : Session Unit ℝ)
    (ys : List (ℚ × ℝ)) (h1 : (motion s).start 0 files = .ok S)
    (h2 : Session.script (motion s) (freshRun 0 (1/2) 4) S = .ok (ys, S')) :
    ys = motionYields s := by
  obtain ⟨last, hl, hrun⟩ := freshRun_path (motion s) 0 files 0 (1/2) 3 le_rfl (by norm_num)
  have hS := Except.ok.inj ((start_at (motion s) 0 files).symm.trans h1)
  subst hS
  have := (Prod.mk.inj (Except.ok.inj (hrun.symm.trans h2))).1
  rw [← this, motion_times]
  have hh : (0 : ℝ) < ((1/2 : ℚ) : ℝ) := by norm_num
  rw [motion_path s _ hh, motion_path s _ hh, motion_path s _ hh, motion_path s _ hh]
  cases s <;> norm_num [Script.path, Script.at, motionNext, motionYields]

/-- Hypotheses and content of `C81_restart` in a concrete case: the run over `(0, 2)` is restarted
at `t = 1`, in a process with initial state `7`. -/
example : ∃ S S' T T', (motion .bdf2).start 0 [] = .ok S ∧
    Session.script (motion .bdf2) (freshRun 0 (1/2) 4) S
      = .ok ([(1/2, 1/3), (1, 7/9), (3/2, 34/27), (2, 142/81)], S') ∧
    (motion .bdf2).start 7 S'.files = .ok T ∧
    Session.script (motion .bdf2) [.step (1/2), .interval 1 2, .loadState 1, .loadLevels 1, .solve] T
      = .ok ([(3/2, 34/27), (2, 142/81)], T') := by
  obtain ⟨S, ys, S', h1, h2, h3, h4⟩ := C81_restart (motion .bdf2) (fun x => rfl) 1 1 rfl 0 7 [] 0
    (1/2) le_rfl (by norm_num) 4 1 (by norm_num) (one_dvd _) (one_dvd _)
  have e := motion_four .bdf2 [] S S' ys h1 h2
  simp only [motionYields] at e
  subst e
  obtain ⟨T, T', k1, k2, -⟩ := h4 (by simp; norm_num) 1 rfl
  norm_num at k2
  exact ⟨S, S', T, T', h1, h2, k1, k2⟩

/-- The same restart with the time levels alone. -/
example : ∃ S S' T T', (motion .bdf2).start 0 [] = .ok S ∧
    Session.script (motion .bdf2) (freshRun 0 (1/2) 4) S
      = .ok ([(1/2, 1/3), (1, 7/9), (3/2, 34/27), (2, 142/81)], S') ∧
    (motion .bdf2).start 7 S'.files = .ok T ∧
    Session.script (motion .bdf2) [.step (1/2), .interval 1 2, .loadLevels 1, .solve] T
      = .ok ([(3/2, 34/27), (2, 142/81)], T') := by
  obtain ⟨S, ys, S', h1, h2, h3, h4⟩ := C81_restart_levels (motion .bdf2) 1 1 rfl 0 7 [] 0
    (1/2) (motion_startFree _ _ (by norm_num)) le_rfl (by norm_num) 4 1 (by norm_num) (one_dvd _)
  have e := motion_four .bdf2 [] S S' ys h1 h2
  simp only [motionYields] at e
  subst e
  obtain ⟨T, T', k1, k2, -⟩ := h4 (by simp; norm_num) 1 rfl
  norm_num at k2
  exact ⟨S, S', T, T', h1, h2, k1, k2⟩

/-- The file of the initial state is replaced when that run is restarted (`C81_fails_overwrite`). -/
example : ∃ S ys S' T zs T', (motion .implicitEuler).start 0 [] = .ok S ∧
    Session.script (motion .implicitEuler) (freshRun 0 (1/2) 4) S = .ok (ys, S') ∧
    (motion .implicitEuler).start 0 S'.files = .ok T ∧
    Session.script (motion .implicitEuler)
      [.step (1/2), .interval 1 2, .loadState 1, .loadLevels 1, .solve] T = .ok (zs, T') ∧
    S'.files.get? (.state (some 0)) = some (.inl 0) ∧
    T'.files.get? (.state (some 0)) = some (.inl 1) := by
  obtain ⟨S, ys, S', h1, h2, h3, h4⟩ := C81_fails_overwrite (motion .implicitEuler) (fun x => rfl)
    1 1 rfl 0 0 [] 0 (1/2) le_rfl (by norm_num) 4 1 (by norm_num) (one_dvd _) (one_dvd _)
  have e := motion_four .implicitEuler [] S S' ys h1 h2
  simp only [motionYields] at e
  subst e
  obtain ⟨T, T', k1, k2, k3⟩ := h4 (by simp; norm_num) 1 rfl
  norm_num at k2
  obtain ⟨k4, k5⟩ := k3 (by norm_num) 1 rfl
  exact ⟨S, _, S', T, _, T', h1, h2, k1, k2, k4, k5⟩

/-- **C81 fails** for `load_routine` alone: the run of four steps that ends at `u = 2` is restarted
at `t = 1` from its saved unknowns; it does not yield `3/2, 2` but starts again from the initial
state. -/
theorem C81_fails_state_only : ∃ S S' T T', (motion .implicitEuler).start 0 [] = .ok S ∧
    Session.script (motion .implicitEuler) (freshRun 0 (1/2) 4) S
      = .ok ([(1/2, 1/2), (1, 1), (3/2, 3/2), (2, 2)], S') ∧
    S'.files.get? (.state (some 1)) = some (.inl 1) ∧
    (motion .implicitEuler).start 0 S'.files = .ok T ∧
    Session.script (motion .implicitEuler) [.step (1/2), .interval 1 2, .loadState 1, .solve] T
      = .ok ([(3/2, 1/2), (2, 1)], T') := by
  obtain ⟨last, hl, hrun⟩ := freshRun_path (motion .implicitEuler) 0 [] 0 (1/2) 3 le_rfl (by norm_num)
  have e := motion_four .implicitEuler [] _ _ _ (start_at _ _ _) hrun
  have hy : ((motion .implicitEuler).path ((1/2 : ℚ) : ℝ) 0 0
      (stepTimes 0 (1/2) (setDigit (1/2)) (3 + 1))).map Prod.fst = [1/2, 1, 3/2, 2] := by
    have := congrArg (List.map Prod.fst) e
    simpa [List.map_map, Function.comp_def, motionYields] using this
  obtain ⟨p, q, hpq, hst, -, -⟩ := freshRun_step (motion .implicitEuler) 1 1 rfl 0 [] 0 (1/2)
    (by norm_num) 3 1 (by norm_num) last hl (by rw [hy]; norm_num) 1 (by rw [hy]; rfl)
  have hq : q = 1 := by
    have := congrArg (fun l : List (ℚ × ℝ) => l[1]?) e
    simp only [List.getElem?_map, hpq, Option.map_some, motionYields] at this
    simpa [Script.at] using this
  rw [e] at hrun
  obtain ⟨fs, hfs⟩ : ∃ fs : Dict GFile (ℝ ⊕ (Unit → ℝ)),
      ((motion .implicitEuler).allWrites 0 (1/2) 0 (stepTimes 0 (1/2) (setDigit (1/2)) (3 + 1))
        last 3).foldl (fun (d : Dict GFile (ℝ ⊕ (Unit → ℝ))) w => d.set w.1 w.2) [] = fs := ⟨_, rfl⟩
  rw [hfs] at hst hrun
  have hst' : fs.get? (.state (some 1)) = some (.inl (1 : ℝ)) := by rw [hst (one_dvd _), hq]
  obtain ⟨T, hT, hsame⟩ := C81_state_only (motion .implicitEuler) 0 fs 1 2 (1/2) 1
    (motion_startFree _ _ (by norm_num)) (by norm_num) (by norm_num) 1 hst'
  have hT0 := Except.ok.inj ((start_at (motion .implicitEuler) 0 fs).symm.trans hT)
  obtain ⟨last2, hl2, hrun2⟩ := freshRun_path (motion .implicitEuler) 0 fs 1 (1/2) 1 (by norm_num)
    (by norm_num)
  have ht2 : stepTimes 1 (1/2) (setDigit (1/2)) (1 + 1) = [(3/2, 3/2), (2, 2)] := by
    decide +kernel
  have hys : ((motion .implicitEuler).path ((1/2 : ℚ) : ℝ) 0 0
      (stepTimes 1 (1/2) (setDigit (1/2)) (1 + 1))).map (fun p => (p.1, p.2.x))
      = [(3/2, 1/2), (2, 1)] := by
    rw [ht2, motion_path _ _ (by norm_num), motion_path _ _ (by norm_num)]
    norm_num [Script.path, Script.at, motionNext]
  rw [hys] at hrun2
  have hfr : freshRun 1 (1/2) (1 + 1) = [.step (1/2), .interval 1 2, .solve] := by
    norm_num [freshRun]
  rw [hfr, hT0] at hrun2
  rw [hrun2] at hsame
  cases h5 : Session.script (motion .implicitEuler)
      [.step (1/2), .interval 1 2, .loadState 1, .solve] T with
  | error e => rw [h5] at hsame; simp [Except.map] at hsame
  | ok r =>
    obtain ⟨zs, T'⟩ := r
    rw [h5] at hsame
    have h6 := Except.ok.inj hsame
    simp only [Session.seen, Prod.mk.injEq] at h6
    refine ⟨_, _, T, T', start_at _ _ _, hrun, hst', hT, ?_⟩
    rw [h5, h6.1]

/-- **C81 fails** for a change of the time step with BDF2: uniform motion at speed one that went
from `u - h₁` to `u` with step `h₁` and goes on with step `h₂` moves by `(h₁ + 2h₂)/3`, which is
`h₂` only if the steps are equal. -/
theorem C81_fails_step_change (h1 h2 t : ℚ) (ht : 0 ≤ t) (hh2 : 0 < h2) (u : ℝ)
    (tm : Timer) (files : Dict GFile (ℝ ⊕ (Unit → ℝ))) :
    ∃ l x S', Session.script (motion .bdf2) [.step h2, .interval t (t + h2), .solve]
        ⟨tm, (motion .bdf2).at (u - h1) u, files⟩ = .ok ([(l, x)], S') ∧
      x = u + (h1 + 2 * h2) / 3 ∧ (x = u + h2 ↔ h1 = h2) := by
  have e1 : Session.exec (motion .bdf2)
      ⟨tm.setStep h2, (motion .bdf2).at (u - h1) u, files⟩ (.interval t (t + h2))
      = .ok ([], ⟨{ tm.setStep h2 with start := t, stop := t + h2 },
        (motion .bdf2).at (u - h1) u, files⟩) := by
    simp only [Session.exec]
    rw [setInterval_ok _ _ _ ht (by linarith)]
    rfl
  obtain ⟨last, hl, hs⟩ := solve_path (motion .bdf2)
    { tm.setStep h2 with start := t, stop := t + h2 } files (u - h1) u 0 hh2
    (by simp [Timer.setStep])
  have hp : (motion .bdf2).path (h2 : ℝ) (u - h1) u (stepTimes t h2 (setDigit h2) (0 + 1))
      = [(pyRoundDigits (t + h2) (setDigit h2),
          (motion .bdf2).at u (motionNext .bdf2 h2 (u - h1) u))] := by
    have : stepTimes t h2 (setDigit h2) (0 + 1)
        = [(t + h2, pyRoundDigits (t + h2) (setDigit h2))] := by
      simp [stepTimes, List.range_succ]
    rw [this, motion_path _ _ (by exact_mod_cast hh2)]
    rfl
  change Session.solve _ _ = Except.ok (List.map _ ((motion .bdf2).path (h2 : ℝ) (u - h1) u
    (stepTimes t h2 (setDigit h2) (0 + 1))), _) at hs
  rw [hp] at hs
  refine ⟨_, _, _, (script_silent _ (.step h2) _ _
    ⟨tm.setStep h2, (motion .bdf2).at (u - h1) u, files⟩ rfl).trans
      ((script_silent _ _ _ _ _ e1).trans ((script_solve_eq _ _).trans hs)), ?_, ?_⟩
  · simp only [motionNext, Script.at]; ring
  · simp only [motionNext, Script.at]
    constructor
    · intro h
      have : (h1 : ℝ) = h2 := by linarith
      exact_mod_cast this
    · intro h
      rw [h]; ring

/-- The hypotheses of `C81_split`: three intervals of one, two and one steps. -/
example (S : Session Unit ℝ) (hS : S.timer.step = 1/2) :
    (Session.script (motion .bdf2) [.interval 0 (1/2), .solve, .interval (1/2) (3/2), .solve,
        .interval (3/2) 2, .solve] S).map Session.seen
      = (Session.script (motion .bdf2) [.interval 0 2, .solve] S).map Session.seen := by
  have := C81_split (motion .bdf2) S 0 [1, 2, 1] (by simp) (by simp) le_rfl (by rw [hS]; norm_num)
  rw [hS] at this
  norm_num [pieces] at this
  exact this

/-- The hypotheses of `C81_other_files_partial`, `C81_first_file` and `C81_last_file`: a run over `[1, 2]` in a process whose
time parameter is at `0` leaves the file of time `1/2` alone and replaces that of time `0`. -/
example (files : Dict GFile (ℝ ⊕ (Unit → ℝ))) : ∃ ys S',
    Session.solve (motion .bdf2) ⟨newTimer 1 2 (1/2), (motion .bdf2).at 5 7, files⟩ = .ok (ys, S') ∧
    S'.files.get? (.state (some (1/2))) = files.get? (.state (some (1/2))) ∧
    S'.files.get? (.state (some 0)) = some (.inl 7) := by
  obtain ⟨last, hl, hs⟩ := solve_path (motion .bdf2) (newTimer 1 2 (1/2)) files 5 7 1
    (by norm_num [newTimer]) (by norm_num [newTimer])
  have ht2 : stepTimes 1 (1/2) (setDigit (1/2)) (1 + 1) = [(3/2, 3/2), (2, 2)] := by
    decide +kernel
  have hlab : (((motion .bdf2).path (((newTimer 1 2 (1/2)).step : ℚ) : ℝ) 5 7
      (stepTimes (newTimer 1 2 (1/2)).start (newTimer 1 2 (1/2)).step (newTimer 1 2 (1/2)).digit
        (1 + 1))).map fun p => (p.1, p.2.x)).map Prod.fst = [3/2, 2] := by
    change (List.map _ ((motion .bdf2).path _ 5 7
      (stepTimes 1 (1/2) (setDigit (1/2)) (1 + 1)))).map Prod.fst = _
    rw [ht2]
    rfl
  obtain ⟨ys, hys⟩ : ∃ ys, ((motion .bdf2).path (((newTimer 1 2 (1/2)).step : ℚ) : ℝ) 5 7
      (stepTimes (newTimer 1 2 (1/2)).start (newTimer 1 2 (1/2)).step (newTimer 1 2 (1/2)).digit
        (1 + 1))).map (fun p => (p.1, p.2.x)) = ys := ⟨_, rfl⟩
  rw [hys] at hs hlab
  have h0 : (newTimer 1 2 (1/2)).t = 0 := rfl
  have h1 := C81_other_files_partial (motion .bdf2) _ _ _ hs (.state (some (1/2)))
    (by simp only [h0, GFile.time]; norm_num) (by
      intro y hy
      have := List.mem_map_of_mem (f := Prod.fst) hy
      rw [hlab] at this
      simp only [List.mem_cons, List.not_mem_nil, or_false] at this
      rcases this with e | e <;> rw [e] <;> norm_num [GFile.time])
  have h2 := C81_first_file (motion .bdf2) 1 1 rfl _ _ _ hs (by
    simp only [h0]
    rw [hlab]
    norm_num)
  exact ⟨_, _, hs, h1, h2⟩

end Dream
