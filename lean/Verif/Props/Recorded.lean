import Verif.Spec.Recorded
import Verif.Props.Independent

/-!
# C104: tables of sensors over several runs
-/

set_option linter.unusedSectionVars false

noncomputable section

namespace Dream

open Spec

variable {ι X Y : Type}

/-! ## One run -/

theorem rows_due (x : X) (ys : List (ℚ × X)) (labels : List ℚ) (h : ys.map Prod.fst = labels)
    (T : ℚ) (r : ℕ) :
    ((schedule labels T r).map fun p => (some p.1, p.2)).map
        (fun q => TableLine.row q.1 (stateAfter x ys q.2))
      = ((T, x) :: due r ys).map fun y => TableLine.row (some y.1) y.2 := by
  subst h
  simp only [schedule, due, List.map_cons, List.map_map, List.length_map, stateAfter,
    List.cons.injEq, true_and]
  rw [List.zipIdx_map, List.filter_map, List.map_map]
  have e : ((fun x : ℚ × ℕ => decide (r ∣ x.2 ∨ x.2 + 1 = ys.length)) ∘ Prod.map Prod.fst id)
      = fun y : (ℚ × X) × ℕ => decide (r ∣ y.2 ∨ y.2 + 1 = ys.length) := by
    funext y; rfl
  rw [e]
  refine List.map_congr_left fun y hy => ?_
  have hm := List.mem_of_mem_filter hy
  have := List.mem_zipIdx_iff_getElem?.1 hm
  simp [this]

section
variable [AddCommGroup X] [Module ℝ X] [AddCommGroup Y]

/-- What solving adds to the file. -/
theorem exec_solve (c : Script ι X Y) (rate : ℕ) (streams : List SKind) (hd : streams.Nodup)
    (hsg : .ngsmesh ∉ streams ∧ .settings ∉ streams) (hv : .sensor ∈ streams)
    (R : Recording ι X) (ys : List (ℚ × X)) (S : Session ι X)
    (h : R.session.solve c = .ok (ys, S)) :
    R.exec c rate streams (.stmt .solve) = .ok (ys, { R with
      session := S
      lines := (if R.append then R.lines else [.header]) ++
        ((R.session.timer.t, R.session.run.x) :: due rate ys).map
          fun y => TableLine.row (some y.1) y.2 }) := by
  have h' := h
  simp only [Session.solve] at h'
  cases h1 : R.session.timer.run false 1 with
  | error e => rw [h1] at h'; cases h'
  | ok ts =>
    rw [h1] at h'
    change Except.bind (c.loop (R.session.timer.step : ℝ) 0 ts R.session.run) _ = _ at h'
    cases h2 : c.loop (R.session.timer.step : ℝ) 0 ts R.session.run with
    | error e => rw [h2] at h'; cases h'
    | ok q =>
      obtain ⟨ys1, ws, st⟩ := q
      rw [h2] at h'
      simp only [Except.bind] at h'
      obtain ⟨i1, -⟩ := loop_labels c _ _ _ _ _ _ _ h2
      cases h3 : ts.getLast? with
      | none => rw [h3] at h'; cases h'
      | some tl =>
        rw [h3] at h'
        have h4 := Prod.mk.inj (Except.ok.inj h')
        obtain ⟨rfl, -⟩ := h4
        have hne : ts ≠ [] := by rintro rfl; cases h3
        have hrec : records (sensorHooks rate) .sensor 0
            (transientRoutine (fun _ => none) streams false R.session.timer).trace = _ :=
          (C08_sensor streams false R.session.timer rate ts h1 hne hd hsg hv).2
        simp only [Recording.exec, h]
        show Except.ok _ = Except.ok _
        rw [hrec, rows_due R.session.run.x ys1 (ts.map Prod.snd) i1]

/-! ## Consecutive runs -/

theorem core_final (c : Script ι X Y) (dt : ℝ) (ts : List (ℚ × ℚ)) (st st' : RunState ι X)
    (ys : List (ℚ × X)) (h : c.core dt ts st = .ok (ys, st')) : st'.x = final st.x ys := by
  induction ts generalizing st ys with
  | nil =>
    simp only [Script.core, Except.ok.injEq, Prod.mk.injEq] at h
    rw [← h.1, ← h.2]; rfl
  | cons a ts ih =>
    obtain ⟨t, l⟩ := a
    simp only [Script.core] at h
    cases h1 : transientRound c.P c.s dt c.N st t with
    | error e => rw [h1] at h; cases h
    | ok st1 =>
      rw [h1] at h
      change Except.bind (c.core dt ts st1) _ = _ at h
      cases h2 : c.core dt ts st1 with
      | error e => rw [h2] at h; cases h
      | ok q =>
        rw [h2] at h
        simp only [Except.bind, Except.ok.injEq, Prod.mk.injEq] at h
        have hq := ih st1 q.1 (by rw [h2, ← h.2])
        rw [← h.1, hq]
        unfold final
        rw [List.getLast?_cons]
        cases q.1.getLast? <;> rfl

/-- One interval of a consecutive run. -/
theorem solve_piece (c : Script ι X Y) (S : Session ι X) (t0 h : ℚ) (n : ℕ) (hn : 1 ≤ n)
    (hh : 0 < h) (hS : S.timer.step = h) (ys : List (ℚ × X)) (st : RunState ι X)
    (hc : c.core h (stepTimes t0 h S.timer.digit n) S.run = .ok (ys, st)) :
    ∃ S', Session.solve c { S with timer := { S.timer with start := t0, stop := t0 + n * h } }
        = .ok (ys, S') ∧ S'.run = st ∧ S'.timer.t = t0 + n * h ∧ S'.timer.step = h ∧
      S'.timer.digit = S.timer.digit := by
  subst hS
  obtain ⟨S1, hS1⟩ : ∃ S1 : Session ι X,
    S1 = { S with timer := { S.timer with start := t0, stop := t0 + n * S.timer.step } } := ⟨_, rfl⟩
  have hsolve := solve_seen c S1 n hn (by rw [hS1]; exact hh) (by rw [hS1])
  have hc' : c.core S1.timer.step (stepTimes S1.timer.start S1.timer.step S1.timer.digit n) S1.run
      = .ok (ys, st) := by rw [hS1]; exact hc
  rw [hc'] at hsolve
  rw [← hS1]
  cases h2 : Session.solve c S1 with
  | error e => rw [h2] at hsolve; simp [Except.map] at hsolve
  | ok r =>
    rw [h2] at hsolve
    obtain ⟨zs, S2⟩ := r
    have hseen : (zs, S2.run, S2.timer.t) = (ys, st, S1.timer.stop) := by
      simpa [Except.map, Session.seen] using hsolve
    injection hseen with a b
    injection b with b d
    have htm := solve_timer c _ S2 zs h2
    refine ⟨S2, by rw [a], b, by rw [d, hS1], ?_, ?_⟩
    · rw [htm, hS1]
    · rw [htm, hS1]

theorem recording_cons (c : Script ι X Y) (rate : ℕ) (streams : List SKind) (a : TableStmt)
    (as : List TableStmt) (R R1 R2 : Recording ι X) (ys zs : List (ℚ × X))
    (h1 : R.exec c rate streams a = .ok (ys, R1))
    (h2 : Recording.script c rate streams as R1 = .ok (zs, R2)) :
    Recording.script c rate streams (a :: as) R = .ok (ys ++ zs, R2) := by
  simp only [Recording.script, h1]
  show Except.bind (Recording.script c rate streams as R1) _ = _
  rw [h2]
  rfl

/-- The rows of consecutive runs in one process that append to the file. -/
theorem script_rows (c : Script ι X Y) (rate : ℕ) (streams : List SKind) (hd : streams.Nodup)
    (hsg : .ngsmesh ∉ streams ∧ .settings ∉ streams) (hv : .sensor ∈ streams) (h : ℚ) (hh : 0 < h)
    (ns : List ℕ) (hns : ∀ n ∈ ns, 1 ≤ n) (t0 : ℚ) (ht0 : 0 ≤ t0) (R : Recording ι X)
    (hS : R.session.timer.step = h) (ha : R.append = true) (ys : List (ℚ × X)) (st : RunState ι X)
    (hc : c.core h (stepTimes t0 h R.session.timer.digit ns.sum) R.session.run = .ok (ys, st)) :
    ∃ R', Recording.script c rate streams ((pieces t0 h ns).map .stmt) R = .ok (ys, R') ∧
      R'.session.run = st ∧
      R'.lines = R.lines ++ (tables rate h R.session.timer.t R.session.run.x t0 ns ys).map
        fun y => TableLine.row (some y.1) y.2 := by
  induction ns generalizing t0 R ys with
  | nil =>
    simp only [List.sum_nil, stepTimes, List.range_zero, List.map_nil, Script.core,
      Except.ok.injEq, Prod.mk.injEq] at hc
    exact ⟨R, by rw [← hc.1]; rfl, hc.2, by simp [tables]⟩
  | cons n ns ih =>
    have hn : 1 ≤ n := hns n (by simp)
    have hnq : (1 : ℚ) ≤ n := by exact_mod_cast hn
    have hpos : t0 < t0 + n * h := by nlinarith
    rw [List.sum_cons, stepTimes_add, core_append] at hc
    cases h1 : c.core h (stepTimes t0 h R.session.timer.digit n) R.session.run with
    | error e => rw [h1] at hc; cases hc
    | ok q =>
      obtain ⟨y1, s1⟩ := q
      rw [h1] at hc
      simp only [Except.bind] at hc
      cases h2 : c.core h (stepTimes (t0 + n * h) h R.session.timer.digit ns.sum) s1 with
      | error e => rw [h2] at hc; cases hc
      | ok q =>
        obtain ⟨y2, s2⟩ := q
        rw [h2] at hc
        simp only [Except.map, Except.ok.injEq, Prod.mk.injEq] at hc
        obtain ⟨rfl, rfl⟩ := hc
        obtain ⟨S', k1, k2, k3, k4, k5⟩ := solve_piece c R.session t0 h n hn hh hS y1 s1 h1
        set R1 : Recording ι X := { R with session := { R.session with
          timer := { R.session.timer with start := t0, stop := t0 + n * h } } } with hR1
        have e1 : R.exec c rate streams (.stmt (.interval t0 (t0 + n * h))) = .ok ([], R1) := by
          simp only [Recording.exec, Session.exec, setInterval_ok R.session.timer t0 _ ht0 hpos]
          rfl
        have e2 := exec_solve c rate streams hd hsg hv R1 y1 S' k1
        rw [show R1.append = true from ha, if_pos rfl] at e2
        set R2 : Recording ι X := {
          session := S'
          append := true
          lines := R1.lines ++ ((R1.session.timer.t, R1.session.run.x) :: due rate y1).map
            fun y => TableLine.row (some y.1) y.2 } with hR2
        obtain ⟨R', j1, j2, j3⟩ := ih (fun m hm => hns m (by simp [hm])) (t0 + n * h) (by linarith)
          R2 k4 rfl y2 (by rw [show R2.session.run = s1 from k2,
            show R2.session.timer.digit = R.session.timer.digit from k5]; exact h2)
        refine ⟨R', ?_, j2, ?_⟩
        · exact recording_cons c rate streams _ _ R R1 R' [] _ e1
            (recording_cons c rate streams _ _ R1 R2 R' y1 y2 e2 j1)
        · have hlen : y1.length = n := by
            have := congrArg List.length (core_labels c _ _ _ _ h1)
            simpa [stepTimes_length] using this
          have hfin := core_final c _ _ _ _ _ h1
          rw [j3]
          simp only [tables, List.take_left' hlen, List.drop_left' hlen]
          rw [show R2.session.timer.t = t0 + n * h from k3, show R2.session.run.x = s1.x by rw [← k2],
            hfin]
          simp [hR2, hR1]

/-- The statements of a user who solves over consecutive intervals of `n₁, n₂, …` steps and, after
the first one, tells the sensors to append to their files. -/
def tableScript (t0 h : ℚ) (n : ℕ) (ns : List ℕ) : List TableStmt :=
  .stmt (.interval t0 (t0 + n * h)) :: .stmt .solve :: .mode true ::
    (pieces (t0 + n * h) h ns).map .stmt

/-- **C104** One run, whatever state and time a script has reached and whatever was in the file: the
table consists of the header, a row of the time of the timer and the state the run starts from, and
the rows of every `r`-th step, counted from the first, and of the last one. In mode `'a'` the rows
follow what was in the file and no header is written. -/
theorem C104_whole (c : Script ι X Y) (rate : ℕ) (streams : List SKind) (hd : streams.Nodup)
    (hsg : .ngsmesh ∉ streams ∧ .settings ∉ streams) (hv : .sensor ∈ streams) (R : Recording ι X)
    (t0 : ℚ) (ht0 : 0 ≤ t0) (n : ℕ) (hn : 1 ≤ n) (hh : 0 < R.session.timer.step)
    (ys : List (ℚ × X)) (S' : Session ι X)
    (h : Session.script c [.interval t0 (t0 + n * R.session.timer.step), .solve] R.session
      = .ok (ys, S')) :
    Recording.script c rate streams
        [.stmt (.interval t0 (t0 + n * R.session.timer.step)), .stmt .solve] R
      = .ok (ys, { R with
          session := S'
          lines := (if R.append then R.lines else [.header]) ++
            ((R.session.timer.t, R.session.run.x) :: due rate ys).map
              fun y => TableLine.row (some y.1) y.2 }) := by
  have hnq : (1 : ℚ) ≤ n := by exact_mod_cast hn
  have hpos : t0 < t0 + n * R.session.timer.step := by nlinarith
  set S1 : Session ι X := { R.session with timer :=
    { R.session.timer with start := t0, stop := t0 + n * R.session.timer.step } } with hS1
  have e0 : Session.exec c R.session (.interval t0 (t0 + n * R.session.timer.step))
      = .ok ([], S1) := by
    simp only [Session.exec, setInterval_ok R.session.timer t0 _ ht0 hpos]
    rfl
  have h1 := (script_silent c _ [.solve] _ S1 e0).symm.trans h
  rw [script_solve_eq] at h1
  have e1 : R.exec c rate streams (.stmt (.interval t0 (t0 + n * R.session.timer.step)))
      = .ok ([], { R with session := S1 }) := by
    simp only [Recording.exec, e0]
    rfl
  have e2 := exec_solve c rate streams hd hsg hv { R with session := S1 } ys S' h1
  have := recording_cons c rate streams _ _ R _ _ [] _ e1
    (recording_cons c rate streams _ [] _ _ _ ys [] e2 rfl)
  simpa using this

theorem whole_core (c : Script ι X Y) (S : Session ι X) (t0 : ℚ) (ht0 : 0 ≤ t0) (N : ℕ)
    (hN : 1 ≤ N) (hh : 0 < S.timer.step) (ys : List (ℚ × X)) (S' : Session ι X)
    (h : Session.script c [.interval t0 (t0 + N * S.timer.step), .solve] S = .ok (ys, S')) :
    c.core S.timer.step (stepTimes t0 S.timer.step S.timer.digit N) S.run = .ok (ys, S'.run) := by
  have hNq : (1 : ℚ) ≤ N := by exact_mod_cast hN
  have hpos : t0 < t0 + N * S.timer.step := by nlinarith
  obtain ⟨S1, hS1⟩ : ∃ S1 : Session ι X, S1 = { S with timer :=
    { S.timer with start := t0, stop := t0 + N * S.timer.step } } := ⟨_, rfl⟩
  have e0 : Session.exec c S (.interval t0 (t0 + N * S.timer.step)) = .ok ([], S1) := by
    simp only [Session.exec, setInterval_ok S.timer t0 _ ht0 hpos, hS1]
    rfl
  have h1 := (script_silent c _ [.solve] _ S1 e0).symm.trans h
  rw [script_solve_eq] at h1
  have hsolve := solve_seen c S1 N hN (by rw [hS1]; exact hh) (by rw [hS1])
  rw [h1] at hsolve
  have e : c.core S1.timer.step (stepTimes S1.timer.start S1.timer.step S1.timer.digit N) S1.run
      = c.core S.timer.step (stepTimes t0 S.timer.step S.timer.digit N) S.run := by
    rw [hS1]
  rw [e] at hsolve
  cases h2 : c.core S.timer.step (stepTimes t0 S.timer.step S.timer.digit N) S.run with
  | error e => rw [h2] at hsolve; cases hsolve
  | ok q =>
    rw [h2] at hsolve
    simp only [Except.map, Session.seen, Except.ok.injEq, Prod.mk.injEq] at hsolve
    rw [hsolve.1, hsolve.2.1]

/-- **C104** Consecutive runs. Whatever solver and whatever state a script has reached: if solving
over the whole interval at once yields `ys`, then solving over consecutive intervals of
`n₁, n₂, …` steps, with the sensors told to append after the first run, yields `ys` too, and the
table consists of the header and, for each run, a row of the state it starts from and the steps that
are due in it. -/
theorem C104_split (c : Script ι X Y) (rate : ℕ) (streams : List SKind) (hd : streams.Nodup)
    (hsg : .ngsmesh ∉ streams ∧ .settings ∉ streams) (hv : .sensor ∈ streams) (R : Recording ι X)
    (ha : R.append = false) (t0 : ℚ) (ht0 : 0 ≤ t0) (n : ℕ) (ns : List ℕ)
    (hns : ∀ m ∈ n :: ns, 1 ≤ m) (hh : 0 < R.session.timer.step)
    (ys : List (ℚ × X)) (S' : Session ι X)
    (h : Session.script c [.interval t0 (t0 + (n :: ns).sum * R.session.timer.step), .solve]
      R.session = .ok (ys, S')) :
    ∃ R', Recording.script c rate streams (tableScript t0 R.session.timer.step n ns) R
        = .ok (ys, R') ∧ R'.session.run = S'.run ∧
      R'.lines = .header :: (tables rate R.session.timer.step R.session.timer.t R.session.run.x t0
        (n :: ns) ys).map fun y => TableLine.row (some y.1) y.2 := by
  set h0 := R.session.timer.step with hh0
  have hsum : 1 ≤ (n :: ns).sum := by
    have := hns n (by simp)
    rw [List.sum_cons]; omega
  have hc := whole_core c R.session t0 ht0 (n :: ns).sum hsum hh ys S' h
  -- the first piece
  rw [List.sum_cons, stepTimes_add, core_append] at hc
  have hn : 1 ≤ n := hns n (by simp)
  have hnq : (1 : ℚ) ≤ n := by exact_mod_cast hn
  have hpos1 : t0 < t0 + n * h0 := by nlinarith
  cases h2 : c.core h0 (stepTimes t0 h0 R.session.timer.digit n) R.session.run with
  | error e => rw [h2] at hc; cases hc
  | ok q =>
    obtain ⟨y1, s1⟩ := q
    rw [h2] at hc
    simp only [Except.bind] at hc
    cases h3 : c.core h0 (stepTimes (t0 + n * h0) h0 R.session.timer.digit ns.sum) s1 with
    | error e => rw [h3] at hc; cases hc
    | ok q =>
      obtain ⟨y2, s2⟩ := q
      rw [h3] at hc
      simp only [Except.map, Except.ok.injEq, Prod.mk.injEq] at hc
      obtain ⟨rfl, hs2⟩ := hc
      obtain ⟨S2, k1, k2, k3, k4, k5⟩ := solve_piece c R.session t0 h0 n hn hh rfl y1 s1 h2
      set R1 : Recording ι X := { R with session := { R.session with
        timer := { R.session.timer with start := t0, stop := t0 + n * h0 } } } with hR1
      have e1 : R.exec c rate streams (.stmt (.interval t0 (t0 + n * h0))) = .ok ([], R1) := by
        simp only [Recording.exec, Session.exec, setInterval_ok R.session.timer t0 _ ht0 hpos1]
        rfl
      have e2 := exec_solve c rate streams hd hsg hv R1 y1 S2 k1
      rw [show R1.append = false from ha, if_neg Bool.false_ne_true] at e2
      set L : List (TableLine X) := [.header] ++
        ((R1.session.timer.t, R1.session.run.x) :: due rate y1).map
          fun y => TableLine.row (some y.1) y.2 with hL
      obtain ⟨R', j1, j2, j3⟩ := script_rows c rate streams hd hsg hv h0 hh ns
        (fun m hm => hns m (by simp [hm])) (t0 + n * h0) (by linarith)
        { session := S2, append := true, lines := L } k4 rfl y2 s2
        (by show c.core h0 (stepTimes _ h0 S2.timer.digit _) S2.run = _
            rw [k2, k5]; exact h3)
      refine ⟨R', ?_, j2.trans hs2, ?_⟩
      · exact recording_cons c rate streams _ _ R R1 R' [] _ e1
          (recording_cons c rate streams _ _ R1 _ R' y1 y2 e2
            (recording_cons c rate streams _ _ _ _ R' [] y2 rfl j1))
      · have hlen : y1.length = n := by
          have := congrArg List.length (core_labels c _ _ _ _ h2)
          simpa [stepTimes_length] using this
        have hfin := core_final c _ _ _ _ _ h2
        rw [j3]
        simp only [tables, List.take_left' hlen, List.drop_left' hlen]
        rw [k3, k2, hfin]
        simp [hL, hR1]

/-! ## What the tables contain -/

theorem filter_sublist_of_imp {α : Type} (p q : α → Bool) (l : List α)
    (h : ∀ a ∈ l, p a → q a) : (l.filter p).Sublist (l.filter q) := by
  induction l with
  | nil => simp
  | cons a l ih =>
    have := ih fun b hb => h b (by simp [hb])
    have ha := h a (by simp)
    cases hp : p a <;> cases hq : q a
    · simpa [List.filter_cons, hp, hq] using this
    · simpa [List.filter_cons, hp, hq] using this.cons a
    · simp [hp, hq] at ha
    · simpa [List.filter_cons, hp, hq] using this

theorem due_append (r : ℕ) (l₁ l₂ : List (ℚ × X)) (h : l₂ = [] ∨ r ∣ l₁.length) :
    (due r (l₁ ++ l₂)).Sublist (due r l₁ ++ due r l₂) := by
  rcases h with rfl | h
  · simp [due]
  · unfold due
    rw [List.zipIdx_append, List.filter_append, List.map_append]
    refine List.Sublist.append ?_ ?_
    · apply List.Sublist.map
      refine filter_sublist_of_imp _ _ _ ?_
      rintro ⟨y, i⟩ hm hp
      have hi : i < l₁.length := by
        have := List.mem_zipIdx hm
        omega
      simp only [decide_eq_true_eq, List.length_append] at hp ⊢
      omega
    · rw [zero_add, List.zipIdx_eq_map_add (l := l₂) (i := l₁.length), List.filter_map,
        List.map_map]
      have e : (Prod.fst ∘ fun x : (ℚ × X) × ℕ => (x.1, l₁.length + x.2)) = Prod.fst := by
        funext x; rfl
      rw [e]
      apply List.Sublist.map
      refine filter_sublist_of_imp _ _ _ ?_
      rintro ⟨y, i⟩ - hp
      simp only [Function.comp_apply, decide_eq_true_eq, List.length_append] at hp ⊢
      rcases hp with hp | hp
      · exact .inl ((Nat.dvd_add_right h).1 hp)
      · right; omega

/-- **C104** Nothing is lost if the rate divides the numbers of steps of all runs but the last: all
rows of the table of the whole run are in the table of the consecutive runs, in the same order.
Missing: other rates (`C104_fails_rate`), the default mode (`C104_fails_default`). -/
theorem C104_complete_partial (r : ℕ) (h T : ℚ) (x : X) (s : ℚ) (ns : List ℕ) (hne : ns ≠ [])
    (hr : ∀ n ∈ ns.dropLast, r ∣ n) (ys : List (ℚ × X)) (hys : ys.length = ns.sum) :
    ((T, x) :: due r ys).Sublist (tables r h T x s ns ys) := by
  induction ns generalizing T x s ys with
  | nil => exact absurd rfl hne
  | cons n ns ih =>
    simp only [tables, List.cons_append]
    refine List.Sublist.cons_cons _ ?_
    have hlen : (ys.take n).length = n := by
      rw [List.length_take, hys, List.sum_cons]; omega
    by_cases hns : ns = []
    · subst hns
      have : ys.take n = ys := List.take_of_length_le (by simp [hys])
      simp [this]
    · have hn : r ∣ n := hr n (by simp [List.dropLast_cons_of_ne_nil hns])
      have h1 := due_append r (ys.take n) (ys.drop n) (.inr (by rwa [hlen]))
      rw [List.take_append_drop] at h1
      refine h1.trans (List.Sublist.append_left ?_ _)
      have := ih (s + n * h) (final x (ys.take n)) (s + n * h) hns
        (fun m hm => hr m (by simp [List.dropLast_cons_of_ne_nil hns, hm])) (ys.drop n)
        (by rw [List.length_drop, hys, List.sum_cons]; omega)
      exact (List.sublist_cons_self _ _).trans this

theorem due_mem (r : ℕ) (ys : List (ℚ × X)) (y : ℚ × X) (h : y ∈ due r ys) : y ∈ ys := by
  obtain ⟨z, hz, rfl⟩ := List.mem_map.1 h
  exact List.fst_mem_of_mem_zipIdx (List.mem_of_mem_filter hz)

/-- **C104** Nothing is invented: a row of the table of consecutive runs is the row of the start, the
row of a step, or repeats the state after `k` steps at the time `start + k h` at which a run
starts. -/
theorem C104_true (r : ℕ) (h T : ℚ) (x : X) (s : ℚ) (ns : List ℕ) (hns : ∀ n ∈ ns, 1 ≤ n)
    (ys : List (ℚ × X)) (hys : ys.length = ns.sum) (y : ℚ × X) (hy : y ∈ tables r h T x s ns ys) :
    y = (T, x) ∨ y ∈ ys ∨ ∃ k, (∃ j, 0 < j ∧ j < ns.length ∧ k + 1 = (ns.take j).sum) ∧
      y.1 = s + ((k : ℚ) + 1) * h ∧ (ys[k]?).map Prod.snd = some y.2 := by
  induction ns generalizing T x s ys with
  | nil => simp [tables] at hy
  | cons n ns ih =>
    have hn := hns n (by simp)
    simp only [tables, List.cons_append, List.mem_cons, List.mem_append] at hy
    rw [List.sum_cons] at hys
    rcases hy with hy | hy | hy
    · exact .inl hy
    · exact .inr (.inl (List.mem_of_mem_take (due_mem r _ y hy)))
    · right
      have hlast : (ys[n - 1]?).map Prod.snd = some (final x (ys.take n)) := by
        have hlen : (ys.take n).length = n := by rw [List.length_take]; omega
        unfold final
        rw [List.getLast?_eq_getElem?, hlen, List.getElem?_take_of_lt (by omega)]
        have : n - 1 < ys.length := by omega
        simp [this]
      rcases ih (s + n * h) (final x (ys.take n)) (s + n * h) (fun m hm => hns m (by simp [hm]))
        (ys.drop n) (by rw [List.length_drop]; omega) hy with e | e | ⟨k, ⟨j, h1, h2, h3⟩, h4, h5⟩
      · right
        have hne : ns ≠ [] := by rintro rfl; simp [tables] at hy
        refine ⟨n - 1, ⟨1, one_pos, by simpa using List.length_pos_iff.2 hne, by simp; omega⟩, ?_, ?_⟩
        · have : ((n - 1 : ℕ) : ℚ) + 1 = n := by
            rw [Nat.cast_sub hn]; push_cast; ring
          rw [e, this]
        · rw [e]; exact hlast
      · exact .inl (List.mem_of_mem_drop e)
      · refine .inr ⟨n + k, ⟨j + 1, by omega, by simpa using h2, by simp; omega⟩, ?_, ?_⟩
        · rw [h4]; push_cast; ring
        · rw [← h5, List.getElem?_drop]

theorem due_one (l : List (ℚ × X)) : due 1 l = l := by
  simp [due]

/-- **C104** With rate 1 the table of consecutive runs has exactly one row more for each run after
the first. -/
theorem C104_rate_one (h T : ℚ) (x : X) (s : ℚ) (ns : List ℕ) (ys : List (ℚ × X))
    (hys : ys.length = ns.sum) : (tables 1 h T x s ns ys).length = ys.length + ns.length := by
  induction ns generalizing T x s ys with
  | nil => simp [tables, hys]
  | cons n ns ih =>
    rw [List.sum_cons] at hys
    simp only [tables, due_one, List.cons_append, List.length_cons, List.length_append,
      List.length_take]
    rw [ih _ _ _ _ (by rw [List.length_drop]; omega), List.length_drop]
    omega

/-! ## What is lost -/

/-- **C104 fails** in mode `'w'`, the default: of two consecutive runs in one process, the rows of the
first one are gone after the second one. -/
theorem C104_fails_default (c : Script ι X Y) (rate : ℕ) (streams : List SKind)
    (hd : streams.Nodup) (hsg : .ngsmesh ∉ streams ∧ .settings ∉ streams) (hv : .sensor ∈ streams)
    (R : Recording ι X) (ha : R.append = false) (t0 : ℚ) (ht0 : 0 ≤ t0) (n m : ℕ) (hn : 1 ≤ n)
    (hm : 1 ≤ m) (hh : 0 < R.session.timer.step) (ys : List (ℚ × X)) (S' : Session ι X)
    (h : Session.script c [.interval t0 (t0 + (n + m : ℕ) * R.session.timer.step), .solve]
      R.session = .ok (ys, S')) :
    ∃ R', Recording.script c rate streams ((pieces t0 R.session.timer.step [n, m]).map .stmt) R
        = .ok (ys, R') ∧
      R'.lines = .header :: ((t0 + n * R.session.timer.step, final R.session.run.x (ys.take n)) ::
        due rate (ys.drop n)).map fun y => TableLine.row (some y.1) y.2 := by
  have hc := whole_core c R.session t0 ht0 (n + m) (by omega) hh ys S' h
  set h0 := R.session.timer.step with hh0
  have hnq : (1 : ℚ) ≤ n := by exact_mod_cast hn
  have hmq : (1 : ℚ) ≤ m := by exact_mod_cast hm
  have hpos1 : t0 < t0 + n * h0 := by nlinarith
  have hpos2 : t0 + n * h0 < t0 + n * h0 + m * h0 := by nlinarith
  rw [stepTimes_add, core_append] at hc
  cases h2 : c.core h0 (stepTimes t0 h0 R.session.timer.digit n) R.session.run with
  | error e => rw [h2] at hc; cases hc
  | ok q =>
    obtain ⟨y1, s1⟩ := q
    rw [h2] at hc
    simp only [Except.bind] at hc
    cases h3 : c.core h0 (stepTimes (t0 + n * h0) h0 R.session.timer.digit m) s1 with
    | error e => rw [h3] at hc; cases hc
    | ok q =>
      obtain ⟨y2, s2⟩ := q
      rw [h3] at hc
      simp only [Except.map, Except.ok.injEq, Prod.mk.injEq] at hc
      obtain ⟨rfl, hs2⟩ := hc
      obtain ⟨S2, k1, k2, k3, k4, k5⟩ := solve_piece c R.session t0 h0 n hn hh rfl y1 s1 h2
      set R1 : Recording ι X := { R with session := { R.session with
        timer := { R.session.timer with start := t0, stop := t0 + n * h0 } } } with hR1
      have e1 : R.exec c rate streams (.stmt (.interval t0 (t0 + n * h0))) = .ok ([], R1) := by
        simp only [Recording.exec, Session.exec, setInterval_ok R.session.timer t0 _ ht0 hpos1]
        rfl
      have e2 := exec_solve c rate streams hd hsg hv R1 y1 S2 k1
      generalize (if R1.append = true then R1.lines else [TableLine.header]) ++ _ = L at e2
      obtain ⟨S3, l1, l2, l3, l4, l5⟩ := solve_piece c S2 (t0 + n * h0) h0 m hm hh k4 y2 s2
        (by rw [k2, k5]; exact h3)
      set R3 : Recording ι X := { session := { S2 with
        timer := { S2.timer with start := t0 + n * h0, stop := t0 + n * h0 + m * h0 } }
                                  append := R1.append, lines := L } with hR3
      have e3 : Recording.exec c rate streams { session := S2, append := R1.append, lines := L }
          (.stmt (.interval (t0 + n * h0) (t0 + n * h0 + m * h0))) = .ok ([], R3) := by
        simp only [Recording.exec, Session.exec,
          setInterval_ok S2.timer (t0 + n * h0) _ (by linarith) hpos2]
        rfl
      have e4 := exec_solve c rate streams hd hsg hv R3 y2 S3 l1
      rw [if_neg (by show ¬ R.append = true; rw [ha]; exact Bool.false_ne_true)] at e4
      have e5 := recording_cons c rate streams _ [] _ _ _ y2 [] e4 rfl
      rw [List.append_nil] at e5
      refine ⟨_, recording_cons c rate streams _ _ R R1 _ [] _ e1
          (recording_cons c rate streams _ _ R1 _ _ y1 y2 e2
            (recording_cons c rate streams _ _ _ _ _ [] y2 e3 e5)), ?_⟩
      · have hlen : y1.length = n := by
          have := congrArg List.length (core_labels c _ _ _ _ h2)
          simpa [stepTimes_length] using this
        have hfin := core_final c _ _ _ _ _ h2
        rw [List.take_left' hlen, List.drop_left' hlen, ← hfin, ← k2, ← k3]
        rfl

theorem script_lift (c : Script ι X Y) (rate : ℕ) (streams : List SKind) (as : List Stmt)
    (has : ∀ a ∈ as, a ≠ .solve) (R : Recording ι X) (ys : List (ℚ × X)) (S' : Session ι X)
    (h : Session.script c as R.session = .ok (ys, S')) (bs : List TableStmt)
    (zs : List (ℚ × X)) (R' : Recording ι X)
    (h' : Recording.script c rate streams bs { R with session := S' } = .ok (zs, R')) :
    Recording.script c rate streams (as.map .stmt ++ bs) R = .ok (ys ++ zs, R') := by
  induction as generalizing R ys with
  | nil =>
    simp only [Session.script, Except.ok.injEq, Prod.mk.injEq] at h
    obtain ⟨rfl, rfl⟩ := h
    exact h'
  | cons a as ih =>
    simp only [Session.script] at h
    cases h1 : R.session.exec c a with
    | error e => rw [h1] at h; cases h
    | ok q =>
      obtain ⟨y1, S1⟩ := q
      rw [h1] at h
      change Except.bind (Session.script c as S1) _ = _ at h
      cases h2 : Session.script c as S1 with
      | error e => rw [h2] at h; cases h
      | ok q =>
        obtain ⟨y2, S2⟩ := q
        rw [h2] at h
        simp only [Except.bind, Except.ok.injEq, Prod.mk.injEq] at h
        obtain ⟨rfl, rfl⟩ := h
        have e : R.exec c rate streams (.stmt a) = .ok (y1, { R with session := S1 }) := by
          have : a ≠ .solve := has a (by simp)
          cases a with
          | solve => exact absurd rfl this
          | _ => simp only [Recording.exec, h1]; rfl
        rw [List.append_assoc]
        exact recording_cons c rate streams _ _ R _ _ y1 _ e
          (ih (fun b hb => has b (by simp [hb])) { R with session := S1 } y2 h2 h')

/-- **C104 fails** when a run is resumed in a new process from the files it saved, with the sensors
told to append: the steps that follow are recorded as expected, but before them stands a row with
time `0` and the state of the time the run is resumed at. -/
theorem C104_fails_resumed (c : Script ι X Y) (hput : ∀ x, c.put (c.P.comp x) x = x)
    (rate tlRate : ℕ) (hc : c.stream = some (rate, tlRate)) (r : ℕ) (streams : List SKind)
    (hd : streams.Nodup) (hsg : .ngsmesh ∉ streams ∧ .settings ∉ streams) (hv : .sensor ∈ streams)
    (x0 x0' : X) (files : Dict GFile (X ⊕ (ι → ℝ)))
    (t0 h : ℚ) (ht0 : 0 ≤ t0) (hh : 0 < h) (n i : ℕ) (hi : i + 1 < n) (hr : rate ∣ i)
    (htl : tlRate ∣ i) :
    ∃ S ys S', c.start x0 files = .ok S ∧ Session.script c (freshRun t0 h n) S = .ok (ys, S') ∧
      ys.length = n ∧
      ((ys.map Prod.fst).Nodup → ∀ L x, ys[i]? = some (L, x) →
        ∃ T, c.start x0' S'.files = .ok T ∧ ∀ table, ∃ R',
          Recording.script c r streams (.mode true :: [Stmt.step h,
            .interval (t0 + ((i : ℚ) + 1) * h) (t0 + n * h), .loadState L, .loadLevels L].map .stmt
              ++ [.stmt .solve]) { session := T, lines := table } = .ok (ys.drop (i + 1), R') ∧
          R'.lines = table ++ ((0, x) :: due r (ys.drop (i + 1))).map
            fun y => TableLine.row (some y.1) y.2) := by
  obtain ⟨m, rfl⟩ : ∃ m, n = m + 1 := ⟨n - 1, by omega⟩
  obtain ⟨last, hl, hrun⟩ := freshRun_path c x0 files t0 h m ht0 hh
  refine ⟨_, _, _, start_at c x0 files, hrun, by simp [path_length, stepTimes_length], ?_⟩
  intro hnd L x hL
  simp only [List.map_map, Function.comp_def] at hnd
  have hL' : ((c.path h x0 x0 (stepTimes t0 h (setDigit h) (m + 1))).map Prod.fst)[i]? = some L := by
    have := congrArg (Option.map Prod.fst) hL
    simpa [Function.comp_def] using this
  obtain ⟨p, q, hpq, hstate, hlevel, hrest⟩ := freshRun_step c rate tlRate hc x0 files t0 h hh m i
    (by omega) last hl hnd L hL'
  have hx : x = q := by
    simp only [List.getElem?_map, hpq, Option.map_some, Option.some.injEq, Prod.mk.injEq] at hL
    exact hL.2.symm
  subst hx
  set fs := (c.allWrites 0 h x0 (stepTimes t0 h (setDigit h) (m + 1)) last m).foldl
      (fun d w => d.set w.1 w.2) files with hfs
  obtain ⟨T', hT, -, -⟩ := hrest fs
  have hpos : t0 + ((i : ℚ) + 1) * h < t0 + (m + 1 : ℕ) * h := by
    have : (i : ℚ) + 1 < (m + 1 : ℕ) := by exact_mod_cast hi
    nlinarith
  have hstart : 0 ≤ t0 + ((i : ℚ) + 1) * h := by positivity
  refine ⟨_, start_at c x0' fs, fun table => ?_⟩
  have e1 : Session.exec c ⟨newTimer (t0 + ((i : ℚ) + 1) * h) (t0 + (m + 1 : ℕ) * h) h,
        c.at x0' x0', fs⟩ (.loadState L) = .ok ([], ⟨newTimer (t0 + ((i : ℚ) + 1) * h)
          (t0 + (m + 1 : ℕ) * h) h,
        ⟨x, (c.s.levelsOf (c.P.comp x0') (c.P.comp x0')).set "n+1" (c.P.comp x)⟩, fs⟩) := by
    simp only [Session.exec, Session.loadState, hstate hr]
    rfl
  have e2 : Session.exec c ⟨newTimer (t0 + ((i : ℚ) + 1) * h) (t0 + (m + 1 : ℕ) * h) h,
        ⟨x, (c.s.levelsOf (c.P.comp x0') (c.P.comp x0')).set "n+1" (c.P.comp x)⟩, fs⟩
        (.loadLevels L) = .ok ([], ⟨newTimer (t0 + ((i : ℚ) + 1) * h)
          (t0 + (m + 1 : ℕ) * h) h, c.at p x, fs⟩) := by
    simp only [Session.exec, Session.loadLevels]
    rw [loadLevels_at c fs L (c.P.comp p) (c.P.comp x) _ _ _ _ (hlevel htl), hput]
    rfl
  have e3 := script_setup c _ _ h hstart hpos _ _ _ (_, _)
    (script_cons c _ _ _ _ _ [] _ e1 (script_cons c _ [] _ _ _ [] [] e2 rfl))
  have e4 := exec_solve c r streams hd hsg hv { session := ⟨newTimer (t0 + ((i : ℚ) + 1) * h)
          (t0 + (m + 1 : ℕ) * h) h, c.at p x, fs⟩, append := true, lines := table } _ _ hT
  have e5 := recording_cons c r streams _ [] _ _ _ _ [] e4 rfl
  rw [List.append_nil] at e5
  refine ⟨_, recording_cons c r streams _ _ _ _ _ [] _ rfl
    (script_lift c r streams _ (by simp) { session := _, append := true, lines := table } [] _ e3 _
      _ _ e5), ?_⟩
  rfl

end

/-! ## Concrete cases: uniform motion -/

/-- A new process with the step `1/2` and an empty table. -/
def motionTable : Recording Unit ℝ :=
  { session := ⟨Timer.default.setStep (1/2), (motion .implicitEuler).at 0 0, []⟩ }

theorem motionTable_whole : ∃ S', Session.script (motion .implicitEuler)
    [.interval 0 (0 + (4 : ℕ) * motionTable.session.timer.step), .solve] motionTable.session
      = .ok (motionYields .implicitEuler, S') := by
  obtain ⟨last, hl, hrun⟩ := freshRun_path (motion .implicitEuler) 0 [] 0 (1/2) 3 le_rfl
    (by norm_num)
  have e := motion_four .implicitEuler [] _ _ _ (start_at _ _ _) hrun
  rw [e] at hrun
  exact ⟨_, (script_silent (motion .implicitEuler) (.step (1/2)) _ _ _ rfl).symm.trans hrun⟩

/-- The table of one run of four steps, every second of which is recorded: the steps `1/2` and `3/2`
and the last one. -/
example : ∃ R', Recording.script (motion .implicitEuler) 2 [.sensor]
    [.stmt (.interval 0 (0 + (4 : ℕ) * motionTable.session.timer.step)), .stmt .solve] motionTable
      = .ok (motionYields .implicitEuler, R') ∧
    R'.lines = [.header, .row (some 0) 0, .row (some (1/2)) (1/2), .row (some (3/2)) (3/2),
      .row (some 2) 2] := by
  obtain ⟨S', h⟩ := motionTable_whole
  refine ⟨_, C104_whole _ 2 [.sensor] (by decide) (by decide) (by decide) motionTable 0 le_rfl 4
    (by norm_num) (by norm_num [motionTable, Timer.setStep]) _ _ h, ?_⟩
  rfl

/-- Two runs of two steps, with the sensors told to append: nothing is lost, and the row of the time
`1` is repeated. -/
example : ∃ R', Recording.script (motion .implicitEuler) 2 [.sensor]
    (tableScript 0 motionTable.session.timer.step 2 [2]) motionTable
      = .ok (motionYields .implicitEuler, R') ∧
    R'.lines = [.header, .row (some 0) 0, .row (some (1/2)) (1/2), .row (some 1) 1,
      .row (some 1) 1, .row (some (3/2)) (3/2), .row (some 2) 2] := by
  obtain ⟨S', h⟩ := motionTable_whole
  obtain ⟨R', h1, -, h2⟩ := C104_split (motion .implicitEuler) 2 [.sensor] (by decide) (by decide)
    (by decide) motionTable rfl 0 le_rfl 2 [2] (by decide)
    (by norm_num [motionTable, Timer.setStep]) _ _ h
  refine ⟨R', h1, h2.trans ?_⟩
  simp [tables, due, final, motionYields, motionTable, Timer.setStep, Timer.default, Script.at]

/-- **C104 fails** if the rate does not divide the number of steps of a run: every second step of four
is recorded. The run of four steps has the row of the time `3/2`; a run of one step followed by one
of three steps has none. -/
theorem C104_fails_rate : ∃ R₁ R₂, Recording.script (motion .implicitEuler) 2 [.sensor]
      [.stmt (.interval 0 (0 + (4 : ℕ) * (1/2))), .stmt .solve] motionTable
        = .ok (motionYields .implicitEuler, R₁) ∧
    Recording.script (motion .implicitEuler) 2 [.sensor] (tableScript 0 (1/2) 1 [3]) motionTable
      = .ok (motionYields .implicitEuler, R₂) ∧
    .row (some (3/2)) (3/2) ∈ R₁.lines ∧ ∀ x, .row (some (3/2)) x ∉ R₂.lines := by
  obtain ⟨S', h⟩ := motionTable_whole
  obtain ⟨R', h1, -, h2⟩ := C104_split (motion .implicitEuler) 2 [.sensor] (by decide) (by decide)
    (by decide) motionTable rfl 0 le_rfl 1 [3] (by decide)
    (by norm_num [motionTable, Timer.setStep]) _ _ h
  refine ⟨_, R', C104_whole _ 2 [.sensor] (by decide) (by decide) (by decide) motionTable 0 le_rfl 4
    (by norm_num) (by norm_num [motionTable, Timer.setStep]) _ _ h, h1, ?_, ?_⟩
  · simp [due, motionYields]
  · intro x
    rw [h2]
    simp [tables, due, final, motionYields, motionTable, Timer.setStep, Timer.default, Script.at]
    norm_num

/-- The table of two runs of two steps in the default mode (`C104_fails_default`): the rows of the
first run are gone. -/
example : ∃ R', Recording.script (motion .implicitEuler) 1 [.sensor]
    ((pieces 0 (1/2) [2, 2]).map .stmt) motionTable = .ok (motionYields .implicitEuler, R') ∧
    R'.lines = [.header, .row (some 1) 1, .row (some (3/2)) (3/2), .row (some 2) 2] := by
  obtain ⟨S', h⟩ := motionTable_whole
  obtain ⟨R', h1, h2⟩ := C104_fails_default (motion .implicitEuler) 1 [.sensor] (by decide)
    (by decide) (by decide) motionTable rfl 0 le_rfl 2 2 (by norm_num) (by norm_num)
    (by norm_num [motionTable, Timer.setStep]) _ _ h
  refine ⟨R', h1, h2.trans ?_⟩
  simp [due, final, motionYields, motionTable, Timer.setStep]

/-- The table of a run that is resumed at `t = 1` (`C104_fails_resumed`). -/
example : ∃ T R', (motion .implicitEuler).start 7 T.files = .ok T ∧
    Recording.script (motion .implicitEuler) 1 [.sensor] (.mode true :: [Stmt.step (1/2),
      .interval 1 2, .loadState 1, .loadLevels 1].map .stmt ++ [.stmt .solve])
      { session := T, lines := [.header] } = .ok ([(3/2, 3/2), (2, 2)], R') ∧
    R'.lines = [.header, .row (some 0) 1, .row (some (3/2)) (3/2), .row (some 2) 2] := by
  obtain ⟨S, ys, S', h1, h2, h3, h4⟩ := C104_fails_resumed (motion .implicitEuler) (fun x => rfl)
    1 1 rfl 1 [.sensor] (by decide) (by decide) (by decide) 0 7 [] 0 (1/2) le_rfl (by norm_num) 4 1
    (by norm_num) (one_dvd _) (one_dvd _)
  have e := motion_four .implicitEuler [] S S' ys h1 h2
  simp only [motionYields] at e
  subst e
  obtain ⟨T, k1, k2⟩ := h4 (by simp; norm_num) 1 1 rfl
  obtain ⟨R', k3, k4⟩ := k2 [.header]
  norm_num at k3
  have hT := Except.ok.inj ((start_at _ _ _).symm.trans k1)
  refine ⟨T, R', by rw [← hT] at k1 ⊢; exact k1, by simpa using k3, ?_⟩
  rw [k4]
  simp [due]

end Dream
