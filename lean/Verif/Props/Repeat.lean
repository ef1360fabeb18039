import Verif.Props.Lifecycle
import Verif.Props.TimeScheme
import Verif.Props.Transient

/-!
# C85: repeating a computation
-/

noncomputable section

namespace Dream

open Spec

variable {ι X Y O A : Type}

/-- Two solvers with the same settings, in whatever state they are otherwise. The time is not a
setting. -/
structure SameSettings (L M : Life ι X O A) : Prop where
  params : ∀ n, n ≠ "t" → L.values L.ver n = M.values M.ver n
  start : L.start = M.start
  stop : L.stop = M.stop
  digit : L.digit = M.digit
  opts : L.opts = M.opts
  asm : L.asm = M.asm
  nl : L.nl.o = M.nl.o
  scheme : L.scheme.kind = M.scheme.kind

/-- The settings of a solver. -/
def Life.settings (L : Life ι X O A) : Direct X O A where
  vals := L.values L.ver
  start := L.start
  stop := L.stop
  digit := L.digit
  opts := L.opts
  asm := L.asm
  nl := L.nl.o
  scheme := L.scheme.kind
  used := none

section
variable [AddCommGroup X] [Module ℝ X] [AddCommGroup Y]

theorem setParam_time {P R : Direct X O A} (hv : ∀ n, n ≠ "t" → P.vals n = R.vals n)
    (hs : P.start = R.start) (he : P.stop = R.stop) (hd : P.digit = R.digit)
    (ho : P.opts = R.opts) (ha : P.asm = R.asm) (hn : P.nl = R.nl) (hk : P.scheme = R.scheme)
    (hu : P.used = R.used) (t : ℚ) : P.setParam ("t", t) = R.setParam ("t", t) := by
  have : (fun n => if n = "t" then t else P.vals n) = fun n => if n = "t" then t else R.vals n := by
    funext n
    split_ifs with h
    · rfl
    · exact hv n h
  cases P
  cases R
  simp only at hs he hd ho ha hn hk hu
  subst hs he hd ho ha hn hk hu
  simp only [Direct.setParam, Direct.mk.injEq, and_true, true_and]
  simpa using this

/-- **C85** Initialising and running depends on the settings only: whatever was done with two
solvers before (including failed runs and runs of another length), if their settings agree and the
initial state does not depend on the time, then `initialize` and a run that reassembles yield the
same states under the same time labels, or raise the same error; and so does everything a
disciplined user does afterwards. -/
theorem C85_repeat_partial (K : Kit ι X Y O A)
    (hK : ∀ o v v', (∀ n, n ≠ "t" → v n = v' n) → K.initial o v = K.initial o v')
    (L M : Life ι X O A) (h : SameSettings L M) (hook : ℕ → List (String × ℚ))
    (ds : List (Deed O A)) (hd : Disciplined true true ds) :
    (Life.script K (.initialize :: .solve true hook :: ds) L).map Prod.fst
      = (Life.script K (.initialize :: .solve true hook :: ds) M).map Prod.fst := by
  have hdis : Disciplined false false (.initialize :: .solve true hook :: ds) :=
    ⟨rfl, Or.inl rfl, hd⟩
  have hrel : ∀ L : Life ι X O A, L.Rel K false false L.settings := fun L =>
    ⟨⟨rfl, rfl, rfl, rfl, rfl, rfl, rfl, rfl⟩, fun h => (nomatch h), fun h => (nomatch h)⟩
  rw [C82_refines_partial K _ false false hdis L _ (hrel L),
    C82_refines_partial K _ false false hdis M _ (hrel M)]
  have hi : K.initial L.opts (L.values L.ver) = K.initial M.opts (M.values M.ver) := by
    rw [h.opts]
    exact hK _ _ _ h.params
  obtain ⟨P, hP⟩ : ∃ P : Direct X O A, P = { L.settings with used := some (L.settings.opts,
    K.initial L.settings.opts L.settings.vals, K.initial L.settings.opts L.settings.vals) } :=
    ⟨_, rfl⟩
  obtain ⟨R, hR⟩ : ∃ R : Direct X O A, R = { M.settings with used := some (M.settings.opts,
    K.initial M.settings.opts M.settings.vals, K.initial M.settings.opts M.settings.vals) } :=
    ⟨_, rfl⟩
  have hPR : ∀ t, P.setParam ("t", t) = R.setParam ("t", t) := fun t => by
    refine setParam_time ?_ ?_ ?_ ?_ ?_ ?_ ?_ ?_ ?_ t <;> subst hP hR
    exacts [h.params, h.start, h.stop, h.digit, h.opts, h.asm, h.nl, h.scheme,
      congrArg some (by
        show (L.opts, _, _) = (M.opts, _, _)
        rw [show K.initial L.settings.opts L.settings.vals
            = K.initial M.settings.opts M.settings.vals from hi, h.opts])]
  have hex : P.exec K (.solve true hook) = R.exec K (.solve true hook) := by
    have hu : P.used = some (M.opts, K.initial M.opts (M.values M.ver),
        K.initial M.opts (M.values M.ver)) := by
      rw [hP]
      show some (L.opts, K.initial L.opts (L.values L.ver), K.initial L.opts (L.values L.ver)) = _
      rw [hi, h.opts]
    have hu' : R.used = some (M.opts, K.initial M.opts (M.values M.ver),
        K.initial M.opts (M.values M.ver)) := by rw [hR]; rfl
    have hg : grid P.start P.stop (P.vals "step") = grid R.start R.stop (R.vals "step") := by
      subst hP hR
      show grid L.start L.stop (L.values L.ver "step") = grid M.start M.stop (M.values M.ver "step")
      rw [h.start, h.stop, h.params "step" (by decide)]
    simp only [Direct.exec, hu, hu', hg]
    cases hts : grid R.start R.stop (R.vals "step") with
    | error e => rfl
    | ok ts =>
      cases ts with
      | nil => rfl
      | cons t ts => simp only [bind, Except.bind, List.isEmpty_cons, Bool.false_eq_true, if_false,
          Direct.loop, hPR]
  have hL : ∀ N : Direct X O A, Direct.script K (.initialize :: .solve true hook :: ds) N
      = Direct.script K (.solve true hook :: ds) { N with used := some (N.opts,
          K.initial N.opts N.vals, K.initial N.opts N.vals) } := by
    intro N
    show (Direct.script K (.solve true hook :: ds) _).bind _ = _
    cases Direct.script K (.solve true hook :: ds) { N with used := some (N.opts,
          K.initial N.opts N.vals, K.initial N.opts N.vals) } with
    | error e => rfl
    | ok r => rfl
  rw [hL, hL, ← hP, ← hR]
  simp only [Direct.script, hex]

/-! ## The time before the first step -/

/-- The two solvers have the same parameter objects with the same values, and the same interval. -/
structure Life.Clock (L M : Life ι X O A) : Prop where
  cells : M.cells = L.cells
  ver : M.ver = L.ver
  start : M.start = L.start
  stop : M.stop = L.stop

theorem Life.Clock.trans {L M N : Life ι X O A} (h : L.Clock M) (g : M.Clock N) : L.Clock N :=
  ⟨g.cells.trans h.cells, g.ver.trans h.ver, g.start.trans h.start, g.stop.trans h.stop⟩

theorem solveLevel_clock (K : Kit ι X Y O A) (L M : Life ι X O A) (h : L.solveLevel K = .ok M) :
    L.Clock M := by
  unfold Life.solveLevel at h
  by_cases hm : L.nl.o.maxIter ≤ 0
  · rw [if_pos hm] at h
    cases Except.ok.inj h
    exact ⟨rfl, rfl, rfl, rfl⟩
  · rw [if_neg hm] at h
    cases h1 : L.nl.attrs with
    | none => rw [h1] at h; cases h
    | some b =>
      rw [h1] at h
      dsimp only at h
      cases h2 : L.mem b.unk with
      | none => rw [h2] at h; cases h
      | some st =>
        cases h3 : L.mem b.form.mem with
        | none => rw [h2, h3] at h; cases h
        | some lv =>
          rw [h2, h3] at h
          dsimp only at h
          cases h4 : (K.problem b.form.opts (L.values b.form.ver)).residual b.form.scheme
              (L.values b.form.ver "step" : ℚ) lv.levels 0 st.x with
          | error e => rw [h4] at h; cases h
          | ok y =>
            rw [h4] at h
            simp only [bind, Except.bind] at h
            split_ifs at h
            cases Except.ok.inj h
            exact ⟨rfl, rfl, rfl, rfl⟩

theorem shift_clock (K : Kit ι X Y O A) (L M : Life ι X O A) (h : L.shift K = .ok M) :
    L.Clock M := by
  unfold Life.shift at h
  cases h1 : L.scheme.mem with
  | none => rw [h1] at h; cases h
  | some g =>
    rw [h1] at h
    dsimp only at h
    cases h2 : L.mem g with
    | none => rw [h2] at h; cases h
    | some st =>
      rw [h2] at h
      dsimp only at h
      cases h3 : timeStep L.scheme.kind.levelNames st.levels (K.comp st.x) with
      | error e => rw [h3] at h; cases h
      | ok lv =>
        rw [h3] at h
        cases Except.ok.inj h
        exact ⟨rfl, rfl, rfl, rfl⟩

theorem begin_clock (re : Bool) (L M : Life ι X O A) (h : L.begin re = .ok M) : L.Clock M := by
  cases re with
  | false => cases Except.ok.inj h; exact ⟨rfl, rfl, rfl, rfl⟩
  | true =>
    simp only [Life.begin, if_true, Life.assemble] at h
    cases hf : L.forms with
    | none => rw [hf] at h; cases h
    | some f =>
      cases hg : L.gfu with
      | none => rw [hf, hg] at h; cases h
      | some g =>
        rw [hf, hg] at h
        cases Except.ok.inj h
        exact ⟨rfl, rfl, rfl, rfl⟩

/-- After the loop the time is the last time of the loop. -/
theorem lifeLoop_time (K : Kit ι X Y O A) (ts : List ℚ) (k : ℕ) (L : Life ι X O A)
    (r : List (ℚ × X) × Life ι X O A) (h : Life.loop K (fun _ => []) k ts L = .ok r) :
    r.2.start = L.start ∧ r.2.values r.2.ver "t" = ts.getLastD (L.values L.ver "t") := by
  induction ts generalizing k L r with
  | nil => cases Except.ok.inj h; exact ⟨rfl, rfl⟩
  | cons t ts ih =>
    simp only [Life.loop] at h
    cases h1 : (L.setParam ("t", t)).solveLevel K with
    | error e => rw [h1] at h; cases h
    | ok L1 =>
      rw [h1] at h
      simp only [bind, Except.bind] at h
      cases h2 : L1.shift K with
      | error e => rw [h2] at h; cases h
      | ok L2 =>
        rw [h2] at h
        dsimp only at h
        cases h3 : L2.visible with
        | error e => rw [h3] at h; cases h
        | ok x =>
          rw [h3] at h
          dsimp only [List.foldl_nil] at h
          cases h4 : Life.loop K (fun _ => []) (k + 1) ts L2 with
          | error e => rw [h4] at h; cases h
          | ok q =>
            rw [h4] at h
            cases Except.ok.inj h
            have c := (solveLevel_clock K _ _ h1).trans (shift_clock K _ _ h2)
            obtain ⟨i1, i2⟩ := ih _ _ _ h4
            refine ⟨i1.trans (c.start.trans rfl), i2.trans ?_⟩
            have : L2.values L2.ver "t" = t := by
              simp [Life.values, c.cells, c.ver, Life.setParam]
            rw [this]
            cases ts <;> rfl

theorem grid_mem {a b s : ℚ} {ts : List ℚ} (h : grid a b s = .ok ts) (t : ℚ) (ht : t ∈ ts) :
    t ≠ a := by
  unfold grid at h
  split_ifs at h with hs
  cases Except.ok.inj h
  obtain ⟨k, -, rfl⟩ := List.mem_map.1 ht
  have : ((k : ℚ) + 1) * s ≠ 0 := mul_ne_zero (by positivity) hs
  intro e
  exact this (by linarith)

/-- **C85 fails for the label of the initial state** Whatever state the solver is in: after a run
and a renewed `initialize`, the initial state of the next run is not saved under the start of the
interval, but under the end of the previous run. -/
theorem C85_fails_rerun_label (K : Kit ι X Y O A) (L M : Life ι X O A) (re : Bool)
    (ys : List (ℚ × X))
    (h : Life.script K [.solve re fun _ => [], .initialize] L = .ok (ys, M)) :
    M.start = L.start ∧ M.preLabel ≠ M.start ∧
      ∃ ts, grid L.start L.stop (L.values L.ver "step") = .ok ts ∧
        some M.preLabel = ts.getLast? := by
  simp only [Life.script, Life.exec, Life.solve] at h
  cases h1 : L.begin re with
  | error e => rw [h1] at h; cases h
  | ok L1 =>
    rw [h1] at h
    simp only [bind, Except.bind] at h
    have c := begin_clock re L L1 h1
    cases h2 : Life.times L1.start L1.stop (L1.values L1.ver "step") with
    | error e => rw [h2] at h; cases h
    | ok ts =>
      rw [h2] at h
      dsimp only at h
      cases h3 : Life.loop K (fun _ => []) 0 ts L1 with
      | error e => rw [h3] at h; cases h
      | ok q =>
        rw [h3] at h
        dsimp only at h
        cases ts with
        | nil => cases h
        | cons t ts =>
        obtain ⟨l1, l2⟩ := lifeLoop_time K _ _ _ _ h3
        simp only [List.isEmpty_cons, Bool.false_eq_true, if_false, Life.initialize, bind,
          Except.bind] at h
        cases h5 : transientInit (K.problem q.2.opts (q.2.values q.2.ver)) q.2.scheme.kind
            (K.initial q.2.opts (q.2.values q.2.ver)) with
        | error e => rw [h5] at h; cases h
        | ok st =>
          rw [h5] at h
          simp only [Except.ok.injEq, Prod.mk.injEq] at h
          obtain ⟨-, rfl⟩ := h
          have hg : grid L.start L.stop (L.values L.ver "step") = .ok (t :: ts) := by
            rw [times_eq] at h2
            rw [← h2, c.start, c.stop, Life.values, Life.values, c.cells, c.ver]
          have hl : q.2.values q.2.ver "t" = (t :: ts).getLast (by simp) := by
            rw [l2, List.getLastD_eq_getLast?, List.getLast?_eq_some_getLast (by simp)]
            rfl
          refine ⟨l1.trans c.start, ?_, t :: ts, hg, ?_⟩
          · show q.2.values q.2.ver "t" ≠ q.2.start
            rw [l1, c.start, hl]
            exact grid_mem hg _ (List.getLast_mem _)
          · show some (q.2.values q.2.ver "t") = _
            rw [hl, List.getLast?_eq_some_getLast (by simp)]

/-- **C85 fails for the label of the initial state** A new solver whose user sets whatever they
like, except the time by hand, saves its initial state under the time zero, wherever the interval
starts. -/
theorem C85_fails_start_label (K : Kit ι X Y O A) (v : String → ℚ) (o : O) (a : A) (n : NlOpts)
    (s : Scheme) (ds : List (Deed O A)) (hp : ∀ x, Deed.param "t" x ∉ ds)
    (hs : ∀ re hook, Deed.solve re hook ∉ ds) (L : Life ι X O A) (ys : List (ℚ × X))
    (h : Life.script K ds (Life.fresh v o a n s) = .ok (ys, L)) : L.preLabel = 0 := by
  have key := script_invariant K (fun L => ∀ k, L.cells "t" k = 0) ds ?_ (Life.fresh v o a n s)
    (fun k => by simp [Life.fresh]) _ h
  · exact key _
  intro d hd M hM r hr k
  cases d with
  | param p x =>
    cases hr
    have : p ≠ "t" := fun e => hp x (e ▸ hd)
    simp [Life.setParam, hM, this.symm]
  | interval s e =>
    simp only [Life.exec] at hr
    cases hh : Timer.setInterval ⟨M.start, M.stop, 1, 0, 0⟩ s e with
    | error e => rw [hh] at hr; cases hr
    | ok tm => rw [hh] at hr; cases hr; exact hM k
  | solve re hook => exact absurd hd (hs re hook)
  | «initialize» =>
    simp only [Life.exec, Life.initialize, bind, Except.bind] at hr
    cases h5 : transientInit (K.problem M.opts (M.values M.ver)) M.scheme.kind
        (K.initial M.opts (M.values M.ver)) with
    | error e => rw [h5] at hr; cases hr
    | ok st => rw [h5] at hr; cases hr; exact hM k
  | newTimer =>
    cases hr
    simp only [Life.newTimer]
    split_ifs <;> simp_all
  | _ => cases hr; exact hM k

end

/-! ## Pseudo time stepping -/

section
variable [AddCommGroup X] [Module ℝ X] [AddCommGroup Y]

theorem pseudoLoop_dt (P : Problem ι X Y) (s : Scheme) (ps : Pseudo) (N : Newton X Y) (t dt0 : ℚ)
    (n it : ℕ) (prev cur : X) (st st' : PseudoState ι X Y)
    (hl : st.levels = s.levelsOf (P.comp prev) (P.comp cur)) (hit : st.trace.length = it)
    (hdt : ps.run dt0 it = .ok st.dt) (h : pseudoLoop P s ps N t n it st = .ok st') :
    ps.run dt0 st'.trace.length = .ok st'.dt := by
  induction n generalizing it st prev cur with
  | zero =>
    simp only [pseudoLoop, Except.ok.injEq] at h
    rw [← h, hit, hdt]
  | succ n ih =>
    cases hu : ps.update st.dt it with
    | error e =>
      rw [pseudoLoop_error P _ ps N t n it prev cur st e hl hu] at h
      cases h
    | ok dt =>
      rw [pseudoLoop_succ P _ ps N t n it prev cur st dt hl hu] at h
      have hrun : ps.run dt0 (it + 1) = .ok dt := by
        simp only [Pseudo.run, hdt, bind, Except.bind, hu]
      simp only at h
      split_ifs at h with h1 h2
      · cases h; simpa [hit] using hrun
      · cases h; simpa [hit] using hrun
      · exact ih (it + 1) cur st.x _ rfl (by simp [hit]) hrun h

/-- The step a run of pseudo time stepping leaves in the timer is the one its last iteration
used. -/
theorem pseudoRun_dt (P : Problem ι X Y) (s : Scheme) (ps : Pseudo) (N : Newton X Y) (t dt : ℚ)
    (x0 : X) (st : PseudoState ι X Y) (h : pseudoRun P s ps N t dt x0 = .ok st) :
    ps.run dt st.trace.length = .ok st.dt := by
  simp only [pseudoRun, init_levelsOf] at h
  exact pseudoLoop_dt P s ps N t dt N.maxIter.toNat 0 x0 x0 _ st rfl rfl rfl h

/-- **C85 fails for pseudo time stepping** A run that takes more iterations than the increment
interval leaves a larger step in the timer than it found there, with which the next run begins. -/
theorem C85_fails_pseudo_step (P : Problem ι X Y) (s : Scheme) (ps : Pseudo) (N : Newton X Y)
    (t dt : ℚ) (x0 : X) (st : PseudoState ι X Y) (k f : ℕ) (hk : ps.incrementAt = k) (hk0 : 1 ≤ k)
    (hf : ps.incrementFactor = f) (hf0 : 2 ≤ f) (hdt : 0 < dt) (hmax : dt < ps.maxStep)
    (h : pseudoRun P s ps N t dt x0 = .ok st) (hn : k < st.trace.length) : dt < st.dt := by
  have h1 := pseudoRun_dt P s ps N t dt x0 st h
  rw [C07_pseudo_step_closed_form ps dt k f _ hk hk0 hf (by omega) hdt, if_neg (not_le.2 hmax)] at h1
  rw [← Except.ok.inj h1]
  refine lt_min hmax ?_
  have hm : (st.trace.length - 1) / k ≠ 0 := by
    rw [Nat.div_ne_zero_iff]
    omega
  have : 1 < (f : ℚ) ^ ((st.trace.length - 1) / k) :=
    one_lt_pow₀ (by exact_mod_cast hf0) hm
  nlinarith

end

/-! ## Concrete cases -/

/-- C85, concrete case: a solver that has already run with another speed and another scheme, and a
solver that has never run. With the same settings, both yield the same. -/
example : ∃ ys L, Life.script drift [.param "speed" 5, .param "step" (1/2), .newScheme .bdf2,
      .initialize, .solve true (fun _ => []), .newScheme .implicitEuler, .param "speed" 2]
      (Life.fresh (fun _ => 0) 1 false driftNl .implicitEuler) = .ok (ys, L) ∧
    ys = [(1/2, 5/3), (1, 35/9)] ∧
    (Life.script drift [.initialize, .solve true fun _ => []] L).map Prod.fst
      = (Life.script drift [.initialize, .solve true fun _ => []]
          ((((Life.fresh (fun _ => 0) 1 false driftNl .implicitEuler).setParam
            ("speed", 2)).setParam ("step", 1/2)))).map Prod.fst := by
  have hag := script_agree drift [.param "speed" 5, .param "step" (1/2), .newScheme .bdf2,
      .initialize, .solve true (fun _ => []), .newScheme .implicitEuler, .param "speed" 2]
    false false (by simp [Disciplined]) _ _
    (fresh_rel drift (fun _ => 0) 1 false driftNl .implicitEuler)
  obtain ⟨q, hq⟩ : ∃ q, Direct.script drift [.param "speed" 5, .param "step" (1/2),
      .newScheme .bdf2, .initialize, .solve true (fun _ => []), .newScheme .implicitEuler,
      .param "speed" 2] (Direct.fresh (fun _ => 0) 1 false driftNl .implicitEuler)
      = .ok q ∧ q.1 = [(1/2, 5/3), (1, 35/9)] ∧ q.2.start = 0 ∧ q.2.stop = 1 ∧
        (∀ n, n ≠ "t" → q.2.vals n = if n = "speed" then 2 else if n = "step" then 1/2 else 0) ∧
        q.2.nl = driftNl ∧ q.2.digit = setDigit (1/2) ∧ q.2.opts = 1 ∧ q.2.asm = false ∧
        q.2.scheme = .implicitEuler := by
    simp only [Direct.script, Direct.exec, Direct.setParam, Direct.fresh]
    simp (disch := simp) [drift_times, bind, Except.bind, Direct.loop, Direct.setParam, drift_label1,
      drift_label2, drift_next, driftNext]
    refine ⟨?_, ?_⟩
    · simp [drift]
      norm_num
    · intro n hn
      by_cases h1 : n = "speed" <;> by_cases h2 : n = "step" <;> simp [h1, h2, hn]
  obtain ⟨hq, q0, q1, q2, q3, q4, q5, q6, q7, q8⟩ := hq
  rw [hq] at hag
  cases hL : Life.script drift [.param "speed" 5, .param "step" (1/2), .newScheme .bdf2,
      .initialize, .solve true (fun _ => []), .newScheme .implicitEuler, .param "speed" 2]
      (Life.fresh (fun _ => 0) 1 false driftNl .implicitEuler) with
  | error e => rw [hL] at hag; exact hag.elim
  | ok p =>
    rw [hL] at hag
    obtain ⟨h0, hs, -, -⟩ := hag
    refine ⟨p.1, p.2, rfl, h0.trans q0, C85_repeat_partial drift ?_ p.2 _ ?_ _ [] trivial⟩
    · intro o v v' h
      simp only [drift, h "u0" (by decide)]
    · refine ⟨fun n hn => ?_, hs.start.trans q1, hs.stop.trans q2, hs.digit.trans q5,
        hs.opts.trans q6, hs.asm.trans q7, hs.nl.trans q4, hs.scheme.trans q8⟩
      rw [hs.vals, q3 n hn]
      by_cases h1 : n = "speed" <;> by_cases h2 : n = "step" <;>
        simp_all [Life.values, Life.setParam, Life.fresh]

/-- C85, concrete case: the interval starts at `2`, the label is `0`. -/
example : ∃ ys L, Life.script drift [.interval 2 3, .param "step" (1/2), .initialize]
      (Life.fresh (fun _ => 0) 1 false driftNl .implicitEuler) = .ok (ys, L) ∧
    L.start = 2 ∧ L.preLabel = 0 := by
  obtain ⟨ys, L, h, hs⟩ : ∃ ys L, Life.script drift [.interval 2 3, .param "step" (1/2), .initialize]
      (Life.fresh (fun _ => 0) 1 false driftNl .implicitEuler) = .ok (ys, L) ∧ L.start = 2 := by
    have h1 : (Timer.mk 0 1 1 0 0).setInterval 2 3 = .ok ⟨2, 3, 1, 0, 0⟩ := by decide +kernel
    simp only [Life.script, Life.exec, Life.fresh, h1, bind, Except.bind, Life.initialize,
      init_levelsOf, Life.setParam]
    exact ⟨_, _, rfl, rfl⟩
  exact ⟨ys, L, h, hs, C85_fails_start_label drift _ _ _ _ _ _ (by simp) (by simp) L ys h⟩

/-- C85, concrete case: after a run from `0` to `1`, the label is `1`. -/
example : ∃ M ys, Life.script drift [.param "step" (1/2), .initialize, .solve true (fun _ => []),
      .initialize] (Life.fresh (fun _ => 0) 1 false driftNl .implicitEuler) = .ok (ys, M) ∧
    M.start = 0 ∧ M.preLabel = 1 := by
  have hag := script_agree drift [.param "step" (1/2), .initialize, .solve true (fun _ => []),
      .initialize] false false (by simp [Disciplined]) _ _
    (fresh_rel drift (fun _ => 0) 1 false driftNl .implicitEuler)
  obtain ⟨q, hq⟩ : ∃ q, Direct.script drift [.param "step" (1/2), .initialize,
      .solve true (fun _ => []), .initialize]
      (Direct.fresh (fun _ => 0) 1 false driftNl .implicitEuler) = .ok q ∧ q.2.start = 0 ∧
        q.2.vals "t" = 1 := by
    simp only [Direct.script, Direct.exec, Direct.setParam, Direct.fresh]
    simp (disch := simp) [drift_times, bind, Except.bind, Direct.loop, Direct.setParam, drift_label1,
      drift_label2, drift_next, driftNext]
  obtain ⟨hq, q1, q2⟩ := hq
  rw [hq] at hag
  cases hL : Life.script drift [.param "step" (1/2), .initialize, .solve true (fun _ => []),
      .initialize] (Life.fresh (fun _ => 0) 1 false driftNl .implicitEuler) with
  | error e => rw [hL] at hag; exact hag.elim
  | ok p =>
    rw [hL] at hag
    obtain ⟨-, hs, -, -⟩ := hag
    exact ⟨p.2, p.1, rfl, hs.start.trans q1, (congrFun hs.vals "t").trans q2⟩

/-- The motion whose initial state is the time at which it is evaluated. -/
def clockDrift : Kit Unit ℝ ℝ ℝ Bool := { drift with initial := fun _ v => (v "t" : ℚ) }

/-- **C85 fails for initial states that depend on the time** The same settings, initialised and run
twice over `[0, 1]`: the second run starts from the initial state at the time `1`. -/
theorem C85_fails_initial : (Life.script clockDrift [.param "step" (1/2), .initialize,
      .solve true (fun _ => []), .initialize, .solve true fun _ => []]
      (Life.fresh (fun _ => 0) 1 false driftNl .implicitEuler)).map Prod.fst
    = .ok [(1/2, 0), (1, 0), (1/2, 1), (1, 1)] := by
  have hn : ∀ (o : ℝ) (P : Direct ℝ ℝ Bool) (p q : ℝ), P.nl = driftNl → 0 < P.vals "step" →
      P.next clockDrift o p q = driftNext o P p q := fun o P p q => drift_next o P p q
  rw [C82_in_force_partial clockDrift _ (by simp [Disciplined])]
  simp only [Direct.script, Direct.exec, Direct.setParam, Direct.fresh]
  simp (disch := simp) [drift_times, bind, Except.bind, Direct.loop, Direct.setParam, drift_label1,
    drift_label2, hn, driftNext]
  simp [clockDrift, Except.map]

/-- **C85 fails for pseudo time stepping**, concrete instance: two iterations for `u = 1` from
`u = 0` with pseudo time step `1`, and the same again after the run. The results differ. -/
theorem C85_fails_pseudo : ∃ a b,
    pseudoRun (scalarProblem fun x => x - 1) .implicitEuler ⟨100, 1, 10⟩ (scalarNewton 1 0 2) 0 1 0
      = .ok a ∧
    pseudoRun (scalarProblem fun x => x - 1) .implicitEuler ⟨100, 1, 10⟩ (scalarNewton 1 0 2) 0 a.dt 0
      = .ok b ∧ a.dt = 10 ∧ a.x = 21 / 22 ∧ b.x = 1110 / 1111 := by
  set P := scalarProblem fun x => x - 1 with hP
  have hF : ∀ (dt : ℚ) (cur prev x : ℝ), P.stepEquation (Scheme.implicitEuler.quotient dt) 0 cur prev x
      = x - 1 + (x - cur) / dt := by
    intro dt cur prev x
    simp only [hP, Problem.stepEquation, scalarProblem, Scheme.quotient, _root_.Spec.backwardEuler]
  have hd : ∀ (dt : ℚ) (cur prev x : ℝ),
      deriv (P.stepEquation (Scheme.implicitEuler.quotient dt) 0 cur prev) x = 1 + 1 / dt := by
    intro dt cur prev x
    have : P.stepEquation (Scheme.implicitEuler.quotient dt) 0 cur prev
        = fun x => x - 1 + (x - cur) / dt := by funext y; rw [hF]
    rw [this]
    exact HasDerivAt.deriv (HasDerivAt.add (HasDerivAt.sub_const 1 (hasDerivAt_id x))
      (HasDerivAt.div_const (HasDerivAt.sub_const cur (hasDerivAt_id x)) _))
  have hz : ∀ it st, pseudoLoop P .implicitEuler ⟨100, 1, 10⟩ (scalarNewton 1 0 2) 0 0 it st = .ok st :=
    fun _ _ => rfl
  refine ⟨⟨21/22, Scheme.implicitEuler.levelsOf (P.comp 0) (P.comp (1/2)), 10, false, false,
    [(0, -1), (1/2, -(1/2))]⟩, ⟨1110/1111, Scheme.implicitEuler.levelsOf (P.comp 0) (P.comp (10/11)),
    100, false, false, [(0, -1), (10/11, -(1/11))]⟩, ?_, ?_, rfl, rfl, rfl⟩
  · have e1 := pseudoLoop_succ P .implicitEuler ⟨100, 1, 10⟩ (scalarNewton 1 0 2) 0 1 0 0 0
      { x := 0, levels := Scheme.implicitEuler.levelsOf (P.comp 0) (P.comp 0), dt := 1 } 1 rfl
      (by decide +kernel)
    have e2 := pseudoLoop_succ P .implicitEuler ⟨100, 1, 10⟩ (scalarNewton 1 0 2) 0 0 1 0 0
      { x := 1/2, levels := Scheme.implicitEuler.levelsOf (P.comp 0) (P.comp 0), dt := 1,
        trace := [(0, -1)] } 10 rfl (by decide +kernel)
    simp only [hz] at e2
    simp only [scalarNewton, hF, hd] at e1 e2
    norm_num [newtonUpdate, -abs_mul] at e1 e2
    simp only [pseudoRun, init_levelsOf]
    refine Eq.trans ?_ (e1.trans ?_)
    · rfl
    · rw [e2]
  · have e1 := pseudoLoop_succ P .implicitEuler ⟨100, 1, 10⟩ (scalarNewton 1 0 2) 0 1 0 0 0
      { x := 0, levels := Scheme.implicitEuler.levelsOf (P.comp 0) (P.comp 0), dt := 10 } 10 rfl
      (by decide +kernel)
    have e2 := pseudoLoop_succ P .implicitEuler ⟨100, 1, 10⟩ (scalarNewton 1 0 2) 0 0 1 0 0
      { x := 10/11, levels := Scheme.implicitEuler.levelsOf (P.comp 0) (P.comp 0), dt := 10,
        trace := [(0, -1)] } 100 rfl (by decide +kernel)
    simp only [hz] at e2
    simp only [scalarNewton, hF, hd] at e1 e2
    norm_num [newtonUpdate, -abs_mul] at e1 e2
    simp only [pseudoRun, init_levelsOf]
    refine Eq.trans ?_ (e1.trans ?_)
    · rfl
    · rw [e2]

end Dream
