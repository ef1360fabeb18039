import Verif.Props.Output
import Verif.Props.Session

/-!
# C102, C103: what a computation does not depend on: its output and the origin of time
-/

set_option linter.unusedSectionVars false

noncomputable section

namespace Dream

open Run

/-! ## C102: the operations -/

/-- The stream an operation belongs to; the other operations are those of the computation. -/
def Op.stream : Op → Option SKind
  | .open s => some s
  | .pre s _ => some s
  | .inStep s _ _ => some s
  | .post s _ _ => some s
  | .close s => some s
  | .assemble | .solve _ | .update _ | .yield_ _ | .iteration _ | .redraw => none

/-- Of the operations `tr`, those of the computation and of the stream `s` (of no stream if `s` is
`none`). -/
def view (s : Option SKind) (tr : List Op) : List Op :=
  tr.filter fun o => o.stream = none ∨ o.stream = s

/-- Two runs with the same result and the same view. -/
def Alike {α} (s : Option SKind) (r r' : Run α) : Prop :=
  r.result = r'.result ∧ view s r.trace = view s r'.trace

theorem Alike.refl {α} (s : Option SKind) (r : Run α) : Alike s r r := ⟨rfl, rfl⟩

theorem Alike.bind {α β} {s : Option SKind} {r r' : Run α} {f f' : α → Run β} (h : Alike s r r')
    (hf : ∀ a, Alike s (f a) (f' a)) : Alike s (r >>= f) (r' >>= f') := by
  obtain ⟨h1, h2⟩ := h
  obtain ⟨x, tr⟩ := r
  obtain ⟨x', tr'⟩ := r'
  simp only at h1 h2
  subst h1
  cases x with
  | error e => rw [error_bind, error_bind]; exact ⟨rfl, h2⟩
  | ok a =>
    rw [ok_bind, ok_bind]
    refine ⟨(hf a).1, ?_⟩
    have := (hf a).2
    unfold view at *
    simp only [List.filter_append, h2, this]

theorem Alike.foldlM {α β} {s : Option SKind} {f f' : β → α → Run β}
    (hf : ∀ b a, Alike s (f b a) (f' b a)) (l : List α) (b : β) :
    Alike s (l.foldlM f b) (l.foldlM f' b) := by
  induction l generalizing b with
  | nil => exact Alike.refl _ _
  | cons a l ih =>
    rw [List.foldlM_cons, List.foldlM_cons]
    exact (hf b a).bind fun b => ih b

/-- The operations `mk k` of all streams `k`. -/
theorem forM_calm (O : Op → Option Exc) (hO : ∀ o, o.stream ≠ none → O o = none) (mk : SKind → Op)
    (hmk : ∀ k, (mk k).stream = some k) (file : List SKind) :
    (file.forM fun k => op O (mk k)) = ⟨.ok (), file.map mk⟩ := by
  rw [forM_ok file _ (fun k => [mk k]) fun k _ => by
    unfold op; rw [hO _ (by rw [hmk]; exact Option.some_ne_none k)]]
  rw [← List.map_eq_flatMap]

theorem view_streams (mk : SKind → Op) (hmk : ∀ k, (mk k).stream = some k) (s : Option SKind)
    (l l' : List SKind) (hl : l.Nodup) (hl' : l'.Nodup) (h : ∀ k, s = some k → (k ∈ l ↔ k ∈ l')) :
    view s (l.map mk) = view s (l'.map mk) := by
  have key : ∀ l : List SKind, l.Nodup → view s (l.map mk)
      = match s with
        | none => []
        | some k => if k ∈ l then [mk k] else [] := by
    intro l hl
    induction l with
    | nil => cases s <;> rfl
    | cons a l ih =>
      have ih := ih hl.of_cons
      unfold view at *
      rw [List.map_cons, List.filter_cons, ih]
      cases s with
      | none => simp [hmk]
      | some k =>
        by_cases e : a = k
        · subst e
          have : a ∉ l := (List.nodup_cons.1 hl).1
          simp [hmk, this]
        · have e' : k ≠ a := fun h => e h.symm
          simp [hmk, e, e']
  rw [key l hl, key l' hl']
  cases s with
  | none => rfl
  | some k => simp only [h k rfl]

section
variable {O : Op → Option Exc} {s : Option SKind}
  (hO : ∀ o, o.stream ≠ none → O o = none) {l l' : List SKind} (hl : l.Nodup) (hl' : l'.Nodup)
  (h : ∀ k, s = some k → (k ∈ l ↔ k ∈ l'))
include hO hl hl' h

theorem alike_forM (mk : SKind → Op) (hmk : ∀ k, (mk k).stream = some k) :
    Alike s (l.forM fun k => op O (mk k)) (l'.forM fun k => op O (mk k)) := by
  rw [forM_calm O hO mk hmk, forM_calm O hO mk hmk]
  exact ⟨rfl, view_streams mk hmk s l l' hl hl' h⟩

theorem alike_step (it : ℕ) (t : ℚ) :
    Alike s (transientStep O l it t) (transientStep O l' it t) := by
  unfold transientStep
  refine (Alike.refl s _).bind fun _ => (Alike.refl s _).bind fun _ => (Alike.refl s _).bind fun _ =>
    Alike.bind ?_ fun _ => Alike.refl s _
  exact alike_forM hO hl hl' h (fun k => .inStep k t it) fun k => rfl

end

/-- No stream is the mesh or the settings stream. -/
def TimeStreams (data : List SKind) : Prop := data.Nodup ∧ .ngsmesh ∉ data ∧ .settings ∉ data

theorem TimeStreams.single {data : List SKind} (h : TimeStreams data) :
    data.filter SKind.isSingle = [] := by
  rw [List.filter_eq_nil_iff]
  intro k hk
  cases k <;> simp [SKind.isSingle]
  · exact h.2.1 hk
  · exact h.2.2 hk

theorem alike_withIO {α} {O : Op → Option Exc} {s : Option SKind}
    (hO : ∀ o, o.stream ≠ none → O o = none) {data data' : List SKind} (hd : TimeStreams data)
    (hd' : TimeStreams data') (h : ∀ k, s = some k → (k ∈ data ↔ k ∈ data'))
    (body : List SKind → List SKind → Run α)
    (hb : Alike s (body [] (data.filter SKind.isFile)) (body [] (data'.filter SKind.isFile))) :
    Alike s (withIO O data body) (withIO O data' body) := by
  have hop : ∀ k, O (.open k) = none := fun k => hO _ (Option.some_ne_none k)
  have ho := view_streams Op.open (fun k => rfl) s (data.filter SKind.isOpened)
    (data'.filter SKind.isOpened) (hd.1.filter _) (hd'.1.filter _)
    (fun k hk => by rw [List.mem_filter, List.mem_filter, h k hk])
  have hc := view_streams Op.close (fun k => rfl) s (data.filter SKind.isFile)
    (data'.filter SKind.isFile) (hd.1.filter _) (hd'.1.filter _)
    (fun k hk => by rw [List.mem_filter, List.mem_filter, h k hk])
  unfold withIO
  rw [ioOpen_ok O data hop, ioOpen_ok O data' hop, hd.single, hd'.single]
  simp only [Run.bind, ioClose]
  rw [forM_calm O hO Op.close fun k => rfl, forM_calm O hO Op.close fun k => rfl]
  obtain ⟨h1, h2⟩ := hb
  refine ⟨by simpa [Except.bind] using h1, ?_⟩
  unfold view at *
  simp only [List.filter_append, ho, hc, h2]

/-- **C102** (operations) In a transient run whose streams do not raise: what is computed, what is
yielded, whether and how the routine fails, and everything each stream does, is the same whatever
other streams are switched on, whichever operation of the computation raises or wherever the
consumer stops. (`s = none`: the computation alone.) -/
theorem C102_transient_partial (O : Op → Option Exc) (hO : ∀ o, o.stream ≠ none → O o = none)
    (data data' : List SKind) (hd : TimeStreams data) (hd' : TimeStreams data') (s : Option SKind)
    (h : ∀ k, s = some k → (k ∈ data ↔ k ∈ data')) (reassemble : Bool) (tm : Timer) :
    (transientRoutine O data reassemble tm).result = (transientRoutine O data' reassemble tm).result ∧
    view s (transientRoutine O data reassemble tm).trace
      = view s (transientRoutine O data' reassemble tm).trace := by
  have hf : ∀ k, s = some k → (k ∈ data.filter SKind.isFile ↔ k ∈ data'.filter SKind.isFile) :=
    fun k hk => by rw [List.mem_filter, List.mem_filter, h k hk]
  have h1 := hd.1.filter SKind.isFile
  have h2 := hd'.1.filter SKind.isFile
  show Alike s _ _
  unfold transientRoutine
  refine (Alike.refl s _).bind fun _ => alike_withIO hO hd hd' h _ ?_
  refine Alike.bind ?_ fun _ => ?_
  · exact (Alike.refl s _).bind fun _ =>
      alike_forM hO h1 h2 hf (fun k => .pre k (some tm.t)) fun k => rfl
  · cases tm.run false 1 with
    | error e => exact Alike.refl s _
    | ok ts =>
      refine Alike.bind ?_ fun last => ?_
      · exact Alike.foldlM (fun b (a : ℚ × ℕ) => (alike_step hO h1 h2 hf a.2 a.1).bind fun _ => Alike.refl s _) _ _
      · cases last with
        | none => exact Alike.refl s _
        | some p => exact alike_forM hO h1 h2 hf (fun k => .post k (some p.1) p.2) fun k => rfl

/-- **C102** (operations) The same for pseudo time stepping. -/
theorem C102_pseudo_partial (O : Op → Option Exc) (hO : ∀ o, o.stream ≠ none → O o = none)
    (data data' : List SKind) (hd : TimeStreams data) (hd' : TimeStreams data') (s : Option SKind)
    (h : ∀ k, s = some k → (k ∈ data ↔ k ∈ data')) (reassemble : Bool) (t : ℚ) (n : ℕ) :
    (pseudoRoutine O data reassemble t n).result = (pseudoRoutine O data' reassemble t n).result ∧
    view s (pseudoRoutine O data reassemble t n).trace
      = view s (pseudoRoutine O data' reassemble t n).trace := by
  have hf : ∀ k, s = some k → (k ∈ data.filter SKind.isFile ↔ k ∈ data'.filter SKind.isFile) :=
    fun k hk => by rw [List.mem_filter, List.mem_filter, h k hk]
  have h1 := hd.1.filter SKind.isFile
  have h2 := hd'.1.filter SKind.isFile
  show Alike s _ _
  unfold pseudoRoutine
  refine (Alike.refl s _).bind fun _ => alike_withIO hO hd hd' h _ ?_
  refine Alike.bind ?_ fun _ => (Alike.refl s _).bind fun _ => (Alike.refl s _).bind fun _ =>
    Alike.bind ?_ fun _ => (Alike.refl s _).bind fun _ => ?_
  · exact (Alike.refl s _).bind fun _ =>
      alike_forM hO h1 h2 hf (fun k => .pre k (some t)) fun k => rfl
  · exact alike_forM hO h1 h2 hf (fun k => .inStep k t 0) fun k => rfl
  · exact alike_forM hO h1 h2 hf (fun k => .post k (some t) 0) fun k => rfl

/-- Hypotheses in a concrete case: the solver raises at the third step; with the VTK stream alone
and with all three streams the run fails alike. -/
example : ∃ O : Op → Option Exc, (∀ o, o.stream ≠ none → O o = none) ∧
    TimeStreams [.vtk] ∧ TimeStreams [.gfu, .sensor, .vtk] ∧
    (∀ k, some SKind.vtk = some k → (k ∈ [SKind.vtk] ↔ k ∈ [SKind.gfu, .sensor, .vtk])) ∧
    O (.solve 2) = some (.py .runtime) :=
  ⟨fun o => if o = .solve 2 then some (.py .runtime) else none,
    fun o ho => by
      have : o ≠ .solve 2 := by rintro rfl; exact ho rfl
      simp [this],
    ⟨by decide, by decide, by decide⟩, ⟨by decide, by decide, by decide⟩,
    fun k hk => by cases hk; simp, by simp⟩

/-- **C102 fails** for the mesh and the settings stream: if one of them is switched on, nothing is
computed and nothing yielded. -/
theorem C102_fails_single (data : List SKind) (hs : .ngsmesh ∈ data ∨ .settings ∈ data)
    (tm : Timer) :
    (transientRoutine quiet data false tm).result = .error (.py .typeError) ∧
    view none (transientRoutine quiet data false tm).trace = [] := by
  obtain ⟨k, rest, hk⟩ : ∃ k rest, data.filter SKind.isSingle = k :: rest := by
    apply List.exists_cons_of_ne_nil
    intro e
    rw [List.filter_eq_nil_iff] at e
    rcases hs with h | h <;> exact e _ h rfl
  have hw : ∀ (body : List SKind → List SKind → Run Unit),
      (∀ file, body (k :: rest) file = ⟨.error (.py .typeError), []⟩) →
      withIO quiet data body = ⟨.error (.py .typeError), (data.filter SKind.isOpened).map Op.open ++
          (data.filter SKind.isFile).map Op.close⟩ := by
    intro body hb
    unfold withIO
    rw [ioOpen_ok quiet data fun _ => rfl, hk]
    simp only [Run.bind, ioClose, hb]
    rw [forM_quiet]
    rfl
  have hr : transientRoutine quiet data false tm = ⟨.error (.py .typeError),
      (data.filter SKind.isOpened).map Op.open ++ (data.filter SKind.isFile).map Op.close⟩ := by
    unfold transientRoutine
    show (pure () : Run Unit) >>= (fun _ => _) = _
    rw [pure_bind]
    exact hw _ fun file => by rw [ioPre_single, Run.error_bind]
  rw [hr]
  refine ⟨rfl, ?_⟩
  unfold view
  rw [List.filter_eq_nil_iff]
  intro o ho
  rcases List.mem_append.1 ho with ho | ho
  · obtain ⟨a, -, rfl⟩ := List.mem_map.1 ho
    simp [Op.stream]
  · obtain ⟨a, -, rfl⟩ := List.mem_map.1 ho
    simp [Op.stream]

/-! ## C102: the states -/

variable {ι X Y : Type}

/-- A statement that does not read files. -/
def Stmt.reads : Stmt → Bool
  | .loadState _ | .loadLevels _ => true
  | _ => false

section
variable [AddCommGroup X] [Module ℝ X] [AddCommGroup Y]

theorem core_stream (c : Script ι X Y) (o : Option (ℕ × ℕ)) (dt : ℝ) (ts : List (ℚ × ℚ))
    (st : RunState ι X) : Script.core { c with stream := o } dt ts st = c.core dt ts st := by
  induction ts generalizing st with
  | nil => rfl
  | cons a ts ih =>
    obtain ⟨t, label⟩ := a
    simp only [Script.core, ih]

/-- What a run yields and leaves behind, apart from its files. -/
theorem solve_core (c : Script ι X Y) (S : Session ι X) :
    (S.solve c).map (fun r => (r.1, r.2.run, r.2.timer)) = (do
      let ts ← S.timer.run false 1
      let r ← c.core S.timer.step ts S.run
      match ts.getLast? with
      | none => .error .unboundLocal
      | some (t, _) => .ok (r.1, r.2, { S.timer with t := t })) := by
  simp only [Session.solve]
  cases S.timer.run false 1 with
  | error e => rfl
  | ok ts =>
    show Except.map _ (Except.bind (c.loop _ 0 ts _) _) = Except.bind (c.core _ ts _) _
    rw [← loop_core c _ 0]
    cases c.loop (S.timer.step : ℝ) 0 ts S.run with
    | error e => rfl
    | ok r =>
      simp only [Except.bind, Except.map]
      cases ts.getLast? <;> rfl

/-- **C102** (states) A script that does not load files yields the same labels and states, leaves
the same unknowns, time levels and timer behind, and raises the same exceptions, whether the
gridfunction stream is on or off, with whatever rates, and whatever files are in its folder. -/
theorem C102_states (c : Script ι X Y) (o : Option (ℕ × ℕ)) (as : List Stmt)
    (has : ∀ a ∈ as, a.reads = false) (S T : Session ι X) (h1 : S.run = T.run)
    (h2 : S.timer = T.timer) :
    (Session.script { c with stream := o } as T).map (fun r => (r.1, r.2.run, r.2.timer))
      = (Session.script c as S).map fun r => (r.1, r.2.run, r.2.timer) := by
  induction as generalizing S T with
  | nil => simp only [Session.script, Except.map, h1, h2]
  | cons a as ih =>
    have hexec : (T.exec { c with stream := o } a).map (fun r => (r.1, r.2.run, r.2.timer))
        = (S.exec c a).map fun r => (r.1, r.2.run, r.2.timer) := by
      cases a with
      | loadState t => exact absurd (has (.loadState t) (by simp)) (by simp [Stmt.reads])
      | loadLevels t => exact absurd (has (.loadLevels t) (by simp)) (by simp [Stmt.reads])
      | step dt => simp only [Session.exec, Except.map, h1, h2]
      | interval s e =>
        simp only [Session.exec, h2]
        cases T.timer.setInterval s e with
        | error e => rfl
        | ok tm => show Except.ok _ = Except.ok _; simp only [h1]
      | solve =>
        simp only [Session.exec, solve_core, h1, h2, core_stream]
    have has' : ∀ a ∈ as, a.reads = false := fun a ha => has a (by simp [ha])
    simp only [Session.script]
    cases h3 : T.exec { c with stream := o } a with
    | error e =>
      rw [h3] at hexec
      cases h4 : S.exec c a with
      | error e' =>
        rw [h4] at hexec
        have : e = e' := by simpa [Except.map] using hexec
        rw [this]; rfl
      | ok r => rw [h4] at hexec; simp [Except.map] at hexec
    | ok r' =>
      rw [h3] at hexec
      cases h4 : S.exec c a with
      | error e' => rw [h4] at hexec; simp [Except.map] at hexec
      | ok r =>
        rw [h4] at hexec
        obtain ⟨ys, S1⟩ := r
        obtain ⟨zs, T1⟩ := r'
        simp only [Except.map, Except.ok.injEq, Prod.mk.injEq] at hexec
        obtain ⟨rfl, e1, e2⟩ := hexec
        have := ih has' S1 T1 e1.symm e2.symm
        show Except.map _ (Except.bind (Session.script _ as T1) _)
          = Except.map _ (Except.bind (Session.script c as S1) _)
        cases h5 : Session.script { c with stream := o } as T1 with
        | error e =>
          rw [h5] at this
          cases h6 : Session.script c as S1 with
          | error e' =>
            rw [h6] at this
            have : e = e' := by simpa [Except.map] using this
            rw [this]
          | ok r => rw [h6] at this; simp [Except.map] at this
        | ok r' =>
          rw [h5] at this
          cases h6 : Session.script c as S1 with
          | error e' => rw [h6] at this; simp [Except.map] at this
          | ok r =>
            rw [h6] at this
            simp only [Except.map, Except.ok.injEq, Prod.mk.injEq] at this
            simp only [Except.bind, Except.map, this]

/-! ## C103: the origin of time -/

/-- The same problem with all its data delayed by `a`: what was prescribed at the time `t` is now
prescribed at the time `t + a`. -/
def Script.delayed (c : Script ι X Y) (a : ℚ) : Script ι X Y :=
  { c with P := { c.P with spatial := fun t => c.P.spatial (t - a) } }

/-- The timer with its interval delayed by `a`. -/
def Timer.delayed (tm : Timer) (a : ℚ) : Timer :=
  { tm with start := tm.start + a, stop := tm.stop + a }

theorem run_delayed (tm : Timer) (a : ℚ) (b : Bool) (stride : ℕ) :
    (tm.delayed a).run b stride = (tm.run b stride).map
      (List.map fun p => (p.1 + a, pyRoundDigits (p.1 + a) tm.digit)) := by
  unfold Timer.run Timer.delayed
  split
  · rfl
  · simp only [Except.map, List.map_map, add_sub_add_right_eq_sub, Except.ok.injEq]
    apply List.map_congr_left
    intro i _
    simp only [Function.comp_apply, Prod.mk.injEq]
    exact ⟨by ring, by congr 1; ring⟩

theorem core_delayed (c : Script ι X Y) (a : ℚ) (dt : ℝ) (lab : ℚ → ℚ) (ts : List (ℚ × ℚ))
    (st : RunState ι X) :
    (c.delayed a).core dt (ts.map fun p => (p.1 + a, lab (p.1 + a))) st
      = (c.core dt ts st).map fun r =>
          ((ts.map fun p => lab (p.1 + a)).zip (r.1.map Prod.snd), r.2) := by
  induction ts generalizing st with
  | nil => rfl
  | cons p ts ih =>
    have hround : transientRound (c.delayed a).P (c.delayed a).s dt (c.delayed a).N st (p.1 + a)
        = transientRound c.P c.s dt c.N st p.1 := by
      simp only [transientRound, Script.delayed, Problem.residual, add_sub_cancel_right]
    simp only [List.map_cons, Script.core, hround]
    cases transientRound c.P c.s dt c.N st p.1 with
    | error e => rfl
    | ok st1 =>
      show Except.bind ((c.delayed a).core dt _ st1) _ = Except.map _ (Except.bind (c.core dt ts st1) _)
      rw [ih]
      cases c.core dt ts st1 <;> rfl

theorem core_labels (c : Script ι X Y) (dt : ℝ) (ts : List (ℚ × ℚ)) (st : RunState ι X)
    (r : List (ℚ × X) × RunState ι X) (h : c.core dt ts st = .ok r) :
    r.1.map Prod.fst = ts.map Prod.snd := by
  induction ts generalizing st r with
  | nil => rw [← Except.ok.inj h]; rfl
  | cons p ts ih =>
    simp only [Script.core] at h
    cases h1 : transientRound c.P c.s dt c.N st p.1 with
    | error e => rw [h1] at h; cases h
    | ok st1 =>
      rw [h1] at h
      change Except.bind (c.core dt ts st1) _ = _ at h
      cases h2 : c.core dt ts st1 with
      | error e => rw [h2] at h; cases h
      | ok r1 =>
        rw [h2] at h
        rw [← Except.ok.inj h]
        simp [ih st1 r1 h2]

/-- **C103** If all data are delayed by `a` together with the interval, the run computes the same
states, ends with the same unknowns and time levels, and raises the same exceptions; the time it
ends at is later by `a`. Nothing is assumed about the interval, the step or the solver. -/
theorem C103_states (c : Script ι X Y) (a : ℚ) (S : Session ι X) :
    (Session.solve (c.delayed a) { S with timer := S.timer.delayed a }).map
        (fun r => (r.1.map Prod.snd, r.2.run, r.2.timer.t))
      = (S.solve c).map fun r => (r.1.map Prod.snd, r.2.run, r.2.timer.t + a) := by
  have e1 := solve_core (c.delayed a) { S with timer := S.timer.delayed a }
  have e2 := solve_core c S
  have f1 := congrArg (Except.map fun r => (r.1.map Prod.snd, r.2.1, r.2.2.t)) e1
  have f2 := congrArg (Except.map fun r => (r.1.map Prod.snd, r.2.1, r.2.2.t + a)) e2
  have hmm : ∀ {A B C : Type} (x : Except PyErr A) (f : A → B) (g : B → C),
      (x.map f).map g = x.map fun y => g (f y) := by
    intro A B C x f g; cases x <;> rfl
  rw [hmm] at f1 f2
  rw [f1, f2]
  simp only
  rw [run_delayed]
  cases h1 : S.timer.run false 1 with
  | error e => rfl
  | ok ts =>
    show Except.map _ (Except.bind ((c.delayed a).core (S.timer.step : ℝ)
        (ts.map fun p => (p.1 + a, pyRoundDigits (p.1 + a) S.timer.digit)) S.run) _)
      = Except.map _ (Except.bind (c.core _ ts S.run) _)
    rw [core_delayed c a _ fun t => pyRoundDigits t S.timer.digit]
    cases h2 : c.core (S.timer.step : ℝ) ts S.run with
    | error e => rfl
    | ok r =>
      have hlen := congrArg List.length (core_labels c _ _ _ _ h2)
      simp only [List.length_map] at hlen
      simp only [Except.map, Except.bind, List.getLast?_map]
      cases ts.getLast? with
      | none => rfl
      | some tl =>
        simp only [Option.map_some]
        rw [List.map_snd_zip (by simp [hlen])]

theorem pyRound_even (x : ℚ) (m : ℤ) : pyRound (x + 2 * m) = pyRound x + 2 * m := by
  have hf : ⌊x + 2 * (m : ℚ)⌋ = ⌊x⌋ + 2 * m := by
    have := Int.floor_add_intCast x (2 * m)
    push_cast at this
    exact this
  unfold pyRound
  simp only [hf]
  push_cast
  rw [show x + 2 * (m : ℚ) - ((⌊x⌋ : ℚ) + 2 * m) = x - ⌊x⌋ by ring]
  have h2 : (⌊x⌋ + 2 * m) % 2 = ⌊x⌋ % 2 := by omega
  rw [h2]
  split_ifs <;> ring

/-- **C103** The labels are delayed as well, if the delay is an even multiple of the last digit the
labels have (for example a whole number, if the step is not a whole number). -/
theorem C103_labels (c : Script ι X Y) (a : ℚ) (S : Session ι X) (m : ℤ)
    (ha : a * 10 ^ S.timer.digit = 2 * m) :
    (Session.solve (c.delayed a) { S with timer := S.timer.delayed a }).map
        (fun r => (r.1, r.2.run))
      = (S.solve c).map fun r => (r.1.map (fun y => (y.1 + a, y.2)), r.2.run) := by
  have hround : ∀ t, pyRoundDigits (t + a) S.timer.digit = pyRoundDigits t S.timer.digit + a := by
    intro t
    have h10 : (10 : ℚ) ^ S.timer.digit ≠ 0 := by positivity
    unfold pyRoundDigits
    rw [add_mul, ha, pyRound_even]
    push_cast
    rw [← ha]
    field_simp
  have e1 := solve_core (c.delayed a) { S with timer := S.timer.delayed a }
  have e2 := solve_core c S
  have f1 := congrArg (Except.map fun r => (r.1, r.2.1)) e1
  have f2 := congrArg (Except.map fun r => (r.1.map (fun y => (y.1 + a, y.2)), r.2.1)) e2
  have hmm : ∀ {A B C : Type} (x : Except PyErr A) (f : A → B) (g : B → C),
      (x.map f).map g = x.map fun y => g (f y) := by
    intro A B C x f g; cases x <;> rfl
  rw [hmm] at f1 f2
  rw [f1, f2]
  simp only
  rw [run_delayed]
  cases h1 : S.timer.run false 1 with
  | error e => rfl
  | ok ts =>
    have hlab : ∀ p ∈ ts, p.2 = pyRoundDigits p.1 S.timer.digit := by
      unfold Timer.run at h1
      split at h1
      · cases h1
      · rw [← Except.ok.inj h1]
        intro p hp
        obtain ⟨i, -, rfl⟩ := List.mem_map.1 hp
        rfl
    show Except.map _ (Except.bind ((c.delayed a).core (S.timer.step : ℝ)
        (ts.map fun p => (p.1 + a, pyRoundDigits (p.1 + a) S.timer.digit)) S.run) _)
      = Except.map _ (Except.bind (c.core _ ts S.run) _)
    rw [core_delayed c a _ fun t => pyRoundDigits t S.timer.digit]
    cases h2 : c.core (S.timer.step : ℝ) ts S.run with
    | error e => rfl
    | ok r =>
      have hl := core_labels c _ _ _ _ h2
      simp only [Except.map, Except.bind, List.getLast?_map]
      cases ts.getLast? with
      | none => rfl
      | some tl =>
        simp only [Option.map_some, Except.ok.injEq, Prod.mk.injEq, and_true]
        have : (ts.map fun p => pyRoundDigits (p.1 + a) S.timer.digit)
            = (r.1.map Prod.fst).map (· + a) := by
          rw [hl, List.map_map]
          apply List.map_congr_left
          intro p hp
          simp only [Function.comp_apply, hlab p hp, hround]
        rw [this, List.map_map]
        generalize r.1 = ys
        induction ys with
        | nil => rfl
        | cons y ys ih => simpa using ih

end

/-- `C102_states` and `C103_labels` in a concrete case: uniform motion over `(10, 12)`, without
saving, yields what it yields over `(0, 2)` with all steps saved, ten later. -/
example (s : Scheme) : ∃ S S', (motion s).start 0 [] = .ok S ∧
    Session.script { motion s with stream := none } (freshRun 10 (1/2) 4) S
      = .ok ((motionYields s).map fun y => (y.1 + 10, y.2), S') := by
  obtain ⟨last, hl, hrun⟩ := freshRun_path (motion s) 0 [] 0 (1/2) 3 le_rfl (by norm_num)
  have hy := motion_four s [] _ _ _ (start_at _ _ _) hrun
  rw [hy] at hrun
  have e0 := script_setup_eq (motion s) 0 (0 + (3 + 1 : ℕ) * (1/2)) (1/2) le_rfl (by norm_num)
    [.solve] ((motion s).at 0 0) []
  rw [script_solve_eq] at e0
  have hsolve := e0.symm.trans hrun
  have h3 := C103_labels (motion s) 10 ⟨newTimer 0 (0 + (3 + 1 : ℕ) * (1/2)) (1/2),
    (motion s).at 0 0, []⟩ (5 * 10 ^ (setDigit (1/2))) (by
      simp only [newTimer]; push_cast; ring)
  rw [hsolve] at h3
  have htm : Timer.delayed (newTimer 0 (0 + (3 + 1 : ℕ) * (1/2)) (1/2)) 10
      = newTimer 10 (10 + (4 : ℕ) * (1/2)) (1/2) := by
    simp only [Timer.delayed, newTimer]; norm_num
  simp only [htm] at h3
  have hd : (motion s).delayed 10 = motion s := rfl
  rw [hd, ← script_solve_eq] at h3
  have e1 := script_setup_eq (motion s) 10 (10 + (4 : ℕ) * (1/2)) (1/2) (by norm_num) (by norm_num)
    [.solve] ((motion s).at 0 0) []
  rw [← e1] at h3
  have h2 := C102_states (motion s) none (freshRun 10 (1/2) 4)
    (by simp [freshRun, Stmt.reads]) ⟨Timer.default, (motion s).at 0 0, []⟩
    ⟨Timer.default, (motion s).at 0 0, []⟩ rfl rfl
  refine ⟨⟨Timer.default, (motion s).at 0 0, []⟩, ?_⟩
  cases h4 : Session.script { motion s with stream := none } (freshRun 10 (1/2) 4)
      ⟨Timer.default, (motion s).at 0 0, []⟩ with
  | error e =>
    rw [h4] at h2
    change _ = Except.map _ (Session.script (motion s) (.step (1/2) :: .interval 10 _ :: [.solve]) _)
      at h2
    cases h5 : Session.script (motion s) (freshRun 10 (1/2) 4)
      ⟨Timer.default, (motion s).at 0 0, []⟩ with
    | error e' => unfold freshRun at h5; rw [h5] at h3; cases h3
    | ok r => unfold freshRun at h5; rw [h5] at h2; cases h2
  | ok r =>
    rw [h4] at h2
    cases h5 : Session.script (motion s) (freshRun 10 (1/2) 4)
      ⟨Timer.default, (motion s).at 0 0, []⟩ with
    | error e' => rw [h5] at h2; cases h2
    | ok r' =>
      rw [h5] at h2
      unfold freshRun at h5
      rw [h5] at h3
      simp only [Except.map, Except.ok.injEq, Prod.mk.injEq] at h2 h3
      exact ⟨r.2, start_at _ _ _, by rw [← h3.1, ← h2.1]⟩

end Dream
