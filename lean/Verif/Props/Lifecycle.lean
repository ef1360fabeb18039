import Verif.Spec.Lifecycle
import Verif.Props.Transient
import Verif.Props.Timer

/-!
# C82: changed settings take effect when they should
-/

set_option linter.unusedSectionVars false

noncomputable section

namespace Dream

open Spec

variable {ι X Y O A : Type}

/-- The settings of the two solvers agree. -/
structure Life.Same (L : Life ι X O A) (P : Direct X O A) : Prop where
  vals : L.values L.ver = P.vals
  start : L.start = P.start
  stop : L.stop = P.stop
  digit : L.digit = P.digit
  opts : L.opts = P.opts
  asm : L.asm = P.asm
  nl : L.nl.o = P.nl
  scheme : L.scheme.kind = P.scheme

/-- Forms, scheme and gridfunctions belong together: made by the last `initialize` with options
`o` and the parameter objects `ver`, and the levels are those of the last two states. -/
def Life.HeldAt (K : Kit ι X Y O A) (L : Life ι X O A) (ver : String → ℕ) (o : O) (prev cur : X) :
    Prop :=
  ∃ g < L.nMem, L.forms = some ⟨o, ver, g, L.scheme.kind⟩ ∧ L.gfu = some g ∧
    L.scheme.mem = some g ∧
    L.mem g = some ⟨cur, L.scheme.kind.levelsOf (K.comp prev) (K.comp cur)⟩

/-- The parameter objects are those in use. -/
def Life.Held (K : Kit ι X Y O A) (L : Life ι X O A) (o : O) (prev cur : X) : Prop :=
  L.HeldAt K L.ver o prev cur

/-- The nonlinear solver has the present form. -/
def Life.Ready (L : Life ι X O A) : Prop :=
  ∃ f g, L.forms = some f ∧ L.gfu = some g ∧ L.nl.attrs = some ⟨f, L.asm, g⟩ ∧
    L.nl.methodReady = true

/-- The two solvers correspond to each other. -/
def Life.Rel (K : Kit ι X Y O A) (b r : Bool) (L : Life ι X O A) (P : Direct X O A) : Prop :=
  L.Same P ∧ (b = true → ∃ o prev cur, P.used = some (o, prev, cur) ∧ L.Held K o prev cur) ∧
    (b = true → r = true → L.Ready)

theorem values_setParam (L : Life ι X O A) (nv : String × ℚ) :
    (L.setParam nv).values L.ver = fun n => if n = nv.1 then nv.2 else L.values L.ver n := by
  funext n
  simp [Life.values, Life.setParam]

theorem Life.Same.setParam {L : Life ι X O A} {P : Direct X O A} (h : L.Same P) (nv : String × ℚ) :
    (L.setParam nv).Same (P.setParam nv) where
  vals := by
    show (L.setParam nv).values L.ver = _
    rw [values_setParam, h.vals]
    rfl
  start := h.start
  stop := h.stop
  digit := by simp [Life.setParam, Direct.setParam, h.digit]
  opts := h.opts
  asm := h.asm
  nl := h.nl
  scheme := h.scheme

theorem Life.Same.setParams {L : Life ι X O A} {P : Direct X O A} (h : L.Same P)
    (l : List (String × ℚ)) : (l.foldl Life.setParam L).Same (l.foldl Direct.setParam P) := by
  induction l generalizing L P with
  | nil => exact h
  | cons a l ih => exact ih (h.setParam a)

theorem Life.Held.setParams {K : Kit ι X Y O A} {L : Life ι X O A} {o : O} {prev cur : X}
    (h : L.Held K o prev cur) (l : List (String × ℚ)) :
    (l.foldl Life.setParam L).Held K o prev cur := by
  induction l generalizing L with
  | nil => exact h
  | cons a l ih => exact ih h

theorem Life.Ready.setParams {L : Life ι X O A} (h : L.Ready) (l : List (String × ℚ)) :
    (l.foldl Life.setParam L).Ready := by
  induction l generalizing L with
  | nil => exact h
  | cons a l ih => exact ih h

theorem store_self (L : Life ι X O A) (g : ℕ) (st : RunState ι X) (h : L.mem g = some st) :
    L.store g st = L := by
  have : (fun i => if i = g then some st else L.mem i) = L.mem := by
    funext i
    by_cases hi : i = g
    · rw [if_pos hi, hi, h]
    · rw [if_neg hi]
  unfold Life.store
  rw [this]

/-- The timer sets the times of the grid. -/
theorem times_eq (start stop step : ℚ) : Life.times start stop step = grid start stop step := by
  unfold Life.times grid
  by_cases h : step = 0
  · rw [if_pos h, C01_timer_zero_step _ _ _ (Or.inl h)]
    rfl
  · rw [if_neg h, Timer.run_eq _ _ _ (by simpa using h)]
    simp only [bind, Except.bind, List.map_map]
    congr 1
    have e1 : (pyRound ((stop - start) / (((1 : ℕ) : ℚ) * step)) + 1
        - ((1 - Bool.toNat false : ℕ) : ℤ)).toNat = (pyRound ((stop - start) / step)).toNat := by
      norm_num
    rw [e1]
    refine List.map_congr_left fun k _ => ?_
    simp only [Function.comp_apply, Bool.toNat_false]
    push_cast
    ring

theorem quotientOf_eq (s : Scheme) : quotientOf s = s.quotient := by cases s <;> rfl

section
variable [AddCommGroup X] [Module ℝ X] [AddCommGroup Y]

theorem solve_none (lin : (X → Y) → LinOracle X) (d c : ℝ) (m : ℤ) (hm : m ≤ 0) (F : X → Y)
    (x : X) : ((⟨lin, d, c, m⟩ : Newton X Y).solve F x).u = x := by
  have : m.toNat = 0 := by omega
  simp [Newton.solve, nlSolve, this, nlLoop]

theorem level_step (K : Kit ι X Y O A) (L : Life ι X O A) (P : Direct X O A) (ver : String → ℕ)
    (o : O) (prev cur : X) (hv : L.values ver = P.vals) (ha : L.asm = P.asm) (hn : L.nl.o = P.nl)
    (hk : L.scheme.kind = P.scheme) (hh : L.HeldAt K ver o prev cur) (hr : L.Ready) :
    ∃ L1, L.solveLevel K = .ok L1 ∧ ∃ L2 g st, L1.shift K = .ok L2 ∧
      L2.visible = .ok (P.next K o prev cur) ∧ L2 = L.store g st ∧
      L2.HeldAt K ver o cur (P.next K o prev cur) ∧ L2.Ready := by
  obtain ⟨g, hg, h1, h2, h3, h4⟩ := hh
  obtain ⟨f, g', r1, r2, r3, r4⟩ := hr
  rw [h1] at r1
  rw [h2] at r2
  cases Option.some.inj r1
  cases Option.some.inj r2
  -- the unknowns after the nonlinear solve
  have key : ∃ lv, lv = L.scheme.kind.levelsOf (K.comp prev) (K.comp cur) ∧
      ∃ L1 : Life ι X O A, L.solveLevel K = .ok L1 ∧
        L1 = L.store g ⟨P.next K o prev cur, lv⟩ := by
    refine ⟨_, rfl, ?_⟩
    by_cases hm : L.nl.o.maxIter ≤ 0
    · refine ⟨L, by simp [Life.solveLevel, hm], ?_⟩
      have hx : P.next K o prev cur = cur := by
        unfold Direct.next
        exact solve_none _ _ _ _ (by rw [← hn]; exact hm) _ _
      rw [hx]
      exact (store_self L g _ h4).symm
    · have hF : ∀ (Q : Problem ι X Y) (_ : Q = K.problem o P.vals) (x : X),
          Q.residual L.scheme.kind ((P.vals "step" : ℚ) : ℝ)
            (L.scheme.kind.levelsOf (K.comp prev) (K.comp cur)) 0 x
          = .ok (K.spatial o P.vals x + K.mass o fun i =>
              quotientOf P.scheme ((P.vals "step" : ℚ) : ℝ) (K.comp x i) (K.comp cur i)
                (K.comp prev i)) := by
        rintro Q rfl x
        rw [quotientOf_eq, ← hk]
        exact residual_levelsOf (K.problem o P.vals) L.scheme.kind _ 0 prev cur x
      refine ⟨_, ?_, rfl⟩
      unfold Life.solveLevel
      rw [if_neg hm, r3]
      simp only [h4, r4, hv, hF _ rfl]
      simp only [Bool.true_eq_false, false_and, if_false, valueOr, bind, Except.bind]
      congr 3
      unfold Direct.next
      rw [hn, ha]
  obtain ⟨lv, hlv, L1, e1, eL1⟩ := key
  refine ⟨L1, e1, ?_⟩
  have hshift : L1.shift K = .ok (L1.store g ⟨P.next K o prev cur,
      L.scheme.kind.levelsOf (K.comp cur) (K.comp (P.next K o prev cur))⟩) := by
    subst eL1
    subst hlv
    unfold Life.shift
    simp only [Life.store, h3, if_true]
    rw [timeStep_levelsOf]
    rfl
  refine ⟨_, g, ⟨P.next K o prev cur,
      L.scheme.kind.levelsOf (K.comp cur) (K.comp (P.next K o prev cur))⟩, hshift, ?_, ?_, ?_, ?_⟩
  · subst eL1
    simp [Life.visible, Life.store, h2]
  · subst eL1
    unfold Life.store
    congr 1
    funext i
    by_cases hi : i = g
    · simp only [if_pos hi]
    · simp only [if_neg hi]
  · subst eL1
    exact ⟨g, hg, h1, h2, h3, by simp [Life.store]⟩
  · subst eL1
    exact ⟨_, g, h1, h2, r3, r4⟩

theorem loop_step (K : Kit ι X Y O A) (hook : ℕ → List (String × ℚ)) (o : O) (ts : List ℚ) :
    ∀ (k : ℕ) (L : Life ι X O A) (P : Direct X O A) (prev cur : X), L.Same P →
      L.Held K o prev cur → L.Ready →
    ∃ L', Life.loop K hook k ts L = .ok ((Direct.loop K hook o k ts prev cur P).1, L') ∧
      L'.Rel K true true (Direct.loop K hook o k ts prev cur P).2 := by
  induction ts with
  | nil =>
    intro k L P prev cur hs hh hr
    refine ⟨L, rfl, ⟨hs.vals, hs.start, hs.stop, hs.digit, hs.opts, hs.asm, hs.nl, hs.scheme⟩,
      fun _ => ⟨o, prev, cur, rfl, hh⟩, fun _ _ => hr⟩
  | cons t ts ih =>
    intro k L P prev cur hs hh hr
    have hs1 := hs.setParam ("t", t)
    obtain ⟨L1, e1, L2, g, st, e2, e3, e4, h2, r2⟩ := level_step K (L.setParam ("t", t))
      (P.setParam ("t", t)) L.ver o prev cur hs1.vals hs1.asm hs1.nl hs1.scheme
      (hh.setParams [("t", t)]) (hr.setParams [("t", t)])
    have s2 : L2.Same (P.setParam ("t", t)) := by
      subst e4
      exact ⟨hs1.vals, hs1.start, hs1.stop, hs1.digit, hs1.opts, hs1.asm, hs1.nl, hs1.scheme⟩
    have h2 : L2.Held K o cur ((P.setParam ("t", t)).next K o prev cur) := by
      subst e4; exact h2
    have e4 := s2.digit
    obtain ⟨L3, e5, hrel⟩ := ih (k + 1) _ _ _ _ (s2.setParams (hook k)) (h2.setParams (hook k))
      (r2.setParams (hook k))
    refine ⟨L3, ?_, hrel⟩
    simp only [Life.loop]
    rw [e1]
    simp only [bind, Except.bind]
    rw [e2]
    simp only [e3]
    rw [e5, e4]
    rfl

/-- One deed of a disciplined user has the same effect on both. -/
def Agree (K : Kit ι X Y O A) (b r : Bool) :
    Except PyErr (List (ℚ × X) × Life ι X O A) → Except PyErr (List (ℚ × X) × Direct X O A) → Prop
  | .error e, .error e' => e = e'
  | .ok a, .ok a' => a.1 = a'.1 ∧ a.2.Rel K b r a'.2
  | _, _ => False

theorem solve_step (K : Kit ι X Y O A) (L : Life ι X O A) (P : Direct X O A) (re : Bool)
    (hook : ℕ → List (String × ℚ)) (r : Bool) (hrel : L.Rel K true r P)
    (hre : re = true ∨ r = true) :
    Agree K true true (L.exec K (.solve re hook)) (P.exec K (.solve re hook)) := by
  obtain ⟨hs, hb, hr⟩ := hrel
  obtain ⟨o, prev, cur, hu, hh⟩ := hb rfl
  -- after assembling
  have hasm : ∃ L0 : Life ι X O A, L.begin re = .ok L0 ∧ L0.Same P ∧
      L0.Held K o prev cur ∧ L0.Ready := by
    by_cases h : re = true
    · obtain ⟨g, hg, h1, h2, h3, h4⟩ := hh
      have e : L.begin re = .ok { L with
          nl := ⟨L.nl.o, some ⟨⟨o, L.ver, g, L.scheme.kind⟩, L.asm, g⟩, true⟩ } := by
        simp only [Life.begin]
        rw [if_pos h]
        simp only [Life.assemble, h1, h2]
      refine ⟨_, e, ?_, ?_, ?_⟩
      · exact ⟨hs.vals, hs.start, hs.stop, hs.digit, hs.opts, hs.asm, hs.nl, hs.scheme⟩
      · exact ⟨g, hg, h1, h2, h3, h4⟩
      · exact ⟨_, g, h1, h2, rfl, rfl⟩
    · have h' : r = true := hre.resolve_left h
      exact ⟨L, by simp only [Life.begin]; rw [if_neg h], hs, hh, hr rfl h'⟩
  obtain ⟨L0, e0, s0, h0, r0⟩ := hasm
  have hv : L0.values L0.ver "step" = P.vals "step" := by rw [s0.vals]
  simp only [Life.exec, Life.solve, e0, Direct.exec, hu, bind, Except.bind, hv, s0.start, s0.stop,
    times_eq]
  cases hts : grid P.start P.stop (P.vals "step") with
  | error e => rfl
  | ok ts =>
    obtain ⟨L', e1, hrel'⟩ := loop_step K hook o ts 0 L0 P prev cur s0 h0 r0
    simp only [e1]
    by_cases hem : ts.isEmpty = true
    · simp only [hem, if_true]; rfl
    · simp only [hem]
      exact ⟨rfl, hrel'⟩

theorem initialize_step (K : Kit ι X Y O A) (L : Life ι X O A) (P : Direct X O A) (hs : L.Same P) :
    Agree K true false (L.exec K .initialize) (P.exec K .initialize) := by
  simp only [Life.exec, Life.initialize, init_levelsOf, Direct.exec]
  refine ⟨rfl, ⟨hs.vals, hs.start, hs.stop, hs.digit, hs.opts, hs.asm, hs.nl, hs.scheme⟩,
    fun _ => ⟨P.opts, _, _, rfl, L.nMem, Nat.lt_succ_self _, ?_, rfl, rfl, ?_⟩, fun _ h => (nomatch h)⟩
  · rw [← hs.opts]
    rfl
  · simp only [Life.store]
    rw [if_pos trivial, ← hs.opts, ← hs.vals]
    rfl

theorem newTimer_same (L : Life ι X O A) (P : Direct X O A) (hs : L.Same P) :
    L.newTimer.Same { ((P.setParam ("step", 1 / 10000)).setParam ("t", 0)) with
      start := 0, stop := 1 } where
  vals := by
    funext n
    by_cases h1 : n = "t"
    · subst h1; simp [Life.values, Life.newTimer, Direct.setParam]
    · by_cases h2 : n = "step"
      · subst h2; simp [Life.values, Life.newTimer, Direct.setParam]
      · have := congrFun hs.vals n
        simp only [Life.values] at this
        simp [Life.values, Life.newTimer, Direct.setParam, h1, h2, this]
  start := rfl
  stop := rfl
  digit := by simp [Life.newTimer, Direct.setParam]
  opts := hs.opts
  asm := hs.asm
  nl := hs.nl
  scheme := hs.scheme

/-- Which runs are allowed. -/
def Deed.Allowed (b r : Bool) : Deed O A → Prop
  | .solve re _ => b = true ∧ (re = true ∨ r = true)
  | _ => True

/-- What is in order after a deed. -/
def Deed.after (b r : Bool) : Deed O A → Bool × Bool
  | .param _ _ | .interval _ _ | .opts _ | .nlOpts _ => (b, r)
  | .asm _ | .newNl _ | .newMethod _ => (b, false)
  | .newScheme _ | .newTimer => (false, false)
  | .initialize => (true, false)
  | .solve _ _ => (b, true)

theorem disciplined_cons (b r : Bool) (d : Deed O A) (ds : List (Deed O A)) :
    Disciplined b r (d :: ds) ↔
      d.Allowed b r ∧ Disciplined (d.after b r).1 (d.after b r).2 ds := by
  cases d <;> simp [Disciplined, Deed.Allowed, Deed.after, and_assoc]

/-- One deed. -/
theorem exec_agree (K : Kit ι X Y O A) (d : Deed O A) (b r : Bool) (hd : d.Allowed b r)
    (L : Life ι X O A) (P : Direct X O A) (hrel : L.Rel K b r P) :
    Agree K (d.after b r).1 (d.after b r).2 (L.exec K d) (P.exec K d) := by
  obtain ⟨hs, hb, hr⟩ := hrel
  cases d with
  | param n v =>
    refine ⟨rfl, hs.setParam _, fun h => ?_, fun h h' => (hr h h').setParams [(n, v)]⟩
    obtain ⟨o, prev, cur, hu, hh⟩ := hb h
    exact ⟨o, prev, cur, hu, hh.setParams [(n, v)]⟩
  | interval s e =>
    simp only [Life.exec, Direct.exec, Timer.setInterval]
    by_cases h1 : s < 0 ∨ e < 0
    · rw [if_pos h1, if_pos (by tauto)]; rfl
    · by_cases h2 : s ≥ e
      · rw [if_neg h1, if_pos h2, if_pos (by tauto)]; rfl
      · rw [if_neg h1, if_neg h2, if_neg (by tauto)]
        exact ⟨rfl, ⟨hs.vals, rfl, rfl, hs.digit, hs.opts, hs.asm, hs.nl, hs.scheme⟩, hb, hr⟩
  | opts o =>
    exact ⟨rfl, ⟨hs.vals, hs.start, hs.stop, hs.digit, rfl, hs.asm, hs.nl, hs.scheme⟩, hb, hr⟩
  | asm a =>
    exact ⟨rfl, ⟨hs.vals, hs.start, hs.stop, hs.digit, hs.opts, rfl, hs.nl, hs.scheme⟩, hb,
      fun _ h => (nomatch h)⟩
  | nlOpts o =>
    exact ⟨rfl, ⟨hs.vals, hs.start, hs.stop, hs.digit, hs.opts, hs.asm, rfl, hs.scheme⟩, hb, hr⟩
  | newNl o =>
    exact ⟨rfl, ⟨hs.vals, hs.start, hs.stop, hs.digit, hs.opts, hs.asm, rfl, hs.scheme⟩, hb,
      fun _ h => (nomatch h)⟩
  | newMethod d =>
    refine ⟨rfl, ⟨hs.vals, hs.start, hs.stop, hs.digit, hs.opts, hs.asm, ?_, hs.scheme⟩, hb,
      fun _ h => (nomatch h)⟩
    show ({ L.nl.o with damping := d } : NlOpts) = { P.nl with damping := d }
    rw [hs.nl]
  | newScheme s =>
    exact ⟨rfl, ⟨hs.vals, hs.start, hs.stop, hs.digit, hs.opts, hs.asm, hs.nl, rfl⟩,
      fun h => (nomatch h), fun h => (nomatch h)⟩
  | newTimer => exact ⟨rfl, newTimer_same L P hs, fun h => (nomatch h), fun h => (nomatch h)⟩
  | «initialize» => exact initialize_step K L P hs
  | solve re hook =>
    obtain ⟨h1, h2⟩ := hd
    subst h1
    exact solve_step K L P re hook r ⟨hs, hb, hr⟩ h2

/-- What is in order after several deeds. -/
def afterAll : (b r : Bool) → List (Deed O A) → Bool × Bool
  | b, r, [] => (b, r)
  | b, r, d :: ds => afterAll (d.after b r).1 (d.after b r).2 ds

/-- The same for a sequence of deeds. -/
theorem script_agree (K : Kit ι X Y O A) (ds : List (Deed O A)) (b r : Bool)
    (hd : Disciplined b r ds) (L : Life ι X O A) (P : Direct X O A) (hrel : L.Rel K b r P) :
    Agree K (afterAll b r ds).1 (afterAll b r ds).2 (Life.script K ds L) (Direct.script K ds P) := by
  induction ds generalizing b r L P with
  | nil => exact ⟨rfl, hrel⟩
  | cons d ds ih =>
    obtain ⟨ha, hd'⟩ := (disciplined_cons b r d ds).mp hd
    have hag := exec_agree K d b r ha L P hrel
    simp only [Life.script, Direct.script]
    cases h1 : L.exec K d with
    | error e =>
      cases h2 : P.exec K d with
      | error e' => rw [h1, h2] at hag; exact hag
      | ok a' => rw [h1, h2] at hag; exact hag.elim
    | ok a =>
      cases h2 : P.exec K d with
      | error e' => rw [h1, h2] at hag; exact hag.elim
      | ok a' =>
        rw [h1, h2] at hag
        obtain ⟨hy, hrel'⟩ := hag
        have := ih _ _ hd' a.2 a'.2 hrel'
        show Agree K _ _ ((Life.script K ds a.2).bind _) ((Direct.script K ds a'.2).bind _)
        cases h3 : Life.script K ds a.2 with
        | error e =>
          cases h4 : Direct.script K ds a'.2 with
          | error e' => rw [h3, h4] at this; exact this
          | ok q => rw [h3, h4] at this; exact this.elim
        | ok p =>
          cases h4 : Direct.script K ds a'.2 with
          | error e' => rw [h3, h4] at this; exact this.elim
          | ok q =>
            rw [h3, h4] at this
            refine ⟨?_, this.2⟩
            show a.1 ++ p.1 = a'.1 ++ q.1
            rw [hy, this.1]

theorem fresh_rel (K : Kit ι X Y O A) (v : String → ℚ) (o : O) (a : A) (n : NlOpts) (s : Scheme) :
    (Life.fresh v o a n s : Life ι X O A).Rel K false false (Direct.fresh v o a n s) :=
  ⟨⟨rfl, rfl, rfl, rfl, rfl, rfl, rfl, rfl⟩, fun h => (nomatch h), fun h => (nomatch h)⟩

/-- **C82** For every sequence of assignments, replacements, initialisations and runs of a
disciplined user, with arbitrary assignments of parameters between two steps, and whatever the
state of the solver and the corresponding solver without objects: the code yields exactly what the
solver without objects yields, and raises exactly when that does. -/
theorem C82_refines_partial (K : Kit ι X Y O A) (ds : List (Deed O A)) (b r : Bool)
    (hd : Disciplined b r ds) (L : Life ι X O A) (P : Direct X O A) (hrel : L.Rel K b r P) :
    (Life.script K ds L).map Prod.fst = (Direct.script K ds P).map Prod.fst := by
  have := script_agree K ds b r hd L P hrel
  cases h1 : Life.script K ds L with
  | error e =>
    cases h2 : Direct.script K ds P with
    | error e' => rw [h1, h2] at this; exact congrArg _ this
    | ok q => rw [h1, h2] at this; exact this.elim
  | ok p =>
    cases h2 : Direct.script K ds P with
    | error e' => rw [h1, h2] at this; exact this.elim
    | ok q => rw [h1, h2] at this; exact congrArg _ this.1

/-- **C82** From the start: whatever a disciplined user does with a new solver, every setting has
the effect it has in the solver without objects. -/
theorem C82_in_force_partial (K : Kit ι X Y O A) (ds : List (Deed O A)) (hd : Disciplined false false ds)
    (v : String → ℚ) (o : O) (a : A) (n : NlOpts) (s : Scheme) :
    (Life.script K ds (Life.fresh v o a n s)).map Prod.fst
      = (Direct.script K ds (Direct.fresh v o a n s)).map Prod.fst :=
  C82_refines_partial K ds false false hd _ _ (fresh_rel K v o a n s)

/-! ## What waits -/

/-- Other options of both kinds. -/
def Life.withOpts (L : Life ι X O A) (o : O) (a : A) : Life ι X O A := { L with opts := o, asm := a }

theorem map_bind_eq {α β γ : Type} (f : β → γ) (E : Except PyErr α) (F : α → Except PyErr γ)
    (G : α → Except PyErr β) (h : ∀ u, F u = (G u).map f) :
    E.bind F = (E.bind G).map f := by
  cases E with
  | error e => rfl
  | ok u => exact h u

theorem ite_map_eq {β γ : Type} (f : β → γ) (c : Prop) [Decidable c] (e : PyErr) (b : β) (b' : γ)
    (h : b' = f b) :
    (if c then .error e else .ok b' : Except PyErr γ)
      = (if c then .error e else .ok b : Except PyErr β).map f := by
  subst h
  split_ifs <;> rfl

theorem solveLevel_withOpts (K : Kit ι X Y O A) (L : Life ι X O A) (o : O) (a : A) :
    (L.withOpts o a).solveLevel K = (L.solveLevel K).map fun M => M.withOpts o a := by
  obtain ⟨cells, ver, start, stop, digit, opts, asm, ⟨no, attrs, mr⟩, scheme, mem, nMem, gfu, forms⟩ := L
  simp only [Life.withOpts]
  unfold Life.solveLevel
  dsimp only
  by_cases hm : no.maxIter ≤ 0
  · rw [if_pos hm]
    rw [if_pos hm]; rfl
  · rw [if_neg hm]
    rw [if_neg hm]
    cases attrs with
    | none => rfl
    | some b =>
      dsimp only
      cases h1 : mem b.unk with
      | none => rfl
      | some st =>
        cases h2 : mem b.form.mem with
        | none => rfl
        | some lv => exact map_bind_eq _ _ _ _ fun _ => ite_map_eq _ _ _ _ _ rfl

theorem shift_withOpts (K : Kit ι X Y O A) (L : Life ι X O A) (o : O) (a : A) :
    (L.withOpts o a).shift K = (L.shift K).map fun M => M.withOpts o a := by
  simp only [Life.shift, Life.withOpts]
  cases L.scheme.mem with
  | none => rfl
  | some g =>
    dsimp only
    cases L.mem g with
    | none => rfl
    | some st =>
      dsimp only
      cases timeStep L.scheme.kind.levelNames st.levels (K.comp st.x) with
      | error e => rfl
      | ok lv => rfl

theorem setParams_withOpts (L : Life ι X O A) (o : O) (a : A) (l : List (String × ℚ)) :
    l.foldl Life.setParam (L.withOpts o a) = (l.foldl Life.setParam L).withOpts o a := by
  induction l generalizing L with
  | nil => rfl
  | cons c l ih => exact ih (L.setParam c)

theorem loop_withOpts (K : Kit ι X Y O A) (hook : ℕ → List (String × ℚ)) (o : O) (a : A)
    (ts : List ℚ) (k : ℕ) (L : Life ι X O A) :
    Life.loop K hook k ts (L.withOpts o a)
      = (Life.loop K hook k ts L).map fun r => (r.1, r.2.withOpts o a) := by
  induction ts generalizing k L with
  | nil => rfl
  | cons t ts ih =>
    simp only [Life.loop]
    rw [show (L.withOpts o a).setParam ("t", t) = (L.setParam ("t", t)).withOpts o a from rfl,
      solveLevel_withOpts]
    cases (L.setParam ("t", t)).solveLevel K with
    | error e => rfl
    | ok L1 =>
      show ((L1.withOpts o a).shift K).bind _ = _
      rw [shift_withOpts]
      show _ = Except.map _ ((L1.shift K).bind _)
      cases L1.shift K with
      | error e => rfl
      | ok L2 =>
        show ((L2.withOpts o a).visible).bind _ = Except.map _ (L2.visible.bind _)
        rw [show (L2.withOpts o a).visible = L2.visible from rfl]
        cases L2.visible with
        | error e => rfl
        | ok x =>
          show (Life.loop K hook (k + 1) ts ((hook k).foldl Life.setParam (L2.withOpts o a))).bind _
            = Except.map _ ((Life.loop K hook (k + 1) ts ((hook k).foldl Life.setParam L2)).bind _)
          rw [setParams_withOpts, ih]
          cases Life.loop K hook (k + 1) ts ((hook k).foldl Life.setParam L2) with
          | error e => rfl
          | ok r => rfl

theorem solve_withOpts (K : Kit ι X Y O A) (hook : ℕ → List (String × ℚ)) (o : O) (a : A)
    (re : Bool) (L : Life ι X O A) (h : re = true → a = L.asm) :
    (L.withOpts o a).solve K re hook
      = (L.solve K re hook).map fun r => (r.1, r.2.withOpts o a) := by
  have hb : (L.withOpts o a).begin re = (L.begin re).map fun M => M.withOpts o a := by
    cases re with
    | false => rfl
    | true =>
      obtain rfl := h rfl
      simp only [Life.begin, if_true, Life.assemble]
      rw [show (L.withOpts o L.asm).forms = L.forms from rfl,
        show (L.withOpts o L.asm).gfu = L.gfu from rfl]
      cases L.forms with
      | none => rfl
      | some f =>
        cases L.gfu with
        | none => rfl
        | some g => rfl
  simp only [Life.solve]
  rw [hb]
  cases L.begin re with
  | error e => rfl
  | ok M =>
    show (Life.times M.start M.stop (M.values M.ver "step")).bind _
      = Except.map _ ((Life.times M.start M.stop (M.values M.ver "step")).bind _)
    cases Life.times M.start M.stop (M.values M.ver "step") with
    | error e => rfl
    | ok ts =>
      show (Life.loop K hook 0 ts (M.withOpts o a)).bind _
        = Except.map _ ((Life.loop K hook 0 ts M).bind _)
      rw [loop_withOpts]
      cases Life.loop K hook 0 ts M with
      | error e => rfl
      | ok r =>
        show (if ts.isEmpty then _ else _) = Except.map _ (if ts.isEmpty then _ else _)
        split_ifs <;> rfl

/-! ## What a run leaves alone -/

/-- A run only writes gridfunctions, parameters and what the nonlinear solver holds. -/
structure Life.Kept (L M : Life ι X O A) : Prop where
  asm : M.asm = L.asm
  opts : M.opts = L.opts
  scheme : M.scheme = L.scheme
  forms : M.forms = L.forms
  gfu : M.gfu = L.gfu

theorem Life.Kept.trans {L M N : Life ι X O A} (h : L.Kept M) (k : M.Kept N) : L.Kept N :=
  ⟨k.asm.trans h.asm, k.opts.trans h.opts, k.scheme.trans h.scheme, k.forms.trans h.forms,
    k.gfu.trans h.gfu⟩

theorem solveLevel_kept (K : Kit ι X Y O A) (L M : Life ι X O A) (h : L.solveLevel K = .ok M) :
    L.Kept M ∧ M.nl = L.nl := by
  unfold Life.solveLevel at h
  by_cases hm : L.nl.o.maxIter ≤ 0
  · rw [if_pos hm] at h
    cases Except.ok.inj h
    exact ⟨⟨rfl, rfl, rfl, rfl, rfl⟩, rfl⟩
  · rw [if_neg hm] at h
    cases h1 : L.nl.attrs with
    | none => rw [h1] at h; cases h
    | some b =>
      rw [h1] at h
      dsimp only at h
      cases h2 : L.mem b.unk with
      | none => rw [h2] at h; cases h
      | some st =>
        cases h3 : L.mem b.form.mem with
        | none => rw [h2, h3] at h; cases h
        | some lv =>
          rw [h2, h3] at h
          dsimp only at h
          cases h4 : (K.problem b.form.opts (L.values b.form.ver)).residual b.form.scheme
              (L.values b.form.ver "step" : ℚ) lv.levels 0 st.x with
          | error e => rw [h4] at h; cases h
          | ok y =>
            rw [h4] at h
            simp only [bind, Except.bind] at h
            split_ifs at h
            cases Except.ok.inj h
            exact ⟨⟨rfl, rfl, rfl, rfl, rfl⟩, rfl⟩

theorem shift_kept (K : Kit ι X Y O A) (L M : Life ι X O A) (h : L.shift K = .ok M) :
    L.Kept M ∧ M.nl = L.nl := by
  unfold Life.shift at h
  cases h1 : L.scheme.mem with
  | none => rw [h1] at h; cases h
  | some g =>
    rw [h1] at h
    dsimp only at h
    cases h2 : L.mem g with
    | none => rw [h2] at h; cases h
    | some st =>
      rw [h2] at h
      dsimp only at h
      cases h3 : timeStep L.scheme.kind.levelNames st.levels (K.comp st.x) with
      | error e => rw [h3] at h; cases h
      | ok lv =>
        rw [h3] at h
        cases Except.ok.inj h
        exact ⟨⟨rfl, rfl, rfl, rfl, rfl⟩, rfl⟩

theorem setParams_kept (l : List (String × ℚ)) (L : Life ι X O A) :
    L.Kept (l.foldl Life.setParam L) ∧ (l.foldl Life.setParam L).nl = L.nl := by
  induction l generalizing L with
  | nil => exact ⟨⟨rfl, rfl, rfl, rfl, rfl⟩, rfl⟩
  | cons c l ih =>
    obtain ⟨h1, h2⟩ := ih (L.setParam c)
    exact ⟨⟨h1.asm, h1.opts, h1.scheme, h1.forms, h1.gfu⟩, h2⟩

theorem loop_kept (K : Kit ι X Y O A) (hook : ℕ → List (String × ℚ)) (ts : List ℚ) (k : ℕ)
    (L : Life ι X O A) (r : List (ℚ × X) × Life ι X O A) (h : Life.loop K hook k ts L = .ok r) :
    L.Kept r.2 ∧ r.2.nl = L.nl := by
  induction ts generalizing k L r with
  | nil => cases Except.ok.inj h; exact ⟨⟨rfl, rfl, rfl, rfl, rfl⟩, rfl⟩
  | cons t ts ih =>
    simp only [Life.loop] at h
    cases h1 : (L.setParam ("t", t)).solveLevel K with
    | error e => rw [h1] at h; cases h
    | ok L1 =>
      rw [h1] at h
      simp only [bind, Except.bind] at h
      cases h2 : L1.shift K with
      | error e => rw [h2] at h; cases h
      | ok L2 =>
        rw [h2] at h
        dsimp only at h
        cases h3 : L2.visible with
        | error e => rw [h3] at h; cases h
        | ok x =>
          rw [h3] at h
          dsimp only at h
          cases h4 : Life.loop K hook (k + 1) ts ((hook k).foldl Life.setParam L2) with
          | error e => rw [h4] at h; cases h
          | ok q =>
            rw [h4] at h
            cases Except.ok.inj h
            obtain ⟨a1, b1⟩ := solveLevel_kept K _ _ h1
            obtain ⟨a2, b2⟩ := shift_kept K _ _ h2
            obtain ⟨a3, b3⟩ := setParams_kept (hook k) L2
            obtain ⟨a4, b4⟩ := ih _ _ _ h4
            have a0 : L.Kept (L.setParam ("t", t)) := ⟨rfl, rfl, rfl, rfl, rfl⟩
            exact ⟨(((a0.trans a1).trans a2).trans a3).trans a4, b4.trans (b3.trans (b2.trans b1))⟩

theorem solve_kept (K : Kit ι X Y O A) (re : Bool) (hook : ℕ → List (String × ℚ))
    (L : Life ι X O A) (r : List (ℚ × X) × Life ι X O A) (h : L.solve K re hook = .ok r) :
    L.Kept r.2 := by
  simp only [Life.solve] at h
  cases h1 : L.begin re with
  | error e => rw [h1] at h; cases h
  | ok M =>
    rw [h1] at h
    simp only [bind, Except.bind] at h
    have hM : L.Kept M := by
      cases re with
      | false => cases Except.ok.inj h1; exact ⟨rfl, rfl, rfl, rfl, rfl⟩
      | true =>
        simp only [Life.begin, if_true, Life.assemble] at h1
        cases hf : L.forms with
        | none => rw [hf] at h1; cases h1
        | some f =>
          cases hg : L.gfu with
          | none => rw [hf, hg] at h1; cases h1
          | some g =>
            rw [hf, hg] at h1
            cases Except.ok.inj h1
            exact ⟨rfl, rfl, rfl, hf.symm, hg.symm⟩
    cases h2 : Life.times M.start M.stop (M.values M.ver "step") with
    | error e => rw [h2] at h; cases h
    | ok ts =>
      rw [h2] at h
      dsimp only at h
      cases h3 : Life.loop K hook 0 ts M with
      | error e => rw [h3] at h; cases h
      | ok q =>
        rw [h3] at h
        dsimp only at h
        split_ifs at h
        cases Except.ok.inj h
        exact hM.trans (loop_kept K hook ts 0 M _ h3).1

theorem solve_asm (K : Kit ι X Y O A) (re : Bool) (hook : ℕ → List (String × ℚ))
    (L : Life ι X O A) (r : List (ℚ × X) × Life ι X O A) (h : L.exec K (.solve re hook) = .ok r) :
    r.2.asm = L.asm := (solve_kept K re hook L r h).asm

theorem script_withOpts (K : Kit ι X Y O A) (ds : List (Deed O A)) (o : O) (a : A)
    (hi : .initialize ∉ ds) (L : Life ι X O A)
    (ha : a = L.asm ∨ ∀ hook, .solve true hook ∉ ds) :
    (Life.script K ds (L.withOpts o a)).map Prod.fst = (Life.script K ds L).map Prod.fst := by
  induction ds generalizing L o a with
  | nil => rfl
  | cons d ds ih =>
    have hi' : .initialize ∉ ds := fun h => hi (List.mem_cons_of_mem _ h)
    have go : ∀ o' a',
        (L.withOpts o a).exec K d = (L.exec K d).map (fun r => (r.1, r.2.withOpts o' a')) →
        (∀ L', L.exec K d = .ok L' → a' = L'.2.asm ∨ ∀ hook, .solve true hook ∉ ds) →
        (Life.script K (d :: ds) (L.withOpts o a)).map Prod.fst
          = (Life.script K (d :: ds) L).map Prod.fst := by
      intro o' a' h1 h3
      simp only [Life.script]
      rw [h1]
      cases h2 : L.exec K d with
      | error e => rfl
      | ok L' =>
        show ((Life.script K ds (L'.2.withOpts o' a')).bind _).map _
          = ((Life.script K ds L'.2).bind _).map _
        have := ih o' a' hi' L'.2 (h3 L' h2)
        cases h4 : Life.script K ds (L'.2.withOpts o' a') with
        | error e =>
          cases h5 : Life.script K ds L'.2 with
          | error e' =>
            rw [h4, h5] at this
            have he : e = e' := Except.error.inj this
            rw [he]
          | ok q => rw [h4, h5] at this; cases this
        | ok p =>
          cases h5 : Life.script K ds L'.2 with
          | error e' => rw [h4, h5] at this; cases this
          | ok q =>
            rw [h4, h5] at this
            show Except.ok (L'.1 ++ p.1) = Except.ok (L'.1 ++ q.1)
            rw [show p.1 = q.1 from Except.ok.inj this]
    have keep : ∀ L' : List (ℚ × X) × Life ι X O A, L'.2.asm = L.asm →
        a = L'.2.asm ∨ ∀ hook, .solve true hook ∉ ds := by
      intro L' h
      rcases ha with ha | ha
      · exact Or.inl (ha.trans h.symm)
      · exact Or.inr fun hook h => ha hook (List.mem_cons_of_mem _ h)
    cases d with
    | param n v => exact go o a rfl fun L' h => keep L' (by cases h; rfl)
    | interval s e =>
      refine go o a ?_ fun L' h => keep L' ?_
      · simp only [Life.exec]
        show (Timer.setInterval ⟨L.start, L.stop, 1, 0, 0⟩ s e).bind _
          = Except.map _ ((Timer.setInterval ⟨L.start, L.stop, 1, 0, 0⟩ s e).bind _)
        cases Timer.setInterval ⟨L.start, L.stop, 1, 0, 0⟩ s e with
        | error e => rfl
        | ok tm => rfl
      · simp only [Life.exec] at h
        cases hh : Timer.setInterval ⟨L.start, L.stop, 1, 0, 0⟩ s e with
        | error e => rw [hh] at h; cases h
        | ok tm => rw [hh] at h; cases h; rfl
    | opts o' => exact go o' a rfl fun L' h => keep L' (by cases h; rfl)
    | asm a' => exact go o a' rfl fun L' h => Or.inl (by cases h; rfl)
    | nlOpts o' => exact go o a rfl fun L' h => keep L' (by cases h; rfl)
    | newNl o' => exact go o a rfl fun L' h => keep L' (by cases h; rfl)
    | newMethod d' => exact go o a rfl fun L' h => keep L' (by cases h; rfl)
    | newScheme s => exact go o a rfl fun L' h => keep L' (by cases h; rfl)
    | newTimer => exact go o a rfl fun L' h => keep L' (by cases h; rfl)
    | «initialize» => exact absurd (List.mem_cons_self ..) hi
    | solve re hook =>
      refine go o a (solve_withOpts K hook o a re L ?_) fun L' h => keep L' (solve_asm K re hook L L' h)
      intro hre
      rcases ha with ha | ha
      · exact ha
      · subst hre
        exact absurd (List.mem_cons_self ..) (ha hook)

/-- **C82** Options that are read while spaces and forms are set up wait for the next
`initialize`: until then nothing that is yielded or raised depends on them. -/
theorem C82_options_wait (K : Kit ι X Y O A) (L : Life ι X O A) (o : O) (ds : List (Deed O A))
    (hi : .initialize ∉ ds) :
    (Life.script K (.opts o :: ds) L).map Prod.fst = (Life.script K ds L).map Prod.fst := by
  have h : Life.script K (.opts o :: ds) L = Life.script K ds (L.withOpts o L.asm) := by
    show (Life.script K ds (L.withOpts o L.asm)).bind _ = _
    cases Life.script K ds (L.withOpts o L.asm) with
    | error e => rfl
    | ok r => rfl
  rw [h]
  exact script_withOpts K ds o L.asm hi L (Or.inl rfl)

/-- **C82** Options that are read when the form is assembled wait for the next run that
reassembles. -/
theorem C82_assembly_waits (K : Kit ι X Y O A) (L : Life ι X O A) (a : A) (ds : List (Deed O A))
    (hi : .initialize ∉ ds) (hs : ∀ hook, .solve true hook ∉ ds) :
    (Life.script K (.asm a :: ds) L).map Prod.fst = (Life.script K ds L).map Prod.fst := by
  have h : Life.script K (.asm a :: ds) L = Life.script K ds (L.withOpts L.opts a) := by
    show (Life.script K ds (L.withOpts L.opts a)).bind _ = _
    cases Life.script K ds (L.withOpts L.opts a) with
    | error e => rfl
    | ok r => rfl
  rw [h]
  exact script_withOpts K ds L.opts a hi L (Or.inr hs)

/-! ## What is refused -/

/-- Invariants of histories without `initialize`. -/
theorem script_invariant (K : Kit ι X Y O A) (I : Life ι X O A → Prop) (ds : List (Deed O A))
    (h : ∀ d ∈ ds, ∀ L, I L → ∀ r, L.exec K d = .ok r → I r.2) (L : Life ι X O A) (hL : I L)
    (r : List (ℚ × X) × Life ι X O A) (hr : Life.script K ds L = .ok r) : I r.2 := by
  induction ds generalizing L r with
  | nil => cases Except.ok.inj hr; exact hL
  | cons d ds ih =>
    simp only [Life.script] at hr
    cases h1 : L.exec K d with
    | error e => rw [h1] at hr; cases hr
    | ok q =>
      rw [h1] at hr
      simp only [bind, Except.bind] at hr
      cases h2 : Life.script K ds q.2 with
      | error e => rw [h2] at hr; cases hr
      | ok p =>
        rw [h2] at hr
        cases Except.ok.inj hr
        exact ih (fun d hd => h d (List.mem_cons_of_mem _ hd)) q.2 (h d (List.mem_cons_self ..) L hL q h1)
          p h2

theorem exec_scheme (K : Kit ι X Y O A) (d : Deed O A) (hd : d ≠ .initialize) (L : Life ι X O A)
    (r : List (ℚ × X) × Life ι X O A) (hr : L.exec K d = .ok r) :
    (L.scheme.mem = none → r.2.scheme.mem = none) ∧ r.2.forms = L.forms ∧ r.2.gfu = L.gfu := by
  cases d with
  | interval s e =>
    simp only [Life.exec] at hr
    cases hh : Timer.setInterval ⟨L.start, L.stop, 1, 0, 0⟩ s e with
    | error e => rw [hh] at hr; cases hr
    | ok tm => rw [hh] at hr; cases hr; exact ⟨id, rfl, rfl⟩
  | solve re hook =>
    have := solve_kept K re hook L r hr
    exact ⟨fun h => by rw [this.scheme]; exact h, this.forms, this.gfu⟩
  | «initialize» => exact absurd rfl hd
  | newScheme s => cases hr; exact ⟨fun _ => rfl, rfl, rfl⟩
  | _ => cases hr; exact ⟨id, rfl, rfl⟩

theorem times_cases (ts : List ℚ) : ts = [] ∨ ∃ t l, ts = t :: l := by
  cases ts with
  | nil => exact Or.inl rfl
  | cons t l => exact Or.inr ⟨t, l, rfl⟩

/-- Without level gridfunctions a run cannot succeed. -/
theorem solve_no_levels (K : Kit ι X Y O A) (re : Bool) (hook : ℕ → List (String × ℚ))
    (L : Life ι X O A) (h : L.scheme.mem = none) : ∃ e, L.solve K re hook = .error e := by
  cases hs : L.solve K re hook with
  | error e => exact ⟨e, rfl⟩
  | ok r =>
    exfalso
    simp only [Life.solve] at hs
    cases h1 : L.begin re with
    | error e => rw [h1] at hs; cases hs
    | ok M =>
      have hM : M.scheme = L.scheme := by
        cases re with
        | false => cases Except.ok.inj h1; rfl
        | true =>
          simp only [Life.begin, if_true, Life.assemble] at h1
          cases hf : L.forms with
          | none => rw [hf] at h1; cases h1
          | some f =>
            cases hg : L.gfu with
            | none => rw [hf, hg] at h1; cases h1
            | some g => rw [hf, hg] at h1; cases Except.ok.inj h1; rfl
      rw [h1] at hs
      simp only [bind, Except.bind] at hs
      cases h2 : Life.times M.start M.stop (M.values M.ver "step") with
      | error e => rw [h2] at hs; cases hs
      | ok ts =>
        rw [h2] at hs
        dsimp only at hs
        rcases times_cases ts with rfl | ⟨t, l, rfl⟩
        · simp [Life.loop] at hs
        · simp only [Life.loop] at hs
          cases h3 : (M.setParam ("t", t)).solveLevel K with
          | error e => rw [h3] at hs; cases hs
          | ok L1 =>
            rw [h3] at hs
            have h4 : L1.scheme.mem = none := by
              rw [(solveLevel_kept K _ _ h3).1.scheme]
              show M.scheme.mem = none
              rw [hM, h]
            simp only [bind, Except.bind, Life.shift, h4] at hs
            cases hs

/-- **C82** Nothing runs before `initialize`: whatever was set and replaced before, a run of a
solver that was never initialised raises, and `AttributeError` when it reassembles. -/
theorem C82_needs_initialize (K : Kit ι X Y O A) (v : String → ℚ) (o : O) (a : A) (n : NlOpts)
    (s : Scheme) (ds : List (Deed O A)) (hi : .initialize ∉ ds) (L : Life ι X O A)
    (ys : List (ℚ × X)) (h : Life.script K ds (Life.fresh v o a n s) = .ok (ys, L)) :
    (∀ hook, L.exec K (.solve true hook) = .error .attributeError) ∧
      ∀ hook, ∃ e, L.exec K (.solve false hook) = .error e := by
  have inv := script_invariant K (fun L => L.scheme.mem = none ∧ L.forms = none) ds
    (fun d hd L hL r hr => by
      have := exec_scheme K d (fun h => hi (h ▸ hd)) L r hr
      exact ⟨this.1 hL.1, this.2.1.trans hL.2⟩) _ ⟨rfl, rfl⟩ _ h
  refine ⟨fun hook => ?_, fun hook => solve_no_levels K false hook L inv.1⟩
  have hf : L.forms = none := inv.2
  simp only [Life.exec, Life.solve, Life.begin, if_true, Life.assemble, hf]
  rfl

/-- **C82** A new time scheme without `initialize` is refused: whatever is done in between, no run
succeeds, with or without reassembling. -/
theorem C82_new_scheme_refused (K : Kit ι X Y O A) (L : Life ι X O A) (s : Scheme)
    (ds : List (Deed O A)) (hi : .initialize ∉ ds) (re : Bool) (hook : ℕ → List (String × ℚ)) :
    ∃ e, Life.script K (.newScheme s :: ds ++ [.solve re hook]) L = .error e := by
  cases h : Life.script K (.newScheme s :: ds ++ [.solve re hook]) L with
  | error e => exact ⟨e, rfl⟩
  | ok r =>
    exfalso
    -- the state after the deeds in between
    have split : ∀ (es : List (Deed O A)) (M : Life ι X O A) (r : List (ℚ × X) × Life ι X O A),
        Life.script K (es ++ [.solve re hook]) M = .ok r →
        ∃ q p, Life.script K es M = .ok q ∧ q.2.exec K (.solve re hook) = .ok p := by
      intro es
      induction es with
      | nil =>
        intro M r h
        simp only [List.nil_append, Life.script] at h
        cases h1 : M.exec K (.solve re hook) with
        | error e => rw [h1] at h; cases h
        | ok p => exact ⟨([], M), p, rfl, h1⟩
      | cons d es ih =>
        intro M r h
        simp only [List.cons_append, Life.script] at h
        cases h1 : M.exec K d with
        | error e => rw [h1] at h; cases h
        | ok q =>
          rw [h1] at h
          simp only [bind, Except.bind] at h
          cases h2 : Life.script K (es ++ [.solve re hook]) q.2 with
          | error e => rw [h2] at h; cases h
          | ok r' =>
            obtain ⟨q', p, e1, e2⟩ := ih q.2 r' h2
            refine ⟨(q.1 ++ q'.1, q'.2), p, ?_, e2⟩
            simp only [Life.script, h1, bind, Except.bind, e1]
    obtain ⟨q, p, e1, e2⟩ := split (.newScheme s :: ds) L r h
    have e1' : Life.script K ds { L with scheme := ⟨s, none⟩ } = .ok (q.1, q.2) := by
      have : Life.script K (.newScheme s :: ds) L
          = (Life.script K ds { L with scheme := ⟨s, none⟩ }).map fun r => ([] ++ r.1, r.2) := by
        simp only [Life.script, Life.exec, bind, Except.bind]
        cases Life.script K ds { L with scheme := ⟨s, none⟩ } with
        | error e => rfl
        | ok r => rfl
      rw [this] at e1
      cases h1 : Life.script K ds { L with scheme := ⟨s, none⟩ } with
      | error e => rw [h1] at e1; cases e1
      | ok r => rw [h1] at e1; cases e1; rfl
    have inv := script_invariant K (fun L => L.scheme.mem = none) ds
      (fun d hd L hL r hr => (exec_scheme K d (fun h => hi (h ▸ hd)) L r hr).1 hL) _ rfl _ e1'
    obtain ⟨e, he⟩ := solve_no_levels K re hook q.2 inv
    rw [show q.2.exec K (.solve re hook) = q.2.solve K re hook from rfl, he] at e2
    cases e2

/-- **C82** A new nonlinear solver must be given the form: without reassembling, the first step of
a run raises `AttributeError`. -/
theorem C82_new_solver_refused (K : Kit ι X Y O A) (L : Life ι X O A) (o : NlOpts)
    (hm : 1 ≤ o.maxIter) (hook : ℕ → List (String × ℚ)) (t : ℚ) (ts : List ℚ)
    (ht : grid L.start L.stop (L.values L.ver "step") = .ok (t :: ts)) :
    Life.script K [.newNl o, .solve false hook] L = .error .attributeError := by
  have hsol : (({ L with nl := ⟨o, none, false⟩ } : Life ι X O A)).solve K false hook
      = .error .attributeError := by
    simp only [Life.solve, Life.begin, Bool.false_eq_true, if_false, bind, Except.bind]
    rw [show Life.values ({ L with nl := ⟨o, none, false⟩ } : Life ι X O A) L.ver "step"
      = L.values L.ver "step" from rfl, times_eq, ht]
    simp only [Life.loop, Life.solveLevel, Life.setParam]
    rw [if_neg (by omega)]
    rfl
  simp only [Life.script, Life.exec, bind, Except.bind]
  rw [hsol]

/-- A new method with damping `d`. -/
def Life.withMethod (L : Life ι X O A) (d : ℝ) : Life ι X O A :=
  { L with nl := ⟨{ L.nl.o with damping := d }, L.nl.attrs, false⟩ }

/-- **C82** The same for a new method of the nonlinear solver. -/
theorem C82_new_method_refused (K : Kit ι X Y O A) (L : Life ι X O A) (d : ℝ)
    (hm : 1 ≤ L.nl.o.maxIter) (hlin : ∀ a F x, ((K.lin a F) 0 x).2 ≠ none)
    (hook : ℕ → List (String × ℚ)) (t : ℚ) (ts : List ℚ)
    (ht : grid L.start L.stop (L.values L.ver "step") = .ok (t :: ts)) :
    ∃ e, Life.script K [.newMethod d, .solve false hook] L = .error e := by
  obtain ⟨e, hsol⟩ : ∃ e, (L.withMethod d).solve K false hook = .error e := by
    simp only [Life.solve, Life.begin, Bool.false_eq_true, if_false, bind, Except.bind]
    rw [show (L.withMethod d).values (L.withMethod d).ver "step" = L.values L.ver "step" from rfl,
      show (L.withMethod d).start = L.start from rfl, show (L.withMethod d).stop = L.stop from rfl,
      times_eq, ht]
    simp only [Life.loop, Life.solveLevel]
    rw [if_neg (by simp only [Life.setParam, Life.withMethod]; omega)]
    simp only [Life.setParam, Life.withMethod]
    cases L.nl.attrs with
    | none => exact ⟨_, rfl⟩
    | some b =>
      dsimp only
      cases L.mem b.unk with
      | none => exact ⟨_, rfl⟩
      | some st =>
        cases L.mem b.form.mem with
        | none => exact ⟨_, rfl⟩
        | some lv =>
          simp only [bind, Except.bind, hlin, ne_eq, not_false_eq_true, and_self, if_true]
          cases (K.problem b.form.opts _).residual b.form.scheme _ lv.levels 0 st.x with
          | error e => exact ⟨_, rfl⟩
          | ok y => exact ⟨_, rfl⟩
  refine ⟨e, ?_⟩
  show (((L.withMethod d).solve K false hook).bind _).bind _ = _
  rw [hsol]
  rfl

/-! ## What silently goes wrong -/

theorem values_other (L : Life ι X O A) (ver : String → ℕ) (nv : String × ℚ)
    (h : L.ver nv.1 ≠ ver nv.1) : (L.setParam nv).values ver = L.values ver := by
  funext n
  simp only [Life.values, Life.setParam]
  rw [if_neg]
  rintro ⟨rfl, h'⟩
  exact h h'.symm

/-- The time loop after the timer was replaced: the equations keep the old time and step. -/
theorem frozen_loop (K : Kit ι X Y O A) (P : Direct X O A) (ver : String → ℕ) (o : O) (ts : List ℚ) :
    ∀ (k : ℕ) (L : Life ι X O A) (prev cur : X), L.values ver = P.vals → L.asm = P.asm →
      L.nl.o = P.nl → L.scheme.kind = P.scheme → L.ver "t" ≠ ver "t" →
      L.HeldAt K ver o prev cur → L.Ready →
    ∃ L', Life.loop K (fun _ => []) k ts L = .ok ((ts.map (pyRoundDigits · L.digit)).zip
      (_root_.Spec.trajectory (fun _ cur prev => P.next K o prev cur) prev cur ts), L') := by
  induction ts with
  | nil => intro k L prev cur _ _ _ _ _ _ _; exact ⟨L, rfl⟩
  | cons t ts ih =>
    intro k L prev cur hv ha hn hk ht hh hr
    obtain ⟨L1, e1, L2, g, st, e2, e3, e4, h2, r2⟩ := level_step K (L.setParam ("t", t)) P ver o
      prev cur ((values_other L ver ("t", t) ht).trans hv) ha hn hk hh hr
    have hv2 : L2.values ver = P.vals := by
      subst e4
      exact (values_other L ver ("t", t) ht).trans hv
    have ha2 : L2.asm = P.asm := by subst e4; exact ha
    have hn2 : L2.nl.o = P.nl := by subst e4; exact hn
    have hk2 : L2.scheme.kind = P.scheme := by subst e4; exact hk
    have ht2 : L2.ver "t" ≠ ver "t" := by subst e4; exact ht
    have hd2 : L2.digit = L.digit := by subst e4; rfl
    obtain ⟨L3, e5⟩ := ih (k + 1) L2 cur (P.next K o prev cur) hv2 ha2 hn2 hk2 ht2 h2 r2
    refine ⟨L3, ?_⟩
    simp only [Life.loop]
    rw [e1]
    simp only [bind, Except.bind]
    rw [e2]
    simp only [e3]
    rw [List.foldl_nil, e5, hd2]
    rfl

/-- **C82 fails for a new timer**: the forms of the last `initialize` refer to the parameters of the
old timer. A run with the new one succeeds, its labels are those of the new step, but the equations
of all its steps have the step `h` and the time `0` of the old timer, whatever the new step `h'`. -/
theorem C82_fails_new_timer (K : Kit ι X Y O A) (v : String → ℚ) (o : O) (a : A) (n : NlOpts)
    (s : Scheme) (h h' b e : ℚ) (hb : 0 ≤ b) (hbe : b < e) (ts : List ℚ) (hne : ts ≠ [])
    (hts : grid b e h' = .ok ts) :
    ∃ P : Direct X O A, P = (Direct.fresh v o a n s).setParam ("step", h) ∧
      (Life.script K [.param "step" h, .initialize, .newTimer, .param "step" h', .interval b e,
        .solve true fun _ => []] (Life.fresh v o a n s)).map Prod.fst
      = .ok ((ts.map (pyRoundDigits · (setDigit h'))).zip
          (_root_.Spec.trajectory (fun _ cur prev => P.next K o prev cur) (K.initial o P.vals)
            (K.initial o P.vals) ts)) := by
  refine ⟨_, rfl, ?_⟩
  obtain ⟨P, hP⟩ : ∃ P : Direct X O A, P = (Direct.fresh v o a n s).setParam ("step", h) := ⟨_, rfl⟩
  rw [← hP]
  -- after `initialize`
  have hsame : ((Life.fresh v o a n s : Life ι X O A).setParam ("step", h)).Same P := by
    rw [hP]
    exact (fresh_rel K v o a n s).1.setParam _
  obtain ⟨L1, hL1⟩ : ∃ L1 : Life ι X O A, L1 = (Life.fresh v o a n s).setParam ("step", h) :=
    ⟨_, rfl⟩
  rw [← hL1] at hsame
  have hPo : P.opts = o := by rw [hP]; rfl
  have hinit := initialize_step K L1 P hsame
  have hver : L1.ver = fun _ => 0 := by rw [hL1]; rfl
  have hex : ∃ L2, L1.exec K .initialize = .ok ([], L2) ∧ L2.ver = L1.ver := by
    simp only [Life.exec, Life.initialize, init_levelsOf]
    exact ⟨_, rfl, rfl⟩
  obtain ⟨L2, e2, hv2⟩ := hex
  have hpe : P.exec K .initialize = .ok ([], { P with
      used := some (P.opts, K.initial P.opts P.vals, K.initial P.opts P.vals) }) := rfl
  rw [e2, hpe] at hinit
  obtain ⟨-, hs2, hu2, -⟩ := hinit
  obtain ⟨o', p, q, hu, hh⟩ := hu2 rfl
  cases Option.some.inj hu
  -- the solver before the run
  obtain ⟨L3, hL3⟩ : ∃ L3 : Life ι X O A, L3 = { (L2.newTimer.setParam ("step", h')) with
      start := b, stop := e } := ⟨_, rfl⟩
  have hv3 : L3.values L2.ver = P.vals := by
    rw [← hs2.vals, hL3]
    funext m
    simp only [Life.values, Life.setParam, Life.newTimer]
    by_cases h1 : m = "step"
    · subst h1; simp
    · by_cases h2 : m = "t"
      · subst h2; simp
      · simp [h1, h2]
  obtain ⟨g, hg, h1, h2, h3, h4⟩ := hh
  obtain ⟨L4, hL4⟩ : ∃ L4 : Life ι X O A, L4 = { L3 with
      nl := ⟨L3.nl.o, some ⟨⟨P.opts, L2.ver, g, L2.scheme.kind⟩, L3.asm, g⟩, true⟩ } := ⟨_, rfl⟩
  have hbegin : L3.begin true = .ok L4 := by
    have f1 : L3.forms = some ⟨P.opts, L2.ver, g, L2.scheme.kind⟩ := by rw [hL3]; exact h1
    have f2 : L3.gfu = some g := by rw [hL3]; exact h2
    simp only [Life.begin, if_true, Life.assemble, f1, f2, hL4]
  have hstep : L4.values L4.ver "step" = h' := by
    rw [hL4, hL3]
    simp [Life.values, Life.setParam]
  obtain ⟨L5, hloop⟩ := frozen_loop K P L2.ver P.opts ts 0 L4 (K.initial P.opts P.vals)
    (K.initial P.opts P.vals) (by rw [hL4]; exact hv3) (by rw [hL4, hL3]; exact hs2.asm)
    (by rw [hL4, hL3]; exact hs2.nl) (by rw [hL4, hL3]; exact hs2.scheme)
    (by rw [hL4, hL3]; simp [Life.newTimer, Life.setParam])
    (by
      rw [hL4, hL3]
      exact ⟨g, hg, h1, h2, h3, h4⟩)
    (by
      rw [hL4, hL3]
      exact ⟨_, g, h1, h2, rfl, rfl⟩)
  have hdig : L4.digit = setDigit h' := by rw [hL4, hL3]; simp [Life.setParam]
  rw [hdig, hPo] at hloop
  have hsolve : L3.exec K (.solve true fun _ => []) = .ok ((ts.map (pyRoundDigits · (setDigit h'))).zip
      (_root_.Spec.trajectory (fun _ cur prev => P.next K o prev cur) (K.initial o P.vals)
        (K.initial o P.vals) ts), L5) := by
    simp only [Life.exec, Life.solve, hbegin, bind, Except.bind]
    have : L4.start = b ∧ L4.stop = e := by rw [hL4, hL3]; exact ⟨rfl, rfl⟩
    rw [hstep, this.1, this.2, times_eq, hts]
    simp only [hloop]
    rw [if_neg (by simpa using hne)]
  have hint : (L2.newTimer.setParam ("step", h')).exec K (.interval b e) = .ok ([], L3) := by
    simp only [Life.exec, Timer.setInterval]
    rw [if_neg (by rintro (h | h) <;> linarith), if_neg (by linarith), hL3]
    rfl
  have hscript : Life.script K [.param "step" h, .initialize, .newTimer, .param "step" h',
      .interval b e, .solve true fun _ => []] (Life.fresh v o a n s)
      = .ok ((ts.map (pyRoundDigits · (setDigit h'))).zip
      (_root_.Spec.trajectory (fun _ cur prev => P.next K o prev cur) (K.initial o P.vals)
        (K.initial o P.vals) ts), L5) := by
    simp only [Life.script]
    rw [show (Life.fresh v o a n s : Life ι X O A).exec K (.param "step" h) = .ok ([], L1) by
      rw [hL1]; rfl]
    simp only [bind, Except.bind, e2]
    rw [show L2.exec K .newTimer = .ok ([], L2.newTimer) from rfl]
    simp only []
    rw [show L2.newTimer.exec K (.param "step" h') = .ok ([], L2.newTimer.setParam ("step", h'))
      from rfl]
    simp only [hint, hsolve, List.nil_append, List.append_nil]
  rw [hscript]
  rfl

/-- The time loop when the nonlinear solver works with the gridfunctions of an earlier
`initialize`: what the user sees stays as it is. -/
theorem stale_loop (K : Kit ι X Y O A) (f : FormObj O) (a : A) (g0 g1 : ℕ) (hf : f.mem = g0)
    (hg : g1 ≠ g0) (x0 : X) (ts : List ℚ) :
    ∀ (k : ℕ) (L : Life ι X O A), L.nl.attrs = some ⟨f, a, g0⟩ → L.nl.methodReady = true →
      (∃ x p q, L.mem g0 = some ⟨x, f.scheme.levelsOf (K.comp p) (K.comp q)⟩) →
      L.scheme.mem = some g1 → L.gfu = some g1 →
      L.mem g1 = some ⟨x0, L.scheme.kind.levelsOf (K.comp x0) (K.comp x0)⟩ →
    ∃ L', Life.loop K (fun _ => []) k ts L
      = .ok (ts.map fun t => (pyRoundDigits t L.digit, x0), L') := by
  induction ts with
  | nil => intro k L _ _ _ _ _ _; exact ⟨L, rfl⟩
  | cons t ts ih =>
    intro k L h1 h2 h3 h4 h5 h6
    have hsolve : ∃ L1 : Life ι X O A, (L.setParam ("t", t)).solveLevel K = .ok L1 ∧
        (∃ st, L1 = (L.setParam ("t", t)).store g0 st ∧
          ∃ x p q, st = ⟨x, f.scheme.levelsOf (K.comp p) (K.comp q)⟩) := by
      obtain ⟨x, p, q, hm⟩ := h3
      by_cases hi : L.nl.o.maxIter ≤ 0
      · refine ⟨L.setParam ("t", t), ?_, ⟨x, f.scheme.levelsOf (K.comp p) (K.comp q)⟩,
          (store_self (L.setParam ("t", t)) g0 _ hm).symm, x, p, q, rfl⟩
        simp only [Life.solveLevel]
        rw [if_pos (by exact hi)]
      · unfold Life.solveLevel
        rw [if_neg (by exact hi)]
        have n1 : (L.setParam ("t", t)).nl.attrs = some ⟨f, a, g0⟩ := h1
        have n2 : (L.setParam ("t", t)).nl.methodReady = true := h2
        have n3 : (L.setParam ("t", t)).mem g0
            = some ⟨x, f.scheme.levelsOf (K.comp p) (K.comp q)⟩ := hm
        have hres : ∀ (Q : Problem ι X Y) (hQ : Q.comp = K.comp) (dt : ℝ) (z : X), ∃ y,
            Q.residual f.scheme dt (f.scheme.levelsOf (K.comp p) (K.comp q)) 0 z = .ok y := by
          intro Q hQ dt z
          rw [← hQ]
          exact ⟨_, residual_levelsOf Q f.scheme dt 0 p q z⟩
        rw [n1]
        simp only [hf, n3, n2]
        obtain ⟨y, hy⟩ := hres (K.problem f.opts ((L.setParam ("t", t)).values f.ver)) rfl
          ((L.setParam ("t", t)).values f.ver "step" : ℚ) x
        rw [hy]
        simp only [Bool.true_eq_false, false_and, if_false, bind, Except.bind]
        exact ⟨_, rfl, _, rfl, _, p, q, rfl⟩
    obtain ⟨L1, e1, st, rfl, x, p, q, hst⟩ := hsolve
    obtain ⟨L1, hL1⟩ : ∃ L1 : Life ι X O A, L1 = (L.setParam ("t", t)).store g0 st := ⟨_, rfl⟩
    rw [← hL1] at e1
    have hmem1 : L1.mem g1 = some ⟨x0, L.scheme.kind.levelsOf (K.comp x0) (K.comp x0)⟩ := by
      rw [hL1]
      simp only [Life.store]
      rw [if_neg hg]
      exact h6
    have hshift : L1.shift K
        = .ok (L1.store g1 ⟨x0, L.scheme.kind.levelsOf (K.comp x0) (K.comp x0)⟩) := by
      have s1 : L1.scheme = L.scheme := by rw [hL1]; rfl
      unfold Life.shift
      rw [s1]
      simp only [h4, hmem1, timeStep_levelsOf]
      rfl
    rw [store_self L1 g1 _ hmem1] at hshift
    have hvis : L1.visible = .ok x0 := by
      have s1 : L1.gfu = some g1 := by rw [hL1]; exact h5
      simp only [Life.visible, s1, hmem1]
    obtain ⟨L2, e2⟩ := ih (k + 1) L1 (by rw [hL1]; exact h1) (by rw [hL1]; exact h2)
      ⟨x, p, q, by rw [hL1, hst]; simp [Life.store]⟩ (by rw [hL1]; exact h4) (by rw [hL1]; exact h5)
      (by rw [hmem1, hL1]; rfl)
    have hdig : L1.digit = L.digit := by rw [hL1]; rfl
    refine ⟨L2, ?_⟩
    simp only [Life.loop]
    rw [e1]
    simp only [bind, Except.bind]
    rw [hshift]
    simp only [hvis]
    rw [List.foldl_nil, e2, hdig]
    rfl

theorem script_append (K : Kit ι X Y O A) (ds es : List (Deed O A)) (L L' : Life ι X O A)
    (ys : List (ℚ × X)) (h : Life.script K ds L = .ok (ys, L')) :
    Life.script K (ds ++ es) L = (Life.script K es L').map fun r => (ys ++ r.1, r.2) := by
  induction ds generalizing L ys with
  | nil =>
    cases Except.ok.inj h
    show Life.script K es L' = _
    cases Life.script K es L' with
    | error e => rfl
    | ok r => rfl
  | cons d ds ih =>
    simp only [Life.script] at h
    simp only [List.cons_append, Life.script]
    cases h1 : L.exec K d with
    | error e => rw [h1] at h; cases h
    | ok q =>
      rw [h1] at h
      simp only [bind, Except.bind] at h ⊢
      cases h2 : Life.script K ds q.2 with
      | error e => rw [h2] at h; cases h
      | ok p =>
        rw [h2] at h
        cases Except.ok.inj h
        rw [ih q.2 p.1 h2]
        cases Life.script K es p.2 with
        | error e => rfl
        | ok r =>
          show Except.ok (q.1 ++ (p.1 ++ r.1), r.2) = Except.ok (q.1 ++ p.1 ++ r.1, r.2)
          rw [List.append_assoc]

theorem afterAll_solve (b r : Bool) (ds : List (Deed O A)) (re : Bool)
    (hook : ℕ → List (String × ℚ)) (h : Disciplined b r (ds ++ [.solve re hook])) :
    afterAll b r (ds ++ [.solve re hook]) = (true, true) := by
  induction ds generalizing b r with
  | nil =>
    obtain ⟨h1, -⟩ := h
    subst h1
    rfl
  | cons d ds ih => exact ih _ _ ((disciplined_cons b r d _).mp h).2

/-- **C82 fails for `initialize` without reassembling**: after any disciplined history that ends
with a run, initialise again and run without reassembling. The run succeeds, but the nonlinear
solver works with the gridfunctions of the previous `initialize`: the initial state is yielded at
all time steps. -/
theorem C82_fails_reinitialize (K : Kit ι X Y O A) (v : String → ℚ) (o : O) (a : A) (n : NlOpts)
    (s : Scheme) (ds : List (Deed O A)) (re : Bool) (hook : ℕ → List (String × ℚ))
    (hd : Disciplined false false (ds ++ [.solve re hook])) (ys : List (ℚ × X)) (P : Direct X O A)
    (hP : Direct.script K (ds ++ [.solve re hook]) (Direct.fresh v o a n s) = .ok (ys, P))
    (ts : List ℚ) (hne : ts ≠ []) (hts : grid P.start P.stop (P.vals "step") = .ok ts) :
    (Life.script K (ds ++ [.solve re hook] ++ [.initialize, .solve false fun _ => []])
      (Life.fresh v o a n s)).map Prod.fst
      = .ok (ys ++ ts.map fun t => (pyRoundDigits t P.digit, K.initial P.opts P.vals)) := by
  have hag := script_agree K _ false false hd _ _ (fresh_rel K v o a n s)
  rw [hP, afterAll_solve _ _ _ _ _ hd] at hag
  cases hL : Life.script K (ds ++ [.solve re hook]) (Life.fresh v o a n s) with
  | error e => rw [hL] at hag; exact hag.elim
  | ok q =>
    rw [hL] at hag
    obtain ⟨rfl, hs, hb, hr⟩ : q.1 = ys ∧ q.2.Rel K true true P := hag
    obtain ⟨o', prev, cur, hu, g, hg, h1, h2, h3, h4⟩ := hb rfl
    obtain ⟨f, g', r1, r2, r3, r4⟩ := hr rfl rfl
    rw [h1] at r1
    rw [h2] at r2
    cases Option.some.inj r1
    cases Option.some.inj r2
    rw [script_append K _ _ _ q.2 q.1 hL]
    -- after the second `initialize`
    obtain ⟨M, e1, m1, m2, m3, m4, m5, m6⟩ : ∃ M : Life ι X O A,
        q.2.exec K .initialize = .ok ([], M) ∧ M.nl = q.2.nl ∧ M.mem g = q.2.mem g ∧
        M.scheme = ⟨q.2.scheme.kind, some q.2.nMem⟩ ∧ M.gfu = some q.2.nMem ∧
        M.mem q.2.nMem = some ⟨K.initial P.opts P.vals, q.2.scheme.kind.levelsOf
          (K.comp (K.initial P.opts P.vals)) (K.comp (K.initial P.opts P.vals))⟩ ∧ M.Same P := by
      simp only [Life.exec, Life.initialize, init_levelsOf]
      refine ⟨_, rfl, rfl, ?_, rfl, rfl, ?_, ?_⟩
      · simp only [Life.store]
        rw [if_neg (by omega)]
      · simp only [Life.store]
        rw [if_pos trivial, ← hs.opts, ← hs.vals]
        rfl
      · exact ⟨hs.vals, hs.start, hs.stop, hs.digit, hs.opts, hs.asm, hs.nl, hs.scheme⟩
    obtain ⟨N, hloop⟩ := stale_loop K ⟨o', q.2.ver, g, q.2.scheme.kind⟩ q.2.asm g q.2.nMem rfl
      (by omega) (K.initial P.opts P.vals) ts 0 M (by rw [m1]; exact r3) (by rw [m1]; exact r4)
      ⟨cur, prev, cur, by rw [m2]; exact h4⟩ (by rw [m3]) m4 (by rw [m5, m3])
    have hsol : M.exec K (.solve false fun _ => [])
        = .ok (ts.map fun t => (pyRoundDigits t P.digit, K.initial P.opts P.vals), N) := by
      simp only [Life.exec, Life.solve, Life.begin, Bool.false_eq_true, if_false, bind, Except.bind]
      rw [show M.values M.ver "step" = P.vals "step" by rw [m6.vals], m6.start, m6.stop, times_eq, hts]
      simp only [hloop]
      rw [if_neg (by simpa using hne), m6.digit]
    simp only [Life.script, e1, bind, Except.bind, hsol]
    show Except.ok (q.1 ++ ([] ++ (_ ++ []))) = _
    rw [List.append_nil, List.nil_append]

end

/-! ## Concrete cases: motion with a speed that is a parameter -/

/-- `u' = factor · speed`; the factor is an option, the speed a parameter. -/
def drift : Kit Unit ℝ ℝ ℝ Bool where
  spatial := fun o v _ => -(o * (v "speed" : ℚ))
  mass := fun _ f => f ()
  comp := fun x _ => x
  initial := fun _ v => (v "u0" : ℚ)
  lin := fun _ => (scalarNewton 1 (1/100) 10).lin

/-- The options of the nonlinear solver. -/
def driftNl : NlOpts := ⟨1, 1/100, 10⟩

/-- One step. -/
def driftNext (o : ℝ) (P : Direct ℝ ℝ Bool) (p q : ℝ) : ℝ :=
  match P.scheme with
  | .implicitEuler => q + (P.vals "step" : ℚ) * (o * (P.vals "speed" : ℚ))
  | .bdf2 => (4 * q - p + 2 * (P.vals "step" : ℚ) * (o * (P.vals "speed" : ℚ))) / 3

theorem drift_next (o : ℝ) (P : Direct ℝ ℝ Bool) (p q : ℝ) (hn : P.nl = driftNl)
    (hh : 0 < P.vals "step") : P.next drift o p q = driftNext o P p q := by
  have hh' : (0 : ℝ) < (P.vals "step" : ℚ) := by exact_mod_cast hh
  have hN : (⟨drift.lin P.asm, P.nl.damping, P.nl.crit, P.nl.maxIter⟩ : Newton ℝ ℝ)
      = scalarNewton 1 (1/100) 10 := by rw [hn]; rfl
  unfold Direct.next driftNext
  simp only [hN]
  cases hs : P.scheme with
  | implicitEuler =>
    have := solve_affine (scalarNewton 1 (1/100) 10) (scalarNewton_exact _ _ _) rfl (by decide)
      (fun z => drift.spatial o P.vals z + drift.mass o fun i =>
        quotientOf .implicitEuler (P.vals "step" : ℚ) (drift.comp z i) (drift.comp q i)
          (drift.comp p i))
      (LinearEquiv.smulOfNeZero ℝ ℝ (1 / (P.vals "step" : ℚ)) (by positivity))
      (-(o * (P.vals "speed" : ℚ)) - q / (P.vals "step" : ℚ))
      (by intro z
          simp only [drift, quotientOf, _root_.Spec.backwardEuler,
            LinearEquiv.smulOfNeZero_apply, smul_eq_mul]
          ring) q
    simp only [drift, quotientOf, _root_.Spec.backwardEuler] at this ⊢
    generalize NLState.u _ = w at this ⊢
    field_simp at this
    linarith
  | bdf2 =>
    have := solve_affine (scalarNewton 1 (1/100) 10) (scalarNewton_exact _ _ _) rfl (by decide)
      (fun z => drift.spatial o P.vals z + drift.mass o fun i =>
        quotientOf .bdf2 (P.vals "step" : ℚ) (drift.comp z i) (drift.comp q i)
          (drift.comp p i))
      (LinearEquiv.smulOfNeZero ℝ ℝ (3 / (2 * (P.vals "step" : ℚ))) (by positivity))
      (-(o * (P.vals "speed" : ℚ)) + (-4 * q + p) / (2 * (P.vals "step" : ℚ)))
      (by intro z
          simp only [drift, quotientOf, _root_.Spec.backward2,
            LinearEquiv.smulOfNeZero_apply, smul_eq_mul]
          ring) q
    simp only [drift, quotientOf, _root_.Spec.backward2] at this ⊢
    generalize NLState.u _ = w at this ⊢
    field_simp at this
    linarith

theorem drift_times : grid 0 1 2⁻¹ = .ok [2⁻¹, 1] := by decide +kernel
theorem drift_label1 : pyRoundDigits 2⁻¹ (setDigit 2⁻¹) = 2⁻¹ := by decide +kernel
theorem drift_label2 : pyRoundDigits 1 (setDigit 2⁻¹) = 1 := by decide +kernel

/-- C82, concrete instance: the speed changes between two steps and takes effect at once; the
factor changes after the first run and takes effect at the second `initialize` only. -/
example : (Life.script drift [.param "speed" 2, .param "step" (1/2), .initialize,
      .solve true (fun k => if k = 0 then [("speed", 4)] else []), .opts 3,
      .solve false (fun _ => []), .initialize, .solve true (fun _ => [])]
      (Life.fresh (fun _ => 0) 1 false driftNl .implicitEuler)).map Prod.fst
    = .ok [(1/2, 1), (1, 3), (1/2, 5), (1, 7), (1/2, 6), (1, 12)] := by
  rw [C82_in_force_partial drift _ (by simp [Disciplined])]
  simp only [Direct.script, Direct.exec, Direct.setParam, Direct.fresh]
  simp (disch := simp) [drift_times, bind, Except.bind, Direct.loop, Direct.setParam, drift_label1,
    drift_label2, drift_next, driftNext]
  simp [drift, Except.map]
  norm_num

/-- C82, concrete instance: the scheme is replaced and all is initialised again; with BDF2. -/
example : (Life.script drift [.param "speed" 3, .param "step" (1/2), .initialize,
      .solve true (fun _ => []), .newScheme .bdf2, .newNl driftNl, .initialize,
      .solve true (fun _ => [])]
      (Life.fresh (fun _ => 0) 1 false driftNl .implicitEuler)).map Prod.fst
    = .ok [(1/2, 3/2), (1, 3), (1/2, 1), (1, 7/3)] := by
  rw [C82_in_force_partial drift _ (by simp [Disciplined])]
  simp only [Direct.script, Direct.exec, Direct.setParam, Direct.fresh]
  simp (disch := simp) [drift_times, bind, Except.bind, Direct.loop, Direct.setParam, drift_label1,
    drift_label2, drift_next, driftNext]
  simp [drift, Except.map]
  norm_num

/-- C82, concrete instance: the interval is refused by both. -/
example : (Life.script drift [.param "speed" 3, .interval 2 1]
      (Life.fresh (fun _ => 0) 1 false driftNl .implicitEuler)).map Prod.fst
    = .error .valueError := by
  rw [C82_in_force_partial drift _ (by simp [Disciplined])]
  simp [Direct.script, Direct.exec, bind, Except.bind, Except.map]

/-- C82, concrete instance: a new factor does nothing in further runs. -/
example : (Life.script drift [.initialize, .opts 3, .solve true (fun _ => []),
      .solve false (fun _ => [])] (Life.fresh (fun _ => 1) 1 false driftNl .bdf2)).map Prod.fst
    = (Life.script drift [.initialize, .solve true (fun _ => []), .solve false (fun _ => [])]
        (Life.fresh (fun _ => 1) 1 false driftNl .bdf2)).map Prod.fst := by
  obtain ⟨L, hL⟩ : ∃ L, Life.script drift [.initialize]
      (Life.fresh (fun _ => 1) 1 false driftNl .bdf2) = .ok ([], L) := ⟨_, rfl⟩
  have h1 := script_append drift _ [.opts 3, .solve true (fun _ => []), .solve false (fun _ => [])]
    _ _ _ hL
  have h2 := script_append drift _ [.solve true (fun _ => []), .solve false (fun _ => [])] _ _ _ hL
  rw [List.singleton_append] at h1 h2
  have h3 := C82_options_wait drift L 3 [.solve true (fun _ => []), .solve false (fun _ => [])]
    (by simp)
  rw [h1, h2]
  cases e1 : Life.script drift [.opts 3, .solve true (fun _ => []), .solve false (fun _ => [])] L with
  | error e =>
    cases e2 : Life.script drift [.solve true (fun _ => []), .solve false (fun _ => [])] L with
    | error e' => rw [e1, e2] at h3; exact h3
    | ok q => rw [e1, e2] at h3; cases h3
  | ok p =>
    cases e2 : Life.script drift [.solve true (fun _ => []), .solve false (fun _ => [])] L with
    | error e' => rw [e1, e2] at h3; cases h3
    | ok q => rw [e1, e2] at h3; exact h3

/-- C82, concrete instance: static condensation switched on, runs without reassembling. -/
example (L : Life Unit ℝ ℝ Bool) :
    (Life.script drift [.asm true, .solve false (fun _ => []), .param "speed" 2,
      .solve false (fun _ => [])] L).map Prod.fst
    = (Life.script drift [.solve false (fun _ => []), .param "speed" 2,
      .solve false (fun _ => [])] L).map Prod.fst :=
  C82_assembly_waits drift L true _ (by simp) (by simp)

/-- C82, concrete instance: settings and a new scheme, but no `initialize`. -/
example : ∃ L, Life.script drift [.param "speed" 2, .newScheme .bdf2, .newTimer, .param "step" (1/2)]
      (Life.fresh (fun _ => 0) 1 false driftNl .implicitEuler) = .ok ([], L) ∧
    L.exec drift (.solve true fun _ => []) = .error .attributeError :=
  ⟨_, rfl, (C82_needs_initialize drift _ _ _ _ _ [.param "speed" 2, .newScheme .bdf2, .newTimer,
    .param "step" (1/2)] (by simp) _ _ rfl).1 _⟩

/-- C82, concrete instance: a new scheme after a successful run, no `initialize`. -/
example : ∃ L ys, Life.script drift [.param "speed" 1, .param "step" (1/2), .initialize,
      .solve true fun _ => []] (Life.fresh (fun _ => 0) 1 false driftNl .implicitEuler)
        = .ok (ys, L) ∧
    (∃ e, Life.script drift [.newScheme .bdf2, .param "speed" 2, .solve true fun _ => []] L
      = .error e) ∧
    Life.script drift [.newNl driftNl, .solve false fun _ => []] L = .error .attributeError ∧
    ∃ e, Life.script drift [.newMethod 1, .solve false fun _ => []] L = .error e := by
  have hag := script_agree drift [.param "speed" 1, .param "step" (1/2), .initialize,
    .solve true fun _ => []] false false (by simp [Disciplined]) _ _
    (fresh_rel drift (fun _ => 0) 1 false driftNl .implicitEuler)
  obtain ⟨q, hq⟩ : ∃ q, Direct.script drift [.param "speed" 1, .param "step" (1/2), .initialize,
      .solve true fun _ => []] (Direct.fresh (fun _ => 0) 1 false driftNl .implicitEuler)
      = .ok q ∧ q.2.start = 0 ∧ q.2.stop = 1 ∧ q.2.vals "step" = 1/2 ∧ q.2.nl = driftNl := by
    simp only [Direct.script, Direct.exec, Direct.setParam, Direct.fresh]
    simp (disch := simp) [drift_times, bind, Except.bind, Direct.loop, Direct.setParam, drift_label1,
      drift_label2, drift_next, driftNext]
  obtain ⟨hq, q1, q2, q3, q4⟩ := hq
  rw [hq] at hag
  cases hL : Life.script drift [.param "speed" 1, .param "step" (1/2), .initialize,
      .solve true fun _ => []] (Life.fresh (fun _ => 0) 1 false driftNl .implicitEuler) with
  | error e => rw [hL] at hag; exact hag.elim
  | ok p =>
    rw [hL] at hag
    obtain ⟨-, hs, -, -⟩ := hag
    have ht : grid p.2.start p.2.stop (p.2.values p.2.ver "step") = .ok [1/2, 1] := by
      rw [hs.start, hs.stop, hs.vals, q1, q2, q3, one_div]
      exact drift_times
    refine ⟨p.2, p.1, rfl, ?_, ?_, ?_⟩
    · exact C82_new_scheme_refused drift p.2 .bdf2 [.param "speed" 2] (by simp) true _
    · exact C82_new_solver_refused drift p.2 driftNl (by decide) _ _ _ ht
    · refine C82_new_method_refused drift p.2 1 ?_ ?_ _ _ _ ht
      · rw [hs.nl, q4]; decide
      · intro a F x
        simp [drift, scalarNewton]

/-- C82, concrete instance of the failure: the timer is replaced after `initialize` and gets the
step `1/2` instead of `1`; the motion with speed `1` goes twice as far. -/
example : (Life.script drift [.param "step" 1, .initialize, .newTimer, .param "step" (1/2),
      .interval 0 1, .solve true fun _ => []]
      (Life.fresh (fun p => if p = "speed" then 1 else 0) 1 false driftNl .implicitEuler)).map
        Prod.fst
    = .ok [(1/2, 1), (1, 2)] := by
  obtain ⟨P, hP, h⟩ := C82_fails_new_timer drift (fun p => if p = "speed" then 1 else 0) 1 false
    driftNl .implicitEuler 1 (1/2) 0 1 le_rfl (by norm_num) [2⁻¹, 1] (by simp)
    (by rw [one_div]; exact drift_times)
  rw [h]
  have hl : ([2⁻¹, 1] : List ℚ).map (pyRoundDigits · (setDigit (1/2))) = [1/2, 1] := by
    decide +kernel
  have hn : ∀ p q, P.next drift 1 p q = q + 1 := by
    intro p q
    rw [drift_next 1 P p q (by rw [hP]; rfl) (by rw [hP]; simp [Direct.setParam])]
    simp [driftNext, hP, Direct.setParam, Direct.fresh]
  have hi : drift.initial 1 P.vals = 0 := by
    rw [hP]
    simp [drift, Direct.setParam, Direct.fresh]
  rw [hl, hi]
  simp only [_root_.Spec.trajectory, hn]
  norm_num

/-- What the solver without objects says about the same deeds. -/
example : (Direct.script drift [.param "step" 1, .initialize, .newTimer, .param "step" (1/2),
      .interval 0 1, .solve true fun _ => []]
      (Direct.fresh (fun p => if p = "speed" then 1 else 0) 1 false driftNl .implicitEuler)).map
        Prod.fst
    = .ok [(1/2, 1/2), (1, 1)] := by
  simp only [Direct.script, Direct.exec, Direct.setParam, Direct.fresh]
  simp only [if_neg (show ¬ ((0 : ℚ) < 0 ∨ (1 : ℚ) < 0 ∨ (1 : ℚ) ≤ 0) by norm_num)]
  simp (disch := simp) [drift_times, bind, Except.bind, Direct.loop, Direct.setParam, drift_label1,
    drift_label2, drift_next, driftNext]
  simp [drift, Except.map]
  norm_num

/-- C82, concrete instance of the failure: initialised again, run without reassembling. -/
example : (Life.script drift [.param "step" (1/2), .initialize, .solve true fun _ => [],
      .initialize, .solve false fun _ => []]
      (Life.fresh (fun p => if p = "speed" then 1 else 0) 1 false driftNl .implicitEuler)).map
        Prod.fst
    = .ok [(1/2, 1/2), (1, 1), (1/2, 0), (1, 0)] := by
  obtain ⟨q, hq, q1, q2, q3, q4, q5, q6⟩ : ∃ q, Direct.script drift ([.param "step" (1/2),
      .initialize] ++ [.solve true fun _ => []])
      (Direct.fresh (fun p => if p = "speed" then 1 else 0) 1 false driftNl .implicitEuler)
      = .ok q ∧ q.2.start = 0 ∧ q.2.stop = 1 ∧ q.2.vals "step" = 1/2 ∧ q.2.vals "u0" = 0 ∧
        q.2.digit = setDigit 2⁻¹ ∧ q.1 = [(1/2, 1/2), (1, 1)] := by
    simp only [List.cons_append, List.nil_append, Direct.script, Direct.exec, Direct.setParam,
      Direct.fresh]
    simp (disch := simp) [drift_times, bind, Except.bind, Direct.loop, Direct.setParam, drift_label1,
      drift_label2, drift_next, driftNext]
    simp [drift]
    norm_num
  have := C82_fails_reinitialize drift _ _ _ _ _ [.param "step" (1/2), .initialize] true _
    (by simp [Disciplined]) q.1 q.2 hq [2⁻¹, 1] (by simp)
    (by rw [q1, q2, q3, one_div]; exact drift_times)
  refine Eq.trans ?_ (this.trans ?_)
  · rfl
  · rw [q5, q6]
    simp [drift_label1, drift_label2, drift, q4]

end Dream
