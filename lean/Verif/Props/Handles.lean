import Verif.Props.Lifecycle

/-!
# C109: fields follow the solution
-/

set_option linter.unusedSectionVars false

noncomputable section

namespace Dream

open Spec

variable {ι X Y O A : Type}

section
variable [AddCommGroup X] [Module ℝ X] [AddCommGroup Y]

theorem solveLevel_store (K : Kit ι X Y O A) (L M : Life ι X O A) (h : L.solveLevel K = .ok M) :
    M = L ∨ ∃ a st, L.nl.attrs = some a ∧ M = L.store a.unk st := by
  unfold Life.solveLevel at h
  by_cases hm : L.nl.o.maxIter ≤ 0
  · rw [if_pos hm] at h
    cases Except.ok.inj h
    exact .inl rfl
  · rw [if_neg hm] at h
    cases h1 : L.nl.attrs with
    | none => rw [h1] at h; cases h
    | some b =>
      rw [h1] at h
      dsimp only at h
      cases h2 : L.mem b.unk with
      | none => rw [h2] at h; cases h
      | some st =>
        cases h3 : L.mem b.form.mem with
        | none => rw [h2, h3] at h; cases h
        | some lv =>
          rw [h2, h3] at h
          dsimp only at h
          cases h4 : (K.problem b.form.opts (L.values b.form.ver)).residual b.form.scheme
              (L.values b.form.ver "step" : ℚ) lv.levels 0 st.x with
          | error e => rw [h4] at h; cases h
          | ok y =>
            rw [h4] at h
            simp only [bind, Except.bind] at h
            split_ifs at h
            cases Except.ok.inj h
            exact .inr ⟨b, _, rfl, rfl⟩

theorem shift_store (K : Kit ι X Y O A) (L M : Life ι X O A) (h : L.shift K = .ok M) :
    ∃ g st, L.scheme.mem = some g ∧ M = L.store g st := by
  unfold Life.shift at h
  cases h1 : L.scheme.mem with
  | none => rw [h1] at h; cases h
  | some g =>
    rw [h1] at h
    dsimp only at h
    cases h2 : L.mem g with
    | none => rw [h2] at h; cases h
    | some st =>
      rw [h2] at h
      dsimp only at h
      cases h3 : timeStep L.scheme.kind.levelNames st.levels (K.comp st.x) with
      | error e => rw [h3] at h; cases h
      | ok lv =>
        rw [h3] at h
        cases Except.ok.inj h
        exact ⟨g, _, rfl, rfl⟩

/-- Properties that parameters and the writes of a run do not touch hold after the run; and what is
yielded last is what `cfg.gfu` contains afterwards. -/
theorem loop_invariant (K : Kit ι X Y O A) (hook : ℕ → List (String × ℚ)) (I : Life ι X O A → Prop)
    (hp : ∀ L nv, I L → I (L.setParam nv))
    (hu : ∀ L a st, I L → L.nl.attrs = some a → I (L.store a.unk st))
    (hs : ∀ L g st, I L → L.scheme.mem = some g → I (L.store g st))
    (ts : List ℚ) (k : ℕ) (L : Life ι X O A) (hL : I L)
    (r : List (ℚ × X) × Life ι X O A) (h : Life.loop K hook k ts L = .ok r) :
    I r.2 ∧ (ts ≠ [] → ∃ t x, r.1.getLast? = some (t, x) ∧ r.2.visible = .ok x) ∧
      r.1.length = ts.length := by
  have hps : ∀ (l : List (String × ℚ)) L, I L → I (l.foldl Life.setParam L) := by
    intro l
    induction l with
    | nil => exact fun L h => h
    | cons c l ih => exact fun L h => ih _ (hp L c h)
  have hv : ∀ (l : List (String × ℚ)) (L : Life ι X O A),
      (l.foldl Life.setParam L).visible = L.visible := by
    intro l
    induction l with
    | nil => exact fun L => rfl
    | cons c l ih => exact fun L => (ih (L.setParam c)).trans rfl
  induction ts generalizing k L r with
  | nil => cases Except.ok.inj h; exact ⟨hL, fun h => absurd rfl h, rfl⟩
  | cons t ts ih =>
    simp only [Life.loop] at h
    cases h1 : (L.setParam ("t", t)).solveLevel K with
    | error e => rw [h1] at h; cases h
    | ok L1 =>
      rw [h1] at h
      simp only [bind, Except.bind] at h
      cases h2 : L1.shift K with
      | error e => rw [h2] at h; cases h
      | ok L2 =>
        rw [h2] at h
        dsimp only at h
        cases h3 : L2.visible with
        | error e => rw [h3] at h; cases h
        | ok x =>
          rw [h3] at h
          dsimp only at h
          cases h4 : Life.loop K hook (k + 1) ts ((hook k).foldl Life.setParam L2) with
          | error e => rw [h4] at h; cases h
          | ok q =>
            rw [h4] at h
            cases Except.ok.inj h
            have i1 : I L1 := by
              rcases solveLevel_store K _ _ h1 with rfl | ⟨a, st, ha, rfl⟩
              · exact hp _ _ hL
              · exact hu _ _ _ (hp _ _ hL) ha
            have i2 : I L2 := by
              obtain ⟨g, st, hg, rfl⟩ := shift_store K _ _ h2
              exact hs _ _ _ i1 hg
            obtain ⟨j1, j2, j3⟩ := ih _ _ (hps _ _ i2) _ h4
            refine ⟨j1, fun _ => ?_, by simp [j3]⟩
            by_cases hne : ts = []
            · subst hne
              cases Except.ok.inj h4
              exact ⟨_, x, rfl, (hv _ _).trans h3⟩
            · obtain ⟨t', x', e1, e2⟩ := j2 hne
              refine ⟨t', x', ?_, e2⟩
              have : q.1 ≠ [] := by
                intro e; rw [e] at e1; cases e1
              rw [List.getLast?_cons_of_ne_nil this]
              exact e1

theorem solve_invariant (K : Kit ι X Y O A) (re : Bool) (hook : ℕ → List (String × ℚ))
    (I : Life ι X O A → Prop)
    (hp : ∀ L nv, I L → I (L.setParam nv))
    (hu : ∀ L a st, I L → L.nl.attrs = some a → I (L.store a.unk st))
    (hs : ∀ L g st, I L → L.scheme.mem = some g → I (L.store g st))
    (L : Life ι X O A) (hL : ∀ M, L.begin re = .ok M → I M)
    (r : List (ℚ × X) × Life ι X O A) (h : L.solve K re hook = .ok r) :
    I r.2 ∧ ∃ t x, r.1.getLast? = some (t, x) ∧ r.2.visible = .ok x := by
  simp only [Life.solve] at h
  cases h1 : L.begin re with
  | error e => rw [h1] at h; cases h
  | ok M =>
    rw [h1] at h
    simp only [bind, Except.bind] at h
    cases h2 : Life.times M.start M.stop (M.values M.ver "step") with
    | error e => rw [h2] at h; cases h
    | ok ts =>
      rw [h2] at h
      dsimp only at h
      cases h3 : Life.loop K hook 0 ts M with
      | error e => rw [h3] at h; cases h
      | ok q =>
        rw [h3] at h
        dsimp only at h
        split_ifs at h with hne
        cases Except.ok.inj h
        obtain ⟨i1, i2, -⟩ := loop_invariant K hook I hp hu hs ts 0 M (hL M h1) _ h3
        exact ⟨i1, i2 (by simpa using hne)⟩

/-- Histories (helper). -/
theorem known_invariant (K : Kit ι X Y O A) (d : Deed O A) (L : Life ι X O A)
    (hL : ∀ g, L.gfu = some g → g < L.nMem) (r : List (ℚ × X) × Life ι X O A)
    (hr : L.exec K d = .ok r) : ∀ g, r.2.gfu = some g → g < r.2.nMem := by
  cases d with
  | interval s e =>
    simp only [Life.exec] at hr
    cases hh : Timer.setInterval ⟨L.start, L.stop, 1, 0, 0⟩ s e with
    | error e => rw [hh] at hr; cases hr
    | ok tm => rw [hh] at hr; cases hr; exact hL
  | solve re hook =>
    refine (solve_invariant K re hook (fun M => ∀ g, M.gfu = some g → g < M.nMem)
      (fun _ _ h => h) (fun _ _ _ h _ => h) (fun _ _ _ h _ => h) L ?_ r hr).1
    intro M hM
    cases re with
    | false => cases Except.ok.inj hM; exact hL
    | true =>
      simp only [Life.begin, if_true, Life.assemble] at hM
      cases hf : L.forms with
      | none => rw [hf] at hM; cases hM
      | some f =>
        cases hg : L.gfu with
        | none => rw [hf, hg] at hM; cases hM
        | some g =>
          rw [hf, hg] at hM
          cases Except.ok.inj hM
          intro g' hg'
          exact hL g' (hg.trans hg')
  | «initialize» =>
    simp only [Life.exec, Life.initialize, init_levelsOf] at hr
    cases hr
    intro g hg
    cases Option.some.inj hg
    exact Nat.lt_succ_self _
  | _ => cases hr; exact hL

/-- **C109** As long as the solver is not initialised again, fields obtained from it show the
solution that `cfg.gfu` contains: before, between and after runs and changes of all settings. -/
theorem C109_follow_partial (K : Kit ι X Y O A) (L : Life ι X O A) (g : ℕ)
    (hg : L.getFields = .ok g) (ds : List (Deed O A)) (hd : .initialize ∉ ds)
    (r : List (ℚ × X) × Life ι X O A) (hr : Life.script K ds L = .ok r) :
    r.2.show g = r.2.visible ∧ r.2.getFields = .ok g := by
  have hL : L.gfu = some g := by
    unfold Life.getFields at hg
    cases h : L.gfu with
    | none => rw [h] at hg; cases hg
    | some g' => rw [h] at hg; cases hg; rfl
  have := script_invariant K (fun M => M.gfu = some g) ds (fun d hdm M hM q hq => by
    rw [(exec_scheme K d (fun e => hd (e ▸ hdm)) M q hq).2.2]; exact hM) L hL r hr
  unfold Life.show Life.visible Life.getFields
  rw [this]
  exact ⟨rfl, rfl⟩

/-- **C109 fails after a second `initialize`**: fields obtained before it show the last state of
the runs before it for ever, however many runs (with reassembly) follow. -/
theorem C109_fails_stale (K : Kit ι X Y O A) (v : String → ℚ) (o : O) (a : A) (n : NlOpts)
    (s : Scheme) (ds : List (Deed O A)) (ys : List (ℚ × X)) (L : Life ι X O A)
    (hds : Life.script K ds (Life.fresh v o a n s) = .ok (ys, L))
    (g : ℕ) (hg : L.getFields = .ok g) (es : List (Deed O A))
    (he : ∀ hook, Deed.solve false hook ∉ es)
    (zs : List (ℚ × X)) (L' : Life ι X O A)
    (hes : Life.script K (.initialize :: es) L = .ok (zs, L')) :
    L'.show g = L.visible := by
  have hL : L.gfu = some g := by
    unfold Life.getFields at hg
    cases h : L.gfu with
    | none => rw [h] at hg; cases hg
    | some g' => rw [h] at hg; cases hg; rfl
  have hlt : g < L.nMem := script_invariant K (fun M => ∀ g, M.gfu = some g → g < M.nMem) ds
    (fun d _ M hM q hq => known_invariant K d M hM q hq) _ (fun _ h => by cases h) _ hds g hL
  -- nothing in use refers to `g`
  let I : Life ι X O A → Prop := fun M => M.mem g = L.mem g ∧ g < M.nMem ∧ M.gfu ≠ some g ∧
    M.scheme.mem ≠ some g
  have hI : I L' := by
    obtain ⟨M, hM, hIM⟩ : ∃ M, L.exec K .initialize = .ok ([], M) ∧ I M := by
      simp only [Life.exec, Life.initialize, init_levelsOf]
      refine ⟨_, rfl, ?_, ?_, ?_, ?_⟩
      · simp only [Life.store]
        rw [if_neg (by omega)]
      · exact Nat.lt_succ_of_lt hlt
      · intro h; have := Option.some.inj h; omega
      · intro h; have := Option.some.inj h; omega
    have key := script_invariant K I es (fun d hdm N hN q hq => by
      obtain ⟨n1, n2, n3, n4⟩ := hN
      cases d with
      | interval s e =>
        simp only [Life.exec] at hq
        cases hh : Timer.setInterval ⟨N.start, N.stop, 1, 0, 0⟩ s e with
        | error e => rw [hh] at hq; cases hq
        | ok tm => rw [hh] at hq; cases hq; exact ⟨n1, n2, n3, n4⟩
      | solve re hook =>
        cases re with
        | false => exact absurd hdm (he hook)
        | true =>
          refine (solve_invariant K true hook
            (fun M => I M ∧ ∀ b, M.nl.attrs = some b → b.unk ≠ g)
            (fun _ _ h => h) ?_ ?_ N ?_ q hq).1.1
          · rintro M b st ⟨⟨m1, m2, m3, m4⟩, m5⟩ hb
            refine ⟨⟨?_, m2, m3, m4⟩, m5⟩
            simp only [Life.store]
            rw [if_neg (fun e => m5 b hb e.symm), m1]
          · rintro M b st ⟨⟨m1, m2, m3, m4⟩, m5⟩ hb
            refine ⟨⟨?_, m2, m3, m4⟩, m5⟩
            simp only [Life.store]
            rw [if_neg (fun e : g = b => m4 (by rw [e]; exact hb)), m1]
          · intro M hM
            simp only [Life.begin, if_true, Life.assemble] at hM
            cases hf : N.forms with
            | none => rw [hf] at hM; cases hM
            | some f =>
              cases hg' : N.gfu with
              | none => rw [hf, hg'] at hM; cases hM
              | some g' =>
                rw [hf, hg'] at hM
                cases Except.ok.inj hM
                refine ⟨⟨n1, n2, ?_, n4⟩, ?_⟩
                · rw [← hg']; exact n3
                · intro b hb
                  cases Option.some.inj hb
                  intro e
                  exact n3 (by rw [hg', ← e])
      | «initialize» =>
        simp only [Life.exec, Life.initialize, init_levelsOf] at hq
        cases hq
        refine ⟨?_, ?_, ?_, ?_⟩
        · simp only [Life.store]
          rw [if_neg (by omega), n1]
        · exact Nat.lt_succ_of_lt n2
        · intro h; have := Option.some.inj h; omega
        · intro h; have := Option.some.inj h; omega
      | newScheme s => cases hq; exact ⟨n1, n2, n3, by simp⟩
      | _ => cases hq; exact ⟨n1, n2, n3, n4⟩) M hIM
    simp only [Life.script, hM, bind, Except.bind] at hes
    cases h2 : Life.script K es M with
    | error e => rw [h2] at hes; cases hes
    | ok p =>
      rw [h2] at hes
      cases Except.ok.inj hes
      exact key p h2
  unfold Life.show Life.visible
  rw [hL, hI.1]

/-- **C109** What a run yields last is what `cfg.gfu` contains after it. -/
theorem C109_after_run (K : Kit ι X Y O A) (L : Life ι X O A) (re : Bool)
    (hook : ℕ → List (String × ℚ)) (r : List (ℚ × X) × Life ι X O A)
    (hr : L.exec K (.solve re hook) = .ok r) :
    ∃ t x, r.1.getLast? = some (t, x) ∧ r.2.visible = .ok x :=
  (solve_invariant K re hook (fun _ => True) (fun _ _ _ => trivial) (fun _ _ _ _ _ => trivial)
    (fun _ _ _ _ _ => trivial) L (fun _ _ => trivial) r hr).2

end

/-- The speed is doubled and all is initialised again: the second run goes to 6, but fields that were
obtained before still show the end of the first one, 3. -/
example : ∃ L L' : Life Unit ℝ ℝ Bool,
    (Life.script drift [.param "speed" 3, .param "step" (1/2), .initialize,
      .solve true (fun _ => [])] (Life.fresh (fun _ => 0) 1 false driftNl .implicitEuler)
      = .ok ([(1/2, 3/2), (1, 3)], L)) ∧ L.getFields = .ok 0 ∧
    Life.script drift [.initialize, .param "speed" 6, .solve true (fun _ => [])] L
      = .ok ([(1/2, 3), (1, 6)], L') ∧ L'.show 0 = .ok 3 := by
  have h1 : (Life.script drift [.param "speed" 3, .param "step" (1/2), .initialize,
      .solve true (fun _ => [])] (Life.fresh (fun _ => 0) 1 false driftNl .implicitEuler)).map Prod.fst
      = .ok [(1/2, 3/2), (1, 3)] := by
    rw [C82_in_force_partial drift _ (by simp [Disciplined])]
    simp only [Direct.script, Direct.exec, Direct.setParam, Direct.fresh]
    simp (disch := simp) [drift_times, bind, Except.bind, Direct.loop, Direct.setParam, drift_label1,
      drift_label2, drift_next, driftNext]
    simp [drift, Except.map]
    norm_num
  have h2 : (Life.script drift ([.param "speed" 3, .param "step" (1/2), .initialize,
      .solve true (fun _ => [])] ++ [.initialize, .param "speed" 6, .solve true (fun _ => [])])
      (Life.fresh (fun _ => 0) 1 false driftNl .implicitEuler)).map Prod.fst
      = .ok ([(1/2, 3/2), (1, 3)] ++ [(1/2, 3), (1, 6)]) := by
    rw [C82_in_force_partial drift _ (by simp [Disciplined])]
    simp only [Direct.script, Direct.exec, Direct.setParam, Direct.fresh, List.cons_append,
      List.nil_append]
    simp (disch := simp) [drift_times, bind, Except.bind, Direct.loop, Direct.setParam, drift_label1,
      drift_label2, drift_next, driftNext]
    simp [drift, Except.map]
    norm_num
  cases e1 : Life.script drift [.param "speed" 3, .param "step" (1/2), .initialize,
      .solve true (fun _ => [])] (Life.fresh (fun _ => 0) 1 false driftNl .implicitEuler) with
  | error e => rw [e1] at h1; cases h1
  | ok r =>
    obtain ⟨ys, L⟩ := r
    rw [e1] at h1
    have hys : ys = [(1/2, 3/2), (1, 3)] := Except.ok.inj h1
    subst hys
    rw [script_append drift _ _ _ L _ e1] at h2
    cases e2 : Life.script drift [.initialize, .param "speed" 6, .solve true (fun _ => [])] L with
    | error e => rw [e2] at h2; cases h2
    | ok q =>
      obtain ⟨zs, L'⟩ := q
      rw [e2] at h2
      have hzs : zs = [(1/2, 3), (1, 6)] := List.append_cancel_left (Except.ok.inj h2)
      subst hzs
      have hg : L.getFields = .ok 0 ∧ L.visible = .ok 3 := by
        obtain ⟨M, hM, hMg⟩ : ∃ M : Life Unit ℝ ℝ Bool, Life.script drift
            [.param "speed" 3, .param "step" (1/2), .initialize]
            (Life.fresh (fun _ => 0) 1 false driftNl .implicitEuler) = .ok ([], M) ∧
            M.getFields = .ok 0 := by
          simp only [Life.script, Life.exec, Life.initialize, init_levelsOf, bind, Except.bind]
          exact ⟨_, rfl, rfl⟩
        have e3 := script_append drift [.param "speed" 3, .param "step" (1/2), .initialize]
          [.solve true (fun _ => [])] _ M _ hM
        rw [List.cons_append, List.cons_append, List.cons_append, List.nil_append, e1] at e3
        cases e4 : Life.script drift [.solve true (fun _ => [])] M with
        | error e => rw [e4] at e3; cases e3
        | ok p =>
          rw [e4] at e3
          have hp : (([(1/2, 3/2), (1, 3)], L) : List (ℚ × ℝ) × Life Unit ℝ ℝ Bool) = p := by
            have := Except.ok.inj e3
            rw [this]; simp
          subst hp
          refine ⟨(C109_follow_partial drift M 0 hMg _ (by simp) _ e4).2, ?_⟩
          simp only [Life.script, bind, Except.bind] at e4
          cases e5 : M.exec drift (.solve true fun _ => []) with
          | error e => rw [e5] at e4; cases e4
          | ok w =>
            rw [e5] at e4
            obtain ⟨t, x, f1, f2⟩ := C109_after_run drift M true _ w e5
            have hw : w = ([(1/2, 3/2), (1, 3)], L) := by
              have := Except.ok.inj e4
              rw [← this]; simp
            subst hw
            simp only [List.getLast?_cons_cons, List.getLast?_singleton, Option.some.injEq,
              Prod.mk.injEq] at f1
            rw [f2, ← f1.2]
      refine ⟨L, L', rfl, hg.1, e2, ?_⟩
      rw [C109_fails_stale drift _ _ _ _ _ _ _ L e1 0 hg.1 _ (by simp) _ L' e2, hg.2]

end Dream
