import Verif.Model.Log
import Mathlib.Tactic.Push
import Mathlib.Data.List.Basic

/-!
# C52: log handlers
-/

namespace Dream

/-- What the user asked for: for every configuration whether its log stream is active and
which destinations are enabled. A new stream logs to the terminal only. -/
def Spec.logAfter : List LogCmd → ℕ → Option (LogDest → Bool)
  | [], _ => none
  | cmd :: before, c =>
    let s := Spec.logAfter before c
    match cmd with
    | .activate c' => if c' = c then some (fun d => d = .terminal) else s
    | .deactivate c' => if c' = c then none else s
    | .set c' d on _ => if c' = c then s.map fun e d' => if d' = d then on else e d' else s

/-- Whether configuration `c` is meant to log to `d` (latest command first). -/
def Spec.logsTo (cmds : List LogCmd) (c : ℕ) (d : LogDest) : Bool :=
  ((Spec.logAfter cmds c).map fun e => e d).getD false

/-- The log file could be opened whenever that was tried. -/
def LogCmd.opens : LogCmd → Prop
  | .set _ _ on opens => on = true → opens = true
  | _ => True

/-- The handlers made for one destination of one configuration. -/
def LogState.handlersOf (st : LogState) (c : ℕ) (d : LogDest) : List Handler :=
  st.handlers.filter fun h => h.owner = c ∧ h.dest = d

/-- The attribute of the stream of a configuration. -/
def LogState.attr (st : LogState) (c : ℕ) (d : LogDest) : Option ℕ := (st.streams c).bind fun a => a d

structure LogInv (st : LogState) (en : ℕ → Option (LogDest → Bool)) : Prop where
  fresh : ∀ h ∈ st.handlers, h.id < st.next
  attrFresh : ∀ c d x, st.attr c d = some x → x < st.next
  only : ∀ c d x, st.attr c d = some x → ∀ h ∈ st.handlers, h.id = x → h.owner = c ∧ h.dest = d
  active : ∀ c, (st.streams c).isSome = (en c).isSome
  cnt : ∀ c d, (∃ e, en c = some e ∧ e d = true ∧ ∃ x, st.attr c d = some x ∧
      st.handlersOf c d = [⟨x, d, c⟩]) ∨
    ((∀ e, en c = some e → e d = false) ∧ st.handlersOf c d = [])

theorem mem_removeHandler {hs : List Handler} {o : Option ℕ} {h : Handler} :
    h ∈ removeHandler hs o ↔ h ∈ hs ∧ ∀ x, o = some x → h.id ≠ x := by
  cases o with
  | none => simp [removeHandler]
  | some x => simp [removeHandler]

theorem filter_removeHandler (hs : List Handler) (o : Option ℕ) (p : Handler → Bool)
    (h : ∀ x, o = some x → ∀ h ∈ hs, h.id = x → p h = false) :
    (removeHandler hs o).filter p = hs.filter p := by
  cases o with
  | none => rfl
  | some x =>
    simp only [removeHandler, List.filter_filter]
    apply List.filter_congr
    intro a ha
    by_cases e : a.id = x
    · simp [h x rfl a ha e]
    · simp [e]

theorem filter_removeHandler_self (hs : List Handler) (x : ℕ) (p : Handler → Bool)
    (h : ∀ a ∈ hs, p a = true → a.id = x) :
    (removeHandler hs (some x)).filter p = [] := by
  simp only [removeHandler, List.filter_filter]
  rw [List.filter_eq_nil_iff]
  intro a ha
  by_cases e : p a = true
  · simp [h a ha e]
  · simp [e]

/-- After removing the handler of an attribute, nothing is left of that destination. -/
theorem LogInv.removed {st : LogState} {en} (I : LogInv st en) (c : ℕ) (d : LogDest) :
    (removeHandler st.handlers (st.attr c d)).filter (fun h => h.owner = c ∧ h.dest = d) = [] ∧
    ∀ c' d', (c' ≠ c ∨ d' ≠ d) →
      (removeHandler st.handlers (st.attr c d)).filter (fun h => h.owner = c' ∧ h.dest = d') =
        st.handlersOf c' d' := by
  refine ⟨?_, ?_⟩
  · rcases I.cnt c d with ⟨e, _, _, x, hx, hh⟩ | ⟨_, hh⟩
    · rw [hx]
      apply filter_removeHandler_self
      intro a ha hp
      have : a ∈ st.handlersOf c d := List.mem_filter.2 ⟨ha, hp⟩
      rw [hh] at this
      simp at this
      rw [this]
    · rw [List.filter_eq_nil_iff]
      intro a ha hp
      have : a ∈ st.handlersOf c d := List.mem_filter.2 ⟨(mem_removeHandler.1 ha).1, hp⟩
      rw [hh] at this
      simp at this
  · intro c' d' hne
    apply filter_removeHandler
    intro x hx h hh hid
    have := I.only c d x hx h hh hid
    simp only [decide_eq_false_iff_not, not_and]
    intro h1 h2
    rcases hne with hne | hne
    · exact hne (h1.symm.trans this.1)
    · exact hne (h2.symm.trans this.2)

theorem attr_update (st : LogState) (c : ℕ) (o : Option LogAttrs) (hs : List Handler)
    (fl : List ℕ) (n : ℕ) (c' : ℕ) (d : LogDest) :
    LogState.attr ⟨hs, Function.update st.streams c o, fl, n⟩ c' d =
      if c' = c then o.bind fun a => a d else st.attr c' d := by
  by_cases h : c' = c
  · subst h; simp [LogState.attr]
  · simp [LogState.attr, h]

/-- Setting a destination keeps the invariant. -/
theorem LogInv.set {st : LogState} {en} (I : LogInv st en) (c : ℕ) (d : LogDest) (on opens : Bool)
    (ho : on = true → opens = true) :
    LogInv (st.run (.set c d on opens))
      (fun c' => if c = c' then (en c').map fun e d' => if d' = d then on else e d' else en c') := by
  cases hs : st.streams c with
  | none =>
    simp only [LogState.run, hs]
    have hen : en c = none := by
      have := I.active c
      rw [hs] at this
      simpa using this.symm
    have : (fun c' => if c = c' then (en c').map fun e d' => if d' = d then on else e d' else en c')
        = en := by
      funext c'
      by_cases h : c = c'
      · subst h; simp [hen]
      · simp [h]
    rw [this]
    exact I
  | some a =>
    have ha : st.attr c d = a d := by simp [LogState.attr, hs]
    obtain ⟨e, he⟩ : ∃ e, en c = some e := by
      have := I.active c
      rw [hs] at this
      exact Option.isSome_iff_exists.1 this.symm
    obtain ⟨r1, r2⟩ := I.removed c d
    rw [ha] at r1 r2
    cases on with
    | false =>
      simp only [LogState.run, hs, setDest, Bool.false_eq_true, if_false]
      have hupd : Function.update st.streams c (some a) = st.streams := by
        rw [← hs]; exact Function.update_eq_self c st.streams
      rw [hupd]
      refine ⟨?_, I.attrFresh, ?_, ?_, ?_⟩
      · intro h hh; exact I.fresh h (mem_removeHandler.1 hh).1
      · intro c' d' x hx h hh; exact I.only c' d' x hx h (mem_removeHandler.1 hh).1
      · intro c'
        by_cases h : c = c'
        · subst h; simp [hs, he]
        · simp [h, I.active c']
      · intro c' d'
        by_cases hcd : c' = c ∧ d' = d
        · obtain ⟨rfl, rfl⟩ := hcd
          right
          refine ⟨?_, r1⟩
          intro e' he'
          simp [he] at he'
          rw [← he']; simp
        · have hne : c' ≠ c ∨ d' ≠ d := by tauto
          have hfl := r2 c' d' hne
          have hen : ∀ e' : LogDest → Bool,
              ((fun c' => if c = c' then (en c').map fun e d' => if d' = d then false else e d'
                else en c') c' = some e' → ∃ e2, en c' = some e2 ∧ e2 d' = e' d') ∧
              (en c' = some e' → ∃ e2, (if c = c' then (en c').map fun e d' =>
                if d' = d then false else e d' else en c') = some e2 ∧ e2 d' = e' d') := by
            intro e'
            by_cases hc : c = c'
            · subst hc
              have hd : d' ≠ d := hne.resolve_left (by simp)
              simp [he, hd]
              refine ⟨?_, ?_⟩
              · rintro rfl; simp [hd]
              · rintro rfl; rfl
            · simp only [hc, if_false]
              exact ⟨fun h => ⟨e', h, rfl⟩, fun h => ⟨e', h, rfl⟩⟩
          rcases I.cnt c' d' with ⟨e1, h1, h2, x, h3, h4⟩ | ⟨h1, h2⟩
          · left
            obtain ⟨e2, h5, h6⟩ := (hen e1).2 h1
            exact ⟨e2, h5, h6.trans h2, x, h3, hfl.trans h4⟩
          · right
            refine ⟨fun e1 he1 => ?_, hfl.trans h2⟩
            obtain ⟨e2, h5, h6⟩ := (hen e1).1 he1
            rw [← h6]; exact h1 e2 h5
    | true =>
      have hop := ho rfl
      subst hop
      simp only [LogState.run, hs, setDest, if_true, Bool.true_eq_false, and_false, if_false]
      refine ⟨?_, ?_, ?_, ?_, ?_⟩
      · intro h hh
        rcases List.mem_append.1 hh with hh | hh
        · exact lt_trans (I.fresh h (mem_removeHandler.1 hh).1) (Nat.lt_succ_self _)
        · simp at hh; rw [hh]; exact Nat.lt_succ_self _
      · intro c' d' x hx
        rw [attr_update] at hx
        by_cases hc : c' = c
        · rw [if_pos hc] at hx
          simp only [Option.bind_some] at hx
          by_cases hd : d' = d
          · subst hd; simp at hx; rw [← hx]; exact Nat.lt_succ_self _
          · rw [Function.update_of_ne hd] at hx
            have : st.attr c d' = some x := by simp [LogState.attr, hs, hx]
            exact lt_trans (I.attrFresh c d' x this) (Nat.lt_succ_self _)
        · rw [if_neg hc] at hx
          exact lt_trans (I.attrFresh c' d' x hx) (Nat.lt_succ_self _)
      · intro c' d' x hx h hh hid
        rw [attr_update] at hx
        rcases List.mem_append.1 hh with hh | hh
        · have hm := (mem_removeHandler.1 hh).1
          by_cases hc : c' = c
          · rw [if_pos hc] at hx
            simp only [Option.bind_some] at hx
            by_cases hd : d' = d
            · subst hd
              simp at hx
              have := I.fresh h hm
              omega
            · rw [Function.update_of_ne hd] at hx
              have : st.attr c d' = some x := by simp [LogState.attr, hs, hx]
              rw [hc]
              exact I.only c d' x this h hm hid
          · rw [if_neg hc] at hx
            exact I.only c' d' x hx h hm hid
        · simp at hh
          subst hh
          simp only at hid
          by_cases hc : c' = c
          · rw [if_pos hc] at hx
            simp only [Option.bind_some] at hx
            by_cases hd : d' = d
            · exact ⟨hc.symm, hd.symm⟩
            · rw [Function.update_of_ne hd] at hx
              have h1 : st.attr c d' = some x := by simp [LogState.attr, hs, hx]
              have := I.attrFresh c d' x h1
              omega
          · rw [if_neg hc] at hx
            have := I.attrFresh c' d' x hx
            omega
      · intro c'
        by_cases h : c' = c
        · subst h; simp [he]
        · have h' : ¬ c = c' := fun e => h e.symm
          simp [h, h', I.active c']
      · intro c' d'
        by_cases hcd : c' = c ∧ d' = d
        · obtain ⟨rfl, rfl⟩ := hcd
          left
          refine ⟨fun d'' => if d'' = d' then true else e d'', by simp [he], by simp, st.next, ?_, ?_⟩
          · rw [attr_update]; simp
          · unfold LogState.handlersOf
            simp only [List.filter_append, r1]
            simp
        · have hne : c' ≠ c ∨ d' ≠ d := by tauto
          have hfl : LogState.handlersOf ⟨removeHandler st.handlers (a d) ++ [⟨st.next, d, c⟩],
              Function.update st.streams c (some (Function.update a d (some st.next))),
              if d = LogDest.file then st.openFiles ++ [st.next] else st.openFiles,
              st.next + 1⟩ c' d' = st.handlersOf c' d' := by
            rw [← r2 c' d' hne]
            unfold LogState.handlersOf
            simp only [List.filter_append]
            rw [List.filter_cons_of_neg, List.filter_nil, List.append_nil]
            simp only [decide_eq_true_eq, not_and]
            intro h1 h2
            exact hcd ⟨h1.symm, h2.symm⟩
          have hat : LogState.attr ⟨removeHandler st.handlers (a d) ++ [⟨st.next, d, c⟩],
              Function.update st.streams c (some (Function.update a d (some st.next))),
              if d = LogDest.file then st.openFiles ++ [st.next] else st.openFiles,
              st.next + 1⟩ c' d' = st.attr c' d' := by
            rw [attr_update]
            by_cases hc : c' = c
            · have hd : d' ≠ d := hne.resolve_left (by simp [hc])
              simp [hc, LogState.attr, hs, hd]
            · simp [hc]
          have hen : ∀ e' : LogDest → Bool,
              ((if c = c' then (en c').map fun e d' => if d' = d then true else e d'
                else en c') = some e' → ∃ e2, en c' = some e2 ∧ e2 d' = e' d') ∧
              (en c' = some e' → ∃ e2, (if c = c' then (en c').map fun e d' =>
                if d' = d then true else e d' else en c') = some e2 ∧ e2 d' = e' d') := by
            intro e'
            by_cases hc : c = c'
            · subst hc
              have hd : d' ≠ d := hne.resolve_left (by simp)
              simp [he, hd]
              refine ⟨?_, ?_⟩
              · rintro rfl; simp [hd]
              · rintro rfl; rfl
            · simp only [hc, if_false]
              exact ⟨fun h => ⟨e', h, rfl⟩, fun h => ⟨e', h, rfl⟩⟩
          rw [hfl, hat]
          rcases I.cnt c' d' with ⟨e1, h1, h2, x, h3, h4⟩ | ⟨h1, h2⟩
          · left
            obtain ⟨e2, h5, h6⟩ := (hen e1).2 h1
            exact ⟨e2, h5, h6.trans h2, x, h3, h4⟩
          · right
            refine ⟨fun e1 he1 => ?_, h2⟩
            obtain ⟨e2, h5, h6⟩ := (hen e1).1 he1
            rw [← h6]; exact h1 e2 h5

/-- Dropping the stream of a configuration keeps the invariant. -/
theorem LogInv.deactivate {st : LogState} {en} (I : LogInv st en) (c : ℕ) :
    LogInv (st.run (.deactivate c)) (fun c' => if c = c' then none else en c') := by
  cases hs : st.streams c with
  | none =>
    simp only [LogState.run, hs]
    have hen : en c = none := by
      have := I.active c
      rw [hs] at this
      simpa using this.symm
    have : (fun c' => if c = c' then none else en c') = en := by
      funext c'
      by_cases h : c = c'
      · subst h; simp [hen]
      · simp [h]
    rw [this]
    exact I
  | some a =>
    have ha : ∀ d, st.attr c d = a d := fun d => by simp [LogState.attr, hs]
    have hmem : ∀ h ∈ removeHandler (removeHandler st.handlers (a .terminal)) (a .file),
        h ∈ st.handlers := fun h hh => (mem_removeHandler.1 (mem_removeHandler.1 hh).1).1
    simp only [LogState.run, hs, delStream]
    refine ⟨fun h hh => I.fresh h (hmem h hh), ?_, ?_, ?_, ?_⟩
    · intro c' d x hx
      rw [attr_update] at hx
      split_ifs at hx
      · simp at hx
      · exact I.attrFresh c' d x hx
    · intro c' d x hx h hh hid
      rw [attr_update] at hx
      split_ifs at hx
      · simp at hx
      · exact I.only c' d x hx h (hmem h hh) hid
    · intro c'
      by_cases h : c' = c
      · subst h; simp
      · have h' : ¬ c = c' := fun e => h e.symm
        simp [h, h', I.active c']
    · intro c' d
      by_cases hc : c' = c
      · subst hc
        right
        refine ⟨by simp, ?_⟩
        unfold LogState.handlersOf
        rw [List.filter_eq_nil_iff]
        intro h hh hp
        simp only [decide_eq_true_eq] at hp
        have h1 := mem_removeHandler.1 hh
        have h2 := mem_removeHandler.1 h1.1
        have h3 : h ∈ st.handlersOf c' d := List.mem_filter.2 ⟨h2.1, by simpa using hp⟩
        rcases I.cnt c' d with ⟨_, _, _, x, hx, hh'⟩ | ⟨_, hh'⟩
        · rw [hh'] at h3
          simp at h3
          rw [ha] at hx
          cases d with
          | terminal => exact h2.2 x hx (by rw [h3])
          | file => exact h1.2 x hx (by rw [h3])
        · rw [hh'] at h3; simp at h3
      · have hfl : (removeHandler (removeHandler st.handlers (a .terminal)) (a .file)).filter
            (fun h => h.owner = c' ∧ h.dest = d) = st.handlersOf c' d := by
          rw [filter_removeHandler, filter_removeHandler]
          · rfl
          · intro x hx h hh hid
            have := I.only c .terminal x (by rw [ha]; exact hx) h hh hid
            simp only [decide_eq_false_iff_not, not_and]
            intro h1; exact absurd (h1.symm.trans this.1) hc
          · intro x hx h hh hid
            have := I.only c .file x (by rw [ha]; exact hx) h (mem_removeHandler.1 hh).1 hid
            simp only [decide_eq_false_iff_not, not_and]
            intro h1; exact absurd (h1.symm.trans this.1) hc
        have hc' : ¬ c = c' := fun e => hc e.symm
        have hat : LogState.attr ⟨removeHandler (removeHandler st.handlers (a .terminal)) (a .file),
            Function.update st.streams c none, st.openFiles, st.next⟩ c' d = st.attr c' d := by
          rw [attr_update, if_neg hc]
        rw [hat]
        simp only [hc', if_false]
        rcases I.cnt c' d with ⟨e1, h1, h2, x, h3, h4⟩ | ⟨h1, h2⟩
        · exact .inl ⟨e1, h1, h2, x, h3, hfl.trans h4⟩
        · exact .inr ⟨h1, hfl.trans h2⟩

/-- Creating a new stream has the same effect as dropping the old one first. -/
theorem run_activate (st : LogState) {en} (I : LogInv st en) (c : ℕ) :
    st.run (.activate c) =
      { handlers := (st.run (.deactivate c)).handlers ++ [⟨st.next, .terminal, c⟩]
        streams := Function.update (st.run (.deactivate c)).streams c
          (some (Function.update (fun _ => none) .terminal (some st.next)))
        openFiles := st.openFiles
        next := st.next + 1 } := by
  cases hs : st.streams c with
  | none =>
    simp only [LogState.run, setDest, if_true, reduceCtorEq, false_and, if_false, hs, removeHandler]
  | some a =>
    have hne : ∀ d, a d ≠ some st.next := by
      intro d h
      have := I.attrFresh c d st.next (by simp [LogState.attr, hs, h])
      omega
    have happ : ∀ (hs : List Handler) (o : Option ℕ), o ≠ some st.next →
        removeHandler (hs ++ [⟨st.next, .terminal, c⟩]) o =
          removeHandler hs o ++ [⟨st.next, .terminal, c⟩] := by
      intro hs o ho
      cases o with
      | none => rfl
      | some x =>
        have : st.next ≠ x := fun e => ho (by rw [e])
        simp [removeHandler, this]
    have h0 : removeHandler st.handlers none = st.handlers := rfl
    simp only [LogState.run, setDest, if_true, reduceCtorEq, false_and, if_false, hs, delStream, h0,
      happ _ _ (hne _), Function.update_idem]

/-- Creating a stream keeps the invariant. -/
theorem LogInv.activate {st : LogState} {en} (I : LogInv st en) (c : ℕ) :
    LogInv (st.run (.activate c))
      (fun c' => if c = c' then some (fun d => decide (d = .terminal)) else en c') := by
  rw [run_activate st I]
  have J := I.deactivate c
  have hn : (st.run (.deactivate c)).next = st.next := by
    cases hs : st.streams c <;> simp only [LogState.run, hs, delStream]
  generalize st.run (.deactivate c) = st' at *
  refine ⟨?_, ?_, ?_, ?_, ?_⟩
  · intro h hh
    rcases List.mem_append.1 hh with hh | hh
    · have := J.fresh h hh
      simp only
      omega
    · simp at hh; rw [hh]; exact Nat.lt_succ_self _
  · intro c' d x hx
    rw [attr_update] at hx
    by_cases hc : c' = c
    · rw [if_pos hc] at hx
      cases d with
      | terminal => simp at hx; rw [← hx]; exact Nat.lt_succ_self _
      | file => simp at hx
    · rw [if_neg hc] at hx
      have := J.attrFresh c' d x hx
      simp only
      omega
  · intro c' d x hx h hh hid
    rw [attr_update] at hx
    by_cases hc : c' = c
    · rw [if_pos hc] at hx
      cases d with
      | terminal =>
        simp at hx
        rcases List.mem_append.1 hh with hh | hh
        · have := J.fresh h hh
          omega
        · simp at hh; rw [hh, hc]; exact ⟨rfl, rfl⟩
      | file => simp at hx
    · rw [if_neg hc] at hx
      rcases List.mem_append.1 hh with hh | hh
      · exact J.only c' d x hx h hh hid
      · simp at hh
        have := J.attrFresh c' d x hx
        rw [hh] at hid
        simp only at hid
        omega
  · intro c'
    by_cases h : c' = c
    · subst h; simp
    · have h' : ¬ c = c' := fun e => h e.symm
      have := J.active c'
      simp only [h', if_false] at this
      simp [h, h', this]
  · intro c' d
    by_cases hc : c' = c
    · subst hc
      have hnil : st'.handlersOf c' d = [] := by
        rcases J.cnt c' d with ⟨e, h1, _⟩ | ⟨_, h⟩
        · simp at h1
        · exact h
      cases d with
      | terminal =>
        left
        refine ⟨fun d => decide (d = .terminal), by simp, by simp, st.next,
          by rw [attr_update]; simp, ?_⟩
        unfold LogState.handlersOf at hnil ⊢
        rw [List.filter_append, hnil]
        simp
      | file =>
        right
        refine ⟨by simp, ?_⟩
        unfold LogState.handlersOf at hnil ⊢
        rw [List.filter_append, hnil]
        simp
    · have h' : ¬ c = c' := fun e => hc e.symm
      have hfl : LogState.handlersOf ⟨st'.handlers ++ [⟨st.next, .terminal, c⟩],
          Function.update st'.streams c
            (some (Function.update (fun _ => none) .terminal (some st.next))),
          st.openFiles, st.next + 1⟩ c' d = st'.handlersOf c' d := by
        unfold LogState.handlersOf
        simp only [List.filter_append]
        rw [List.filter_cons_of_neg, List.filter_nil, List.append_nil]
        simp only [decide_eq_true_eq, not_and]
        intro h1
        exact absurd h1 h'
      rw [hfl, attr_update, if_neg hc]
      have := J.cnt c' d
      simp only [h', if_false] at this ⊢
      exact this

/-- The state after a history, latest command first. -/
def LogState.after : List LogCmd → LogState
  | [] => LogState.init
  | cmd :: before => (LogState.after before).run cmd

theorem logInv_after (cmds : List LogCmd) (h : ∀ cmd ∈ cmds, cmd.opens) :
    LogInv (LogState.after cmds) (Spec.logAfter cmds) := by
  induction cmds with
  | nil =>
    refine ⟨by simp [LogState.after, LogState.init], ?_, ?_, ?_, ?_⟩
    · intro c d x hx; simp [LogState.after, LogState.init, LogState.attr] at hx
    · intro c d x hx; simp [LogState.after, LogState.init, LogState.attr] at hx
    · intro c; rfl
    · intro c d
      exact .inr ⟨by simp [Spec.logAfter], rfl⟩
  | cons cmd before ih =>
    have I := ih fun c hc => h c (by simp [hc])
    cases cmd with
    | activate c => exact I.activate c
    | deactivate c => exact I.deactivate c
    | set c d on opens =>
      have ho : on = true → opens = true := h (.set c d on opens) (by simp)
      exact I.set c d on opens ho

/-- **C52** After any history of activating and dropping log streams and switching their
destinations, for any number of configurations, the logger has exactly one handler for every
destination of a configuration that is switched on, and none for the others, provided log
files could be opened. -/
theorem C52_one_handler (cmds : List LogCmd) (h : ∀ cmd ∈ cmds, cmd.opens) (c : ℕ) (d : LogDest) :
    ((LogState.after cmds).handlersOf c d).length = if Spec.logsTo cmds c d then 1 else 0 := by
  have I := logInv_after cmds h
  unfold Spec.logsTo
  rcases I.cnt c d with ⟨e, h1, h2, x, h3, h4⟩ | ⟨h1, h2⟩
  · rw [h4, h1]; simp [h2]
  · rw [h2]
    cases he : Spec.logAfter cmds c with
    | none => simp
    | some e => simp [h1 e he]

/-- **C52** With a single configuration: at most one handler per destination in total. -/
theorem C52_single_configuration_partial (cmds : List LogCmd) (h : ∀ cmd ∈ cmds, cmd.opens) (c : ℕ)
    (hc : ∀ c', c' ≠ c → Spec.logAfter cmds c' = none) (d : LogDest) :
    ((LogState.after cmds).handlers.filter fun x => x.dest = d).length =
      if Spec.logsTo cmds c d then 1 else 0 := by
  rw [← C52_one_handler cmds h c d]
  unfold LogState.handlersOf
  congr 1
  apply List.filter_congr
  intro x hx
  have hown : x.owner = c := by
    by_contra hne
    have h0 := C52_one_handler cmds h x.owner x.dest
    rw [Spec.logsTo, hc _ hne] at h0
    simp only [Option.map_none, Option.getD_none, Bool.false_eq_true, if_false,
      List.length_eq_zero_iff] at h0
    have : x ∈ (LogState.after cmds).handlersOf x.owner x.dest :=
      List.mem_filter.2 ⟨hx, by simp⟩
    rw [h0] at this
    simp at this
  simp [hown]

/-- **C52 fails** for two configurations alive at the same time: they share the logger, so
every message appears on the terminal twice. -/
theorem C52_fails_two_configurations :
    ((LogState.after [.activate 1, .activate 0]).handlers.filter
      fun x => x.dest = .terminal).length = 2 := by decide

/-- **C52 fails** when the log file cannot be opened: the option keeps its value (logging to
a file) but there is no handler any more. -/
theorem C52_fails_unopenable :
    ((LogState.after [.set 0 .file true false, .set 0 .file true true, .activate 0]).handlersOf
      0 .file).length = 0 ∧
    Spec.logsTo [.set 0 .file true true, .activate 0] 0 .file = true := by decide

/-- **C52 fails** to release files: switching file logging off removes the handler but
leaves its file open. -/
theorem C52_fails_file_left_open :
    (LogState.after [.set 0 .file false true, .set 0 .file true true, .activate 0]).openFiles
      = [1] ∧
    ((LogState.after [.set 0 .file false true, .set 0 .file true true, .activate 0]).handlersOf
      0 .file) = [] := by decide

/-- Non-vacuity: a history with re-activation and both destinations. -/
example : (∀ cmd ∈ [LogCmd.set 0 .file true true, .activate 0, .set 0 .terminal false true,
      .activate 0], cmd.opens) ∧
    Spec.logsTo [LogCmd.set 0 .file true true, .activate 0, .set 0 .terminal false true,
      .activate 0] 0 .file = true ∧
    Spec.logsTo [LogCmd.set 0 .file true true, .activate 0, .set 0 .terminal false true,
      .activate 0] 0 .terminal = true := by
  refine ⟨?_, by decide, by decide⟩
  intro cmd hcmd
  simp at hcmd
  rcases hcmd with rfl | rfl | rfl | rfl <;> simp [LogCmd.opens]

end Dream
