import Verif.Lemmas.Dict
import Verif.Lemmas.Output
import Verif.Spec.Streams

/-!
# C14: switching streams on and off
-/

namespace Dream

/-- Different streams are different objects, all of which exist. -/
def IOState.Wf (s : IOState) : Prop :=
  (∀ k i, s.data.get? k = some i → i < s.heap.length) ∧
  (∀ k k' i, s.data.get? k = some i → s.data.get? k' = some i → k = k') ∧ s.data.keys.Nodup

theorem Dict.get?_erase {κ α : Type} [DecidableEq κ] (d : Dict κ α) (k k' : κ) :
    (d.erase k).get? k' = if k' = k then none else d.get? k' := by
  unfold Dict.erase Dict.get?
  induction d with
  | nil => simp
  | cons a d ih =>
    rw [List.filter_cons]
    by_cases h : a.1 = k
    · simp only [h, ne_eq, not_true_eq_false, decide_false, Bool.false_eq_true, if_false]
      rw [ih]
      by_cases hk : k' = k
      · simp [hk]
      · have : ¬ k = k' := fun e => hk e.symm
        simp [h, hk, this]
    · simp only [ne_eq, h, not_false_eq_true, decide_true, if_true]
      by_cases hk : k' = k
      · have e : ¬ a.1 = k' := by rw [hk]; exact h
        rw [List.find?_cons]
        simp only [e, decide_false]
        rw [ih]
        simp [hk]
      · rw [List.find?_cons, List.find?_cons]
        by_cases e : a.1 = k'
        · simp [e, hk]
        · simp only [e, decide_false]
          rw [ih]

theorem Dict.nodup_erase {κ α : Type} [DecidableEq κ] {d : Dict κ α} (h : d.keys.Nodup) (k : κ) :
    (d.erase k).keys.Nodup := by
  unfold Dict.erase Dict.keys at *
  exact h.sublist (List.filter_sublist.map _)

theorem IOState.wf_init : IOState.init.Wf := by
  refine ⟨?_, ?_, by simp [init, Dict.keys]⟩
  · intro k i h
    cases k <;> simp [init, Dict.get?] at h ⊢
    omega
  · intro k k' i h h'
    cases k <;> simp [init, Dict.get?] at h
    cases k' <;> simp [init, Dict.get?] at h'
    rfl

theorem IOState.activate_spec (s : IOState) (hw : s.Wf) (k : SKind) :
    let s' : IOState := ⟨s.data.set k s.heap.length, s.heap ++ [[]]⟩
    s'.Wf ∧ ∀ k', s'.options k' = if k = k' then some [] else s.options k' := by
  intro s'
  obtain ⟨h1, h2, h3⟩ := hw
  refine ⟨⟨?_, ?_, Dict.nodup_set h3 _ _⟩, ?_⟩
  · intro k' i h
    simp only [s', Dict.get?_set] at h
    split_ifs at h
    · have := Option.some.inj h; simp [s']; omega
    · have := h1 _ _ h; simp [s']; omega
  · intro a b i ha hb
    simp only [s', Dict.get?_set] at ha hb
    split_ifs at ha hb with e1 e2 e2
    · rw [e1, e2]
    · have := h1 _ _ hb; have := Option.some.inj ha; omega
    · have := h1 _ _ ha; have := Option.some.inj hb; omega
    · exact h2 _ _ _ ha hb
  · intro k'
    unfold options
    simp only [s', Dict.get?_set]
    by_cases e : k = k'
    · subst e; simp
    · have : ¬ k' = k := fun x => e x.symm
      simp only [e, this, if_false]
      rcases hg : s.data.get? k' with _ | i
      · rfl
      · simp [List.getElem?_append_left (h1 _ _ hg)]

theorem IOState.assign_spec (s : IOState) (hw : s.Wf) (k : SKind) (v : SwitchVal) :
    (∀ s', s.assign k v = .ok s' → s'.Wf ∧
      ∀ k', s'.options k' = Spec.streamStep k' (s.options k') (.assign k v)) ∧
    (∀ e, s.assign k v = .error e →
      ∀ k', s.options k' = Spec.streamStep k' (s.options k') (.assign k v)) := by
  have hact := s.activate_spec hw k
  obtain ⟨h1, h2, h3⟩ := hw
  cases v with
  | bool b =>
    cases b with
    | true =>
      refine ⟨?_, by intro e h; simp [assign] at h⟩
      intro s' h
      simp only [assign, Except.ok.injEq] at h
      subst h
      exact hact
    | false =>
      refine ⟨?_, by intro e h; simp [assign] at h⟩
      intro s' h
      simp only [assign, Except.ok.injEq] at h
      by_cases hh : s.data.has k = true
      · rw [if_pos hh] at h
        subst h
        refine ⟨⟨?_, ?_, Dict.nodup_erase h3 _⟩, ?_⟩
        · intro k' i h
          simp only [Dict.get?_erase] at h
          split_ifs at h
          exact h1 _ _ h
        · intro a b i ha hb
          simp only [Dict.get?_erase] at ha hb
          split_ifs at ha hb
          exact h2 _ _ _ ha hb
        · intro k'
          simp only [options, Dict.get?_erase, Spec.streamStep]
          by_cases e : k = k'
          · subst e; simp
          · have : ¬ k' = k := fun x => e x.symm
            simp [e, this]
      · rw [if_neg hh] at h
        subst h
        refine ⟨⟨h1, h2, h3⟩, ?_⟩
        intro k'
        have hn : s.data.get? k = none := Dict.get?_eq_none.2 fun hm => hh (Dict.has_iff.2 hm)
        simp only [Spec.streamStep]
        by_cases e : k = k'
        · subst e; simp [options, hn]
        · simp [e]
  | str n =>
    by_cases hn : n = k.attr
    · refine ⟨?_, by intro e h; simp [assign, hn] at h⟩
      intro s' h
      simp only [assign, hn, if_true, Except.ok.injEq] at h
      subst h
      refine ⟨hact.1, fun k' => ?_⟩
      rw [hact.2 k']
      simp only [Spec.streamStep]
      by_cases e : k = k'
      · subst e; simp [hn]
      · simp [e]
    · refine ⟨by intro s' h; simp [assign, hn] at h, ?_⟩
      intro e _ k'
      simp only [Spec.streamStep]
      by_cases e : k = k'
      · subst e; simp [hn]
      · simp [e]
  | other =>
    refine ⟨by intro s' h; simp [assign] at h, ?_⟩
    intro e _ k'
    rfl

theorem IOState.configure_spec (s : IOState) (hw : s.Wf) (k : SKind) (o : String) (x : ℚ) :
    (s.configure k o x).Wf ∧ ∀ k', (s.configure k o x).options k' =
      Spec.streamStep k' (s.options k') (.configure k o x) := by
  obtain ⟨h1, h2, h3⟩ := hw
  unfold configure read
  rcases hg : s.data.get? k with _ | i
  · refine ⟨⟨?_, h2, h3⟩, ?_⟩
    · intro k' i h
      have := h1 _ _ h
      simp; omega
    · intro k'
      simp only [options, Spec.streamStep]
      by_cases e : k = k'
      · subst e; simp [hg]
      · simp only [e, if_false]
        rcases hg' : s.data.get? k' with _ | i
        · rfl
        · have hi := h1 _ _ hg'
          have hne : s.heap.length ≠ i := by omega
          simp [List.getElem?_modify, hne, List.getElem?_append_left hi]
  · refine ⟨⟨?_, h2, h3⟩, ?_⟩
    · intro k' i h
      simpa using h1 _ _ h
    · intro k'
      simp only [options, Spec.streamStep]
      by_cases e : k = k'
      · subst e
        simp [hg, List.getElem?_modify]
      · simp only [e, if_false]
        rcases hg' : s.data.get? k' with _ | j
        · rfl
        · have hne : i ≠ j := by
            rintro rfl
            exact e (h2 _ _ _ hg hg')
          simp [List.getElem?_modify, hne]

/-- **C14** After any history of assignments (accepted or rejected) and option changes,
for every stream: it is on exactly if the history says so, and its options are exactly
those set since it was last switched on while it was on. In particular options set
through a switched-off stream have no effect, other streams are never affected, and
switching a stream on again resets its options. -/
theorem C14_switchboard (cs : List IOCmd) (k : SKind) :
    (IOState.init.run cs).options k = Spec.streamAfter k cs := by
  suffices H : ∀ (s : IOState), s.Wf → (s.run cs).options k =
      cs.foldl (Spec.streamStep k) (s.options k) by
    rw [H _ IOState.wf_init]
    unfold Spec.streamAfter
    congr 1
    cases k <;> simp [IOState.init, IOState.options, Dict.get?]
  induction cs with
  | nil => intro s _; rfl
  | cons c cs ih =>
    intro s hw
    rw [List.foldl_cons]
    cases c with
    | assign k' v =>
      have := s.assign_spec hw k' v
      simp only [IOState.run]
      rcases he : s.assign k' v with e | s'
      · rw [← this.2 e he k]
        exact ih s hw
      · have := this.1 s' he
        rw [← this.2 k]
        exact ih s' this.1
    | configure k' o x =>
      have := s.configure_spec hw k' o x
      simp only [IOState.run]
      rw [← this.2 k]
      exact ih _ this.1

theorem IOState.run_wf (cs : List IOCmd) (s : IOState) (hw : s.Wf) : (s.run cs).Wf := by
  induction cs generalizing s with
  | nil => exact hw
  | cons c cs ih =>
    cases c with
    | assign k v =>
      simp only [run]
      rcases he : s.assign k v with e | s'
      · exact ih s hw
      · exact ih s' ((s.assign_spec hw k v).1 s' he).1
    | configure k o x => exact ih _ (s.configure_spec hw k o x).1

/-- **C14** The streams that a routine opens (and then saves to and closes) are exactly
those that are on after the history, each opened once; the log stream takes no part. -/
theorem C14_opened (cs : List IOCmd) :
    let r := ioOpen quiet (IOState.init.run cs).data.keys
    r.trace.Nodup ∧ (∀ o ∈ r.trace, ∃ s, o = .open s) ∧
    (∀ s, .open s ∈ r.trace ↔ s ≠ .log ∧ (Spec.streamAfter s cs).isSome) ∧
    ∃ single file, r.result = .ok (single, file) ∧ (single ++ file).Nodup ∧
      ∀ s, s ∈ single ++ file ↔ s ≠ .log ∧ (Spec.streamAfter s cs).isSome := by
  have hw := IOState.run_wf cs _ IOState.wf_init
  have hnd := hw.2.2
  have hmem : ∀ s, s ∈ (IOState.init.run cs).data.keys ↔ (Spec.streamAfter s cs).isSome := by
    intro s
    rw [← C14_switchboard cs s]
    unfold IOState.options
    rcases hg : (IOState.init.run cs).data.get? s with _ | i
    · simp [Dict.get?_eq_none.1 hg]
    · have h1 : s ∈ (IOState.init.run cs).data.keys := by
        by_contra h
        rw [Dict.get?_eq_none.2 h] at hg
        simp at hg
      have := hw.1 _ _ hg
      simp [h1, this]
  rw [ioOpen_ok quiet _ fun _ => rfl]
  set keys := (IOState.init.run cs).data.keys
  have hopen : ∀ s : SKind, s.isOpened = true ↔ s ≠ .log := by
    intro s; cases s <;> simp [SKind.isOpened, SKind.isFile, SKind.isSingle]
  refine ⟨?_, ?_, ?_, _, _, rfl, ?_, ?_⟩
  · exact (hnd.filter _).map fun a b h => by injection h
  · intro o ho; simp only [List.mem_map] at ho; obtain ⟨a, _, rfl⟩ := ho; exact ⟨a, rfl⟩
  · intro s
    simp only [List.mem_map, List.mem_filter, Op.open.injEq, exists_eq_right, hopen, hmem]
    tauto
  · rw [List.nodup_append]
    refine ⟨hnd.filter _, hnd.filter _, ?_⟩
    intro a ha b hb
    rintro rfl
    have h1 := (List.mem_filter.1 ha).2
    have h2 := (List.mem_filter.1 hb).2
    cases a <;> simp_all [SKind.isFile, SKind.isSingle]
  · intro s
    have : s.isSingle = true ∨ s.isFile = true ↔ s ≠ .log := by
      cases s <;> simp [SKind.isFile, SKind.isSingle]
    rw [← this, ← hmem]
    simp only [List.mem_append, List.mem_filter]
    tauto

/-- Non-vacuity: VTK switched on, configured, another stream configured while off, VTK
switched on again by name, sensors on and off, a rejected value. -/
example :
    let cs : List IOCmd := [.assign .vtk (.bool true), .configure .vtk "rate" 5,
      .configure .gfu "rate" 7, .assign .sensor (.bool true), .assign .gfu (.bool true),
      .assign .vtk .other, .configure .gfu "rate" 3, .assign .sensor (.bool false),
      .assign .gfu (.str "vtk")]
    Spec.streamAfter .vtk cs = some [("rate", 5)] ∧ Spec.streamAfter .gfu cs = some [("rate", 3)] ∧
      Spec.streamAfter .sensor cs = none := by
  decide +kernel

end Dream
