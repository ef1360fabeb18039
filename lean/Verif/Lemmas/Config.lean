import Verif.Spec.Config
import Verif.Lemmas.Dict

/-!
# Lemmas on dictionaries and on the loops of `update`
-/

namespace Dream
namespace Dict
variable {κ α : Type} [DecidableEq κ]

theorem has_append (d e : Dict κ α) (k : κ) : Dict.has (d ++ e) k = (d.has k || e.has k) := by
  simp [has, List.any_append]

theorem erase_cons_self {d : Dict κ α} {k : κ} {v : α} (h : k ∉ d.keys) :
    Dict.erase ((k, v) :: d) k = d := by
  simp only [erase, List.filter_cons, ne_eq, not_true_eq_false, decide_false, Bool.false_eq_true,
    if_false]
  rw [List.filter_eq_self]
  intro e he
  simp only [decide_eq_true_eq]
  exact fun hh => h (List.mem_map.2 ⟨e, he, hh⟩)

theorem map_set_of_not_mem {d : Dict κ α} {k : κ} {v : α} (h : k ∉ d.keys) :
    (d.map fun kv => if kv.1 = k then (k, v) else kv) = d := by
  induction d with
  | nil => rfl
  | cons e d ih =>
    simp only [keys, List.map_cons, List.mem_cons, not_or] at h
    simp only [List.map_cons]
    rw [if_neg (fun hh => h.1 hh.symm), ih h.2]

theorem set_of_mem {d : Dict κ α} {k : κ} (h : k ∈ d.keys) (v : α) :
    d.set k v = d.map fun kv => if kv.1 = k then (k, v) else kv := by
  unfold set
  rw [if_pos (has_iff.2 h)]

theorem set_of_not_mem {d : Dict κ α} {k : κ} (h : k ∉ d.keys) (v : α) :
    d.set k v = d ++ [(k, v)] := by
  unfold set
  rw [if_neg (fun hh => h (has_iff.1 hh))]

theorem set_append {d e : Dict κ α} {k : κ} {v : α} (h : k ∉ d.keys) :
    Dict.set (d ++ e) k v = d ++ Dict.set e k v := by
  by_cases he : k ∈ e.keys
  · rw [set_of_mem he, set_of_mem (by simp [keys] at he ⊢; right; exact he), List.map_append,
      map_set_of_not_mem h]
  · rw [set_of_not_mem he, set_of_not_mem, List.append_assoc]
    simp only [keys, List.map_append, List.mem_append, not_or] at h he ⊢
    exact ⟨h, he⟩

theorem set_comm {d : Dict κ α} {k l : κ} (hkl : k ≠ l) (hk : k ∈ d.keys) (hl : l ∈ d.keys)
    (x y : α) : (d.set k x).set l y = (d.set l y).set k x := by
  have h1 : l ∈ (d.set k x).keys := by rw [keys_set, if_pos hk]; exact hl
  have h2 : k ∈ (d.set l y).keys := by rw [keys_set, if_pos hl]; exact hk
  rw [set_of_mem h1, set_of_mem h2, set_of_mem hk, set_of_mem hl, List.map_map, List.map_map]
  refine List.map_congr_left fun e _ => ?_
  simp only [Function.comp]
  by_cases c1 : e.1 = k
  · have c2 : e.1 ≠ l := fun h => hkl (c1 ▸ h)
    simp [c1, hkl]
  · by_cases c2 : e.1 = l
    · simp [c2, hkl.symm]
    · simp [c1, c2]

theorem set_erase_comm {d : Dict κ α} {k l : κ} (hkl : k ≠ l) (hl : l ∈ d.keys) (y : α) :
    (d.erase k).set l y = (d.set l y).erase k := by
  have h1 : l ∈ (d.erase k).keys := by
    obtain ⟨e, he, hel⟩ := List.mem_map.1 hl
    refine List.mem_map.2 ⟨e, List.mem_filter.2 ⟨he, ?_⟩, hel⟩
    simp only [ne_eq, decide_eq_true_eq]
    exact fun h => hkl (h ▸ hel)
  rw [set_of_mem h1, set_of_mem hl]
  unfold erase
  rw [List.filter_map]
  congr 1
  refine List.filter_congr fun e _ => ?_
  simp only [Function.comp]
  by_cases c : e.1 = l
  · simp [c]
  · simp [c]

theorem set_set {d : Dict κ α} {k : κ} (hk : k ∈ d.keys) (x y : α) :
    (d.set k x).set k y = d.set k y := by
  have h1 : k ∈ (d.set k x).keys := by rw [keys_set, if_pos hk]; exact hk
  rw [set_of_mem h1, set_of_mem hk, set_of_mem hk, List.map_map]
  refine List.map_congr_left fun e _ => ?_
  simp only [Function.comp]
  by_cases c : e.1 = k <;> simp [c]

theorem get?_erase_ne (d : Dict κ α) {k l : κ} (h : l ≠ k) : (d.erase k).get? l = d.get? l := by
  unfold erase get?
  induction d with
  | nil => rfl
  | cons e d ih =>
    by_cases c1 : e.1 = k
    · have c2 : e.1 ≠ l := fun hh => h (hh.symm.trans c1)
      simp only [List.filter_cons, c1, ne_eq, not_true_eq_false, decide_false, Bool.false_eq_true,
        if_false, List.find?_cons]
      rw [ih]
      have : decide (k = l) = false := by simpa using fun hh => h hh.symm
      simp [this]
    · simp only [List.filter_cons, ne_eq, c1, not_false_eq_true, decide_true, if_true,
        List.find?_cons]
      by_cases c2 : e.1 = l
      · simp [c2]
      · simp only [c2, decide_false]
        exact ih

theorem mem_keys_erase_ne (d : Dict κ α) {k l : κ} (h : l ≠ k) :
    l ∈ (d.erase k).keys ↔ l ∈ d.keys := by
  rw [← not_iff_not, ← get?_eq_none, ← get?_eq_none, get?_erase_ne d h]

theorem mem_keys_iff {d : Dict κ α} {k : κ} : k ∈ d.keys ↔ ∃ v, d.get? k = some v := by
  rw [← not_iff_not, ← get?_eq_none]
  cases d.get? k <;> simp

theorem has_eq_isSome (d : Dict κ α) (k : κ) : d.has k = (d.get? k).isSome := by
  rw [Bool.eq_iff_iff, has_iff, mem_keys_iff]
  cases d.get? k <;> simp

end Dict

open Spec
variable {V : Type}

/-! ## The loop over the keys, on the entries -/

/-- The groups collected by the loop, as dictionary entries. -/
def groupsKW (G : Dict Key (KW V)) : Dict Path (Arg V) := G.map fun e => ([e.1], .dict e.2)

/-- The loop of `update` as a loop over the entries: `G` collects the entries of each
sub-configuration. -/
def entryStep (W : World V) (upd : Item V → KW V → Except PyErr (Item V)) (c : ℕ)
    (st : Dict Key (Item V) × Dict Key (KW V)) (e : Path × Arg V) :
    Except PyErr (Dict Key (Item V) × Dict Key (KW V)) :=
  match e.1 with
  | [] => .ok st
  | k :: args =>
    if st.1.has k then
      if args = [] then (W.assign upd c st.1 k e.2).map fun d => (d, st.2)
      else .ok (st.1, st.2.set k ((st.2.get? k).getD [] ++ [(args, e.2)]))
    else .ok st

theorem mem_keys_groupsKW {G : Dict Key (KW V)} {p : Path} :
    p ∈ (groupsKW G).keys ↔ ∃ k ∈ G.keys, p = [k] := by
  simp only [groupsKW, Dict.keys, List.map_map, List.mem_map, Function.comp]
  constructor
  · rintro ⟨e, he, rfl⟩; exact ⟨e.1, ⟨e, he, rfl⟩, rfl⟩
  · rintro ⟨_, ⟨e, he, rfl⟩, rfl⟩; exact ⟨e, he, rfl⟩

theorem groupsKW_set (G : Dict Key (KW V)) (k : Key) (d : KW V) :
    groupsKW (G.set k d) = (groupsKW G).set [k] (.dict d) := by
  have hk : [k] ∈ (groupsKW G).keys ↔ k ∈ G.keys := by
    rw [mem_keys_groupsKW]; simp
  by_cases h : k ∈ G.keys
  · rw [Dict.set_of_mem h, Dict.set_of_mem (hk.2 h)]
    unfold groupsKW
    rw [List.map_map, List.map_map]
    refine List.map_congr_left fun e _ => ?_
    simp only [Function.comp, List.cons.injEq, and_true]
    by_cases c : e.1 = k <;> simp [c]
  · rw [Dict.set_of_not_mem h, Dict.set_of_not_mem (fun hh => h (hk.1 hh))]
    simp [groupsKW]

theorem groupsKW_get? (G : Dict Key (KW V)) (k : Key) :
    (groupsKW G).get? [k] = (G.get? k).map .dict := by
  induction G with
  | nil => rfl
  | cons e G ih =>
    simp only [groupsKW, List.map_cons, Dict.get?, List.find?_cons, List.cons.injEq, and_true]
      at ih ⊢
    by_cases c : e.1 = k
    · simp [c]
    · simp only [c, decide_false]
      exact ih

/-- The loop over the keys of a dictionary in order is the loop over its entries. -/
theorem loop_eq (W : World V) (upd : Item V → KW V → Except PyErr (Item V)) (c : ℕ)
    (todo : KW V) (ho : Ordered todo) (data : Dict Key (Item V)) (G : Dict Key (KW V))
    (hG : ∀ e ∈ G, [e.1] ∉ Dict.keys todo ∧ ∀ x ∈ e.2, e.1 :: x.1 ∉ Dict.keys todo)
    (hn : G.keys.Nodup) :
    (todo.map Prod.fst).foldlM (W.updateStep upd c) (data, todo ++ groupsKW G) =
      (todo.foldlM (entryStep W upd c) (data, G)).map fun st => (st.1, groupsKW st.2) := by
  induction todo generalizing data G with
  | nil => rfl
  | cons e todo ih =>
    obtain ⟨p, a⟩ := e
    have ho' := (List.pairwise_cons.1 ho).2
    have hp := (List.pairwise_cons.1 ho).1
    have hp1 : p ∉ Dict.keys todo := by
      intro h
      obtain ⟨x, hx, hxe⟩ := List.mem_map.1 h
      exact hp x hx (by simp [hxe])
    have hpG : p ∉ (groupsKW G).keys := by
      rw [mem_keys_groupsKW]
      rintro ⟨k, hk, rfl⟩
      obtain ⟨x, hx, rfl⟩ := List.mem_map.1 hk
      exact (hG x hx).1 (by simp [Dict.keys])
    have hget : Dict.get? ((p, a) :: todo ++ groupsKW G) p = some a := by
      simp [Dict.get?, List.find?_cons]
    have herase : Dict.erase ((p, a) :: (todo ++ groupsKW G)) p = todo ++ groupsKW G := by
      refine Dict.erase_cons_self ?_
      simp only [Dict.keys, List.map_append, List.mem_append, not_or] at hp1 hpG ⊢
      exact ⟨hp1, hpG⟩
    have hG' : ∀ e ∈ G, [e.1] ∉ Dict.keys todo ∧ ∀ x ∈ e.2, e.1 :: x.1 ∉ Dict.keys todo := by
      intro e he
      obtain ⟨h1, h2⟩ := hG e he
      refine ⟨fun h => h1 ?_, fun x hx h => h2 x hx ?_⟩
      · simp only [Dict.keys, List.map_cons, List.mem_cons] at h ⊢; exact .inr h
      · simp only [Dict.keys, List.map_cons, List.mem_cons] at h ⊢; exact .inr h
    simp only [List.map_cons, List.foldlM_cons]
    have step : W.updateStep upd c (data, (p, a) :: todo ++ groupsKW G) p =
        (entryStep W upd c (data, G) (p, a)).map fun st => (st.1, todo ++ groupsKW st.2) := by
      cases p with
      | nil =>
        simp only [World.updateStep, hget, entryStep, Except.map]
        rw [List.cons_append, herase]
      | cons k args =>
        by_cases hd : data.has k = true
        · by_cases ha : args = []
          · subst ha
            simp only [World.updateStep, hget, entryStep, hd, if_true, and_true]
            cases W.assign upd c data k a with
            | error e => simp [Except.map]
            | ok d => simp only [Except.map]; rw [List.cons_append, herase]
          · have hkt : [k] ∉ Dict.keys ((k :: args, a) :: todo) := by
              intro h
              simp only [Dict.keys, List.map_cons, List.mem_cons, List.mem_map] at h
              rcases h with h | ⟨x, hx, hxe⟩
              · simp only [List.cons.injEq, true_and] at h
                exact ha h.symm
              · exact hp x hx (by rw [hxe]; simp)
            have hkt' : [k] ∉ Dict.keys todo := fun h => hkt (by
              simp only [Dict.keys, List.map_cons, List.mem_cons] at h ⊢; exact .inr h)
            have hhas : Dict.has ((k :: args, a) :: todo ++ groupsKW G) [k] = G.has k := by
              rw [Dict.has_append]
              have h1 : Dict.has ((k :: args, a) :: todo) [k] = false := by
                rw [← Bool.not_eq_true, Dict.has_iff]; exact hkt
              rw [h1, Bool.false_or, Bool.eq_iff_iff, Dict.has_iff, Dict.has_iff,
                mem_keys_groupsKW]
              simp
            have hgetk : Dict.get? ((k :: args, a) :: todo ++ groupsKW G) [k] =
                (groupsKW G).get? [k] := by
              simp only [Dict.get?, List.find?_append]
              have : List.find? (fun kv => decide (kv.1 = [k])) ((k :: args, a) :: todo) = none := by
                rw [List.find?_eq_none]
                intro x hx
                simp only [decide_eq_true_eq]
                exact fun h => hkt (List.mem_map.2 ⟨x, hx, h⟩)
              rw [this, Option.none_or]
            simp only [World.updateStep, hget, entryStep, hd, if_true, and_true, ha,
              if_false, hhas, hgetk, Except.map, false_and]
            rw [List.cons_append, herase, Dict.set_append hkt', Dict.has_eq_isSome, groupsKW_get?]
            cases hg : G.get? k with
            | none => simp [groupsKW_set]
            | some d =>
              have hset : Dict.set d args a = d ++ [(args, a)] := by
                refine Dict.set_of_not_mem (κ := Path) (fun hm => ?_) a
                obtain ⟨x, hx, hxe⟩ := List.mem_map.1 hm
                have := (hG (k, d) (Dict.mem_of_get? hg)).2 x hx
                exact this (by simp [Dict.keys, hxe])
              simp [groupsKW_set, hset]
              rw [Dict.set_append hkt']
        · rw [Bool.not_eq_true] at hd
          simp only [World.updateStep, hget, entryStep, hd, Bool.false_eq_true, and_false, if_false,
            Except.map]
          rw [List.cons_append, herase]
    rw [step]
    cases hr : entryStep W upd c (data, G) (p, a) with
    | error e => rfl
    | ok st =>
      obtain ⟨d', G'⟩ := st
      simp only [Except.map, bind, Except.bind]
      have hinv : (∀ e ∈ G', [e.1] ∉ Dict.keys todo ∧ ∀ x ∈ e.2, e.1 :: x.1 ∉ Dict.keys todo) ∧
          G'.keys.Nodup := by
        cases p with
        | nil => simp only [entryStep] at hr; cases hr; exact ⟨hG', hn⟩
        | cons k args =>
          simp only [entryStep] at hr
          split_ifs at hr with c1 c2
          · cases ha : W.assign upd c data k a with
            | error e => rw [ha] at hr; cases hr
            | ok x => rw [ha] at hr; cases hr; exact ⟨hG', hn⟩
          · cases hr
            refine ⟨fun e he => ?_, Dict.nodup_set hn _ _⟩
            have hkt : [k] ∉ Dict.keys todo := by
              intro h
              obtain ⟨x, hx, hxe⟩ := List.mem_map.1 h
              exact hp x hx (by rw [hxe]; simp)
            have hsnd : (e.1 = k ∧ e.2 = (G.get? k).getD [] ++ [(args, a)]) ∨ e ∈ G := by
              by_cases hm : k ∈ G.keys
              · rw [Dict.set_of_mem hm] at he
                obtain ⟨x, hx, hxe⟩ := List.mem_map.1 he
                split_ifs at hxe
                · left; rw [← hxe]; exact ⟨rfl, rfl⟩
                · right; rw [← hxe]; exact hx
              · rw [Dict.set_of_not_mem hm] at he
                rcases List.mem_append.1 he with h | h
                · exact .inr h
                · left; simp at h; rw [h]; exact ⟨rfl, rfl⟩
            rcases hsnd with ⟨h1, h2⟩ | h
            · rw [h1, h2]
              refine ⟨hkt, fun x hx => ?_⟩
              rcases List.mem_append.1 hx with hx | hx
              · cases hg : G.get? k with
                | none => rw [hg] at hx; simp at hx
                | some d =>
                  rw [hg] at hx
                  exact (hG' (k, d) (Dict.mem_of_get? hg)).2 x hx
              · simp at hx; rw [hx]; exact hp1
            · exact hG' e h
          · cases hr; exact ⟨hG', hn⟩
      exact ih ho' d' G' hinv.1 hinv.2

/-! ## The final loop -/

/-- One pass of the final loop on a group. -/
def groupStep (upd : Item V → KW V → Except PyErr (Item V)) (data : Dict Key (Item V))
    (e : Key × KW V) : Except PyErr (Dict Key (Item V)) :=
  match data.get? e.1 with
  | some it => (upd it e.2).map (data.set e.1)
  | none => .error .keyError

theorem foldlM_groups (upd : Item V → KW V → Except PyErr (Item V)) (G : Dict Key (KW V))
    (data : Dict Key (Item V)) :
    (groupsKW G).foldlM (childUpdate upd) data = G.foldlM (groupStep upd) data := by
  unfold groupsKW
  rw [List.foldlM_map]
  rfl

/-- `update` on a dictionary in which selections come first: set the own options, then update
the sub-configurations group by group. -/
theorem update_eq (W : World V) (n c : ℕ) (data : Dict Key (Item V)) (kw : KW V)
    (ho : Ordered kw) : W.update (n + 1) (.obj c data) kw =
      (kw.foldlM (entryStep W (W.update n) c) (data, [])).bind fun st =>
        (st.2.foldlM (groupStep (W.update n)) st.1).map (.obj c) := by
  have h := loop_eq W (W.update n) c kw ho data [] (by simp) (by simp [Dict.keys])
  simp only [groupsKW, List.map_nil, List.append_nil] at h
  simp only [World.update, bind, h]
  cases kw.foldlM (entryStep W (W.update n) c) (data, []) with
  | error e => rfl
  | ok st =>
    simp only [Except.map, Except.bind, pure]
    rw [← foldlM_groups]
    unfold groupsKW
    cases List.foldlM (childUpdate (W.update n)) st.1 (st.2.map fun e => ([e.1], Arg.dict e.2)) with
    | error e => rfl
    | ok d => rfl

theorem groupStep_keys {upd : Item V → KW V → Except PyErr (Item V)} {d d' : Dict Key (Item V)}
    {e : Key × KW V} (h : groupStep upd d e = .ok d') :
    d'.keys = d.keys ∧ ∀ k ≠ e.1, d'.get? k = d.get? k := by
  unfold groupStep at h
  cases hg : d.get? e.1 with
  | none => rw [hg] at h; cases h
  | some it =>
    rw [hg] at h
    cases hu : upd it e.2 with
    | error x => simp only [hu, Except.map] at h; cases h
    | ok it' =>
      simp only [hu, Except.map] at h
      cases h
      have hk : e.1 ∈ d.keys := Dict.mem_keys_iff.2 ⟨it, hg⟩
      refine ⟨by rw [Dict.keys_set, if_pos hk], fun k hne => by rw [Dict.get?_set, if_neg hne]⟩

theorem groups_keys {upd : Item V → KW V → Except PyErr (Item V)} (G : Dict Key (KW V))
    {d d' : Dict Key (Item V)} (h : G.foldlM (groupStep upd) d = .ok d') :
    d'.keys = d.keys ∧ ∀ k ∉ G.keys, d'.get? k = d.get? k := by
  induction G generalizing d with
  | nil => cases h; exact ⟨rfl, fun _ _ => rfl⟩
  | cons e G ih =>
    rw [List.foldlM_cons] at h
    cases hs : groupStep upd d e with
    | error x => simp only [hs, bind, Except.bind] at h; cases h
    | ok d1 =>
      simp only [hs, bind, Except.bind] at h
      obtain ⟨h1, h2⟩ := ih h
      obtain ⟨h3, h4⟩ := groupStep_keys hs
      refine ⟨h1.trans h3, fun k hk => ?_⟩
      simp only [Dict.keys, List.map_cons, List.mem_cons, not_or] at hk
      rw [h2 k hk.2, h4 k hk.1]

theorem groupStep_write {upd : Item V → KW V → Except PyErr (Item V)} (d : Dict Key (Item V))
    (e : Key × KW V) (k : Key) (hk : k ∈ d.keys) (hne : k ≠ e.1) (x : Option (Item V)) :
    groupStep upd (writeEntry d k x) e = (groupStep upd d e).map (writeEntry · k x) := by
  have hg : (writeEntry d k x).get? e.1 = d.get? e.1 := by
    cases x with
    | none => exact Dict.get?_erase_ne d hne.symm
    | some it => simp only [writeEntry]; rw [Dict.get?_set, if_neg hne.symm]
  unfold groupStep
  rw [hg]
  cases h1 : d.get? e.1 with
  | none => rfl
  | some it =>
    have he : e.1 ∈ d.keys := Dict.mem_keys_iff.2 ⟨it, h1⟩
    simp only
    cases upd it e.2 with
    | error y => rfl
    | ok it' =>
      simp only [Except.map]
      cases x with
      | none => simp only [writeEntry]; rw [Dict.set_erase_comm hne he]
      | some y => simp only [writeEntry]; rw [Dict.set_comm hne hk he]

theorem groups_write {upd : Item V → KW V → Except PyErr (Item V)} (G : Dict Key (KW V))
    (d : Dict Key (Item V)) (k : Key) (hk : k ∈ d.keys) (hG : k ∉ G.keys) (x : Option (Item V)) :
    G.foldlM (groupStep upd) (writeEntry d k x) =
      (G.foldlM (groupStep upd) d).map (writeEntry · k x) := by
  induction G generalizing d with
  | nil => rfl
  | cons e G ih =>
    simp only [Dict.keys, List.map_cons, List.mem_cons, not_or] at hG
    rw [List.foldlM_cons, List.foldlM_cons, groupStep_write d e k hk hG.1]
    cases hs : groupStep upd d e with
    | error y => rfl
    | ok d1 =>
      simp only [Except.map, bind, Except.bind]
      exact ih d1 ((groupStep_keys hs).1 ▸ hk) hG.2

end Dream
