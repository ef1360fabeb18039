import Verif.Lemmas.Config

/-!
# C17: dotted update keys address nested options
-/

namespace Dream
open Spec
variable {V : Type}

theorem bind_ok {α β : Type} {x : Except PyErr α} {f : α → Except PyErr β} {t : β} :
    x.bind f = .ok t ↔ ∃ a, x = .ok a ∧ f a = .ok t := by
  cases x with
  | error e => simp [Except.bind]
  | ok a => simp [Except.bind]

theorem map_ok {α β : Type} {x : Except PyErr α} {f : α → β} {t : β} :
    x.map f = .ok t ↔ ∃ a, x = .ok a ∧ f a = t := by
  cases x with
  | error e => simp [Except.map]
  | ok a => simp [Except.map]

theorem foldlM_snoc {α β : Type} (f : α → β → Except PyErr α) (l : List β) (e : β) (s : α) :
    (l ++ [e]).foldlM f s = (l.foldlM f s).bind fun s => f s e := by
  rw [List.foldlM_append]
  simp only [List.foldlM_cons, List.foldlM_nil, bind_pure]
  rfl

theorem assign_flat (W : World V) (upd upd' : Item V → KW V → Except PyErr (Item V)) (c : ℕ)
    (d : Dict Key (Item V)) (k : Key) {a : Arg V} (ha : Flat a) :
    W.assign upd c d k a = W.assign upd' c d k a := by
  unfold World.assign
  congr 1
  unfold World.assignItem
  cases a with
  | dict kw => exact absurd ha id
  | val v => rfl
  | str s => rfl

/-- What the loop over the entries collects. -/
theorem entries_inv {W : World V} {upd : Item V → KW V → Except PyErr (Item V)} {c : ℕ}
    (kw : KW V) {data d : Dict Key (Item V)} {G : Dict Key (KW V)}
    (h : kw.foldlM (entryStep W upd c) (data, []) = .ok (d, G)) :
    G.keys.Nodup ∧ ∀ e ∈ G, (e.2.map (underKey e.1)).Sublist kw ∧ e.2 ≠ [] ∧
      ∀ x ∈ e.2, x.1 ≠ [] := by
  induction kw using List.reverseRecOn generalizing d G with
  | nil => cases h; simp [Dict.keys]
  | append_singleton kw e ih =>
    rw [foldlM_snoc, bind_ok] at h
    obtain ⟨⟨d1, G1⟩, h1, h2⟩ := h
    obtain ⟨i1, i2⟩ := ih h1
    have mono : ∀ e' ∈ G1, (e'.2.map (underKey e'.1)).Sublist (kw ++ [e]) ∧ e'.2 ≠ [] ∧
        ∀ x ∈ e'.2, x.1 ≠ [] := fun e' he' =>
      ⟨(i2 e' he').1.trans (List.sublist_append_left kw [e]), (i2 e' he').2⟩
    obtain ⟨p, a⟩ := e
    cases p with
    | nil => simp only [entryStep] at h2; cases h2; exact ⟨i1, mono⟩
    | cons k args =>
      simp only [entryStep] at h2
      split_ifs at h2 with c1 c2
      · obtain ⟨x, _, hx⟩ := map_ok.1 h2
        cases hx
        exact ⟨i1, mono⟩
      · cases h2
        refine ⟨Dict.nodup_set i1 _ _, fun e' he' => ?_⟩
        have hcase : (e'.1 = k ∧ e'.2 = (G1.get? k).getD [] ++ [(args, a)]) ∨ e' ∈ G1 := by
          by_cases hm : k ∈ G1.keys
          · rw [Dict.set_of_mem hm] at he'
            obtain ⟨x, hx, hxe⟩ := List.mem_map.1 he'
            split_ifs at hxe
            · left; rw [← hxe]; exact ⟨rfl, rfl⟩
            · right; rw [← hxe]; exact hx
          · rw [Dict.set_of_not_mem hm] at he'
            rcases List.mem_append.1 he' with h | h
            · exact .inr h
            · left; simp at h; rw [h]; exact ⟨rfl, rfl⟩
        rcases hcase with ⟨q1, q2⟩ | hm
        · rw [q1, q2]
          refine ⟨?_, by simp, ?_⟩
          · rw [List.map_append]
            refine List.Sublist.append ?_ (by simp [underKey])
            cases hg : G1.get? k with
            | none => simp
            | some g => exact (i2 (k, g) (Dict.mem_of_get? hg)).1
          · intro x hx
            rcases List.mem_append.1 hx with hx | hx
            · cases hg : G1.get? k with
              | none => rw [hg] at hx; simp at hx
              | some g => rw [hg] at hx; exact (i2 (k, g) (Dict.mem_of_get? hg)).2.2 x hx
            · simp at hx; rw [hx]; exact c2
        · exact mono e' hm
      · cases h2; exact ⟨i1, mono⟩

theorem ordered_of_under {k : Key} {g kw : KW V} (h : (g.map (underKey k)).Sublist kw)
    (ho : Ordered kw) : Ordered g := by
  have := List.Pairwise.sublist h ho
  rw [List.pairwise_map] at this
  refine this.imp fun {a b} hab hh => hab ?_
  simpa [underKey] using hh

theorem plain_of_under {n : ℕ} {k : Key} {g kw : KW V} (h : (g.map (underKey k)).Sublist kw)
    (hp : Plain (n + 1) kw) (hne : ∀ x ∈ g, x.1 ≠ []) : Plain n g := by
  intro e he
  obtain ⟨h1, _, h3⟩ := hp (underKey k e) (h.subset (List.mem_map_of_mem he))
  refine ⟨h1, hne e he, ?_⟩
  simpa [underKey] using h3

theorem update_nil (W : World V) (n : ℕ) (c : ℕ) (d : Dict Key (Item V)) :
    W.update (n + 1) (.obj c d) [] = .ok (.obj c d) := rfl

/-- `assignAt` below an option, in terms of the entry. -/
theorem assignAt_under (W : World V) (k : Key) (args : Path) (ha : args ≠ []) (a : Arg V) (c : ℕ)
    (d : Dict Key (Item V)) (it : Item V) (hg : d.get? k = some it) :
    assignAt W (k :: args) a (.obj c d) =
      (assignAt W args a it).map fun it' => .obj c (Dict.set d k it') := by
  cases args with
  | nil => exact absurd rfl ha
  | cons l rest => simp only [assignAt, hg]

/-- One more entry at the end of the dictionary is one more assignment afterwards. -/
theorem update_snoc (W : World V) (n : ℕ) (kw : KW V) (e : Path × Arg V)
    (ho : Ordered (kw ++ [e])) (hp : Plain n (kw ++ [e])) (it t : Item V) :
    W.update n it (kw ++ [e]) = .ok t ↔
      ∃ s, W.update n it kw = .ok s ∧ assignAt W e.1 e.2 s = .ok t := by
  induction n generalizing kw e it t with
  | zero =>
    obtain ⟨_, h1, h2⟩ := hp e (by simp)
    exact absurd (List.length_eq_zero_iff.1 (Nat.le_zero.1 h2)) h1
  | succ n ih =>
    cases it with
    | leaf v => simp [World.update]
    | obj c data =>
      have ho' : Ordered kw := List.Pairwise.sublist (List.sublist_append_left kw [e]) ho
      have hlast : ∀ x ∈ kw, ¬ e.1 <+: x.1 := fun x hx =>
        (List.pairwise_append.1 ho).2.2 x hx e (by simp)
      rw [update_eq W n c data _ ho, update_eq W n c data _ ho', foldlM_snoc]
      cases hF : kw.foldlM (entryStep W (W.update n) c) (data, []) with
      | error x => simp [Except.bind]
      | ok st =>
        obtain ⟨d1, G⟩ := st
        obtain ⟨i1, i2⟩ := entries_inv kw hF
        simp only [Except.bind]
        obtain ⟨hflat, hpne, hplen⟩ := hp e (by simp)
        obtain ⟨p, a⟩ := e
        simp only at hflat hpne hplen hlast ⊢
        cases p with
        | nil => exact absurd rfl hpne
        | cons k args =>
          by_cases hk : d1.has k = true
          · have hk' := Dict.has_iff.1 hk
            by_cases ha : args = []
            · -- an own option
              subst ha
              have hkG : k ∉ G.keys := by
                intro hh
                obtain ⟨x, hx, rfl⟩ := List.mem_map.1 hh
                obtain ⟨s1, s2, s3⟩ := i2 x hx
                obtain ⟨y, hy⟩ := List.exists_mem_of_ne_nil _ s2
                refine hlast _ (s1.subset (List.mem_map_of_mem hy)) ?_
                simp [underKey]
              have hstep : entryStep W (W.update n) c (d1, G) ([k], a) =
                  (W.assign (W.update n) c d1 k a).map fun d => (d, G) := by
                simp [entryStep, hk]
              rw [hstep, assign_flat W (W.update n) (fun _ _ => .error .typeError) c d1 k hflat]
              have hright : ∀ d3, G.foldlM (groupStep (W.update n)) d1 = .ok d3 →
                  assignAt W [k] a (.obj c d3) =
                    (W.assignItem (fun _ _ => .error .typeError) c k (d1.get? k) a).map
                      fun x => .obj c (writeEntry d3 k x) := by
                intro d3 h3
                obtain ⟨q1, q2⟩ := groups_keys G h3
                have : Dict.has d3 k = true := by rw [Dict.has_iff, q1]; exact hk'
                simp only [assignAt, this, if_true, World.assign, q2 k hkG]
                cases W.assignItem (fun _ _ => .error .typeError) c k (d1.get? k) a <;> rfl
              cases hA : W.assignItem (fun _ _ => .error .typeError) c k (d1.get? k) a with
              | error x =>
                simp only [World.assign, hA, Except.map]
                constructor
                · intro h; cases h
                · rintro ⟨s, hs, h⟩
                  obtain ⟨d3, h3, rfl⟩ := map_ok.1 hs
                  rw [hright d3 h3, hA] at h
                  cases h
              | ok x =>
                simp only [World.assign, hA, Except.map]
                have := groups_write (upd := W.update n) G d1 k hk' hkG x
                rw [this]
                cases h3 : G.foldlM (groupStep (W.update n)) d1 with
                | error y => simp [Except.map]
                | ok d3 =>
                  simp only [Except.map, Except.ok.injEq, exists_eq_left']
                  rw [hright d3 h3, hA]
                  simp [Except.map]
            · -- an option of a sub-configuration
              have hstep : entryStep W (W.update n) c (d1, G) (k :: args, a) =
                  .ok (d1, G.set k ((G.get? k).getD [] ++ [(args, a)])) := by
                simp [entryStep, hk, ha]
              rw [hstep]
              simp only
              -- the group of `k` and the entry
              have hsub : ∀ g, G.get? k = some g →
                  ((g ++ [(args, a)]).map (underKey k)).Sublist (kw ++ [(k :: args, a)]) := by
                intro g hg
                rw [List.map_append]
                exact List.Sublist.append (i2 (k, g) (Dict.mem_of_get? hg)).1 (by simp [underKey])
              have hsub0 : (([(args, a)] : KW V).map (underKey k)).Sublist
                  (kw ++ [(k :: args, a)]) := by
                simp [underKey]
              cases hg : G.get? k with
              | none =>
                have hkG : k ∉ G.keys := Dict.get?_eq_none.1 hg
                rw [Dict.set_of_not_mem hkG, foldlM_snoc]
                simp only [Option.getD_none, List.nil_append]
                cases h3 : G.foldlM (groupStep (W.update n)) d1 with
                | error y => simp [Except.bind, Except.map]
                | ok d3 =>
                  obtain ⟨q1, q2⟩ := groups_keys G h3
                  simp only [Except.bind, Except.map, Except.ok.injEq, exists_eq_left']
                  obtain ⟨it, hit⟩ := Dict.mem_keys_iff.1 (q1 ▸ hk' : k ∈ d3.keys)
                  rw [assignAt_under W k args ha a c d3 it hit]
                  have hIH := fun t => ih [] (args, a) (by simp [Ordered])
                    (plain_of_under (by simpa using hsub0) hp (by simp [ha])) it t
                  simp only [List.nil_append] at hIH
                  have hlen : 1 ≤ n := by
                    cases args with
                    | nil => exact absurd rfl ha
                    | cons l rest => simp at hplen; omega
                  obtain ⟨m, rfl⟩ : ∃ m, n = m + 1 := ⟨n - 1, by omega⟩
                  have hupd : ∀ t, W.update (m + 1) it [(args, a)] = .ok t ↔
                      assignAt W args a it = .ok t := by
                    intro t
                    rw [hIH]
                    cases it with
                    | leaf v =>
                      cases args with
                      | nil => exact absurd rfl ha
                      | cons l rest => simp [World.update, assignAt]
                    | obj c' d' => simp [update_nil]
                  simp only [groupStep, hit]
                  cases hA : assignAt W args a it with
                  | error y =>
                    cases hU : W.update (m + 1) it [(args, a)] with
                    | error z => simp [Except.map]
                    | ok it' => rw [(hupd it').1 hU] at hA; cases hA
                  | ok it' =>
                    rw [(hupd it').2 hA]
                    simp [Except.map]
              | some g =>
                have hmem := Dict.mem_of_get? hg
                obtain ⟨G1, G2, rfl⟩ := List.append_of_mem hmem
                have hnd : k ∉ Dict.keys G1 ∧ k ∉ Dict.keys G2 := by
                  simp only [Dict.keys, List.map_append, List.map_cons, List.nodup_append,
                    List.nodup_cons] at i1
                  exact ⟨fun h => i1.2.2 k h k (by simp) rfl, i1.2.1.1⟩
                have hset : Dict.set (G1 ++ (k, g) :: G2) k (g ++ [(args, a)]) =
                    G1 ++ (k, g ++ [(args, a)]) :: G2 := by
                  rw [Dict.set_append hnd.1]
                  congr 1
                  rw [Dict.set_of_mem (by simp [Dict.keys])]
                  simp only [List.map_cons, if_true]
                  rw [Dict.map_set_of_not_mem hnd.2]
                rw [Option.getD_some, hset, List.foldlM_append, List.foldlM_append]
                simp only [List.foldlM_cons, bind]
                cases h1 : G1.foldlM (groupStep (W.update n)) d1 with
                | error y => simp [Except.bind, Except.map]
                | ok d2 =>
                  simp only [Except.bind]
                  obtain ⟨q1, q2⟩ := groups_keys G1 h1
                  obtain ⟨it, hit⟩ := Dict.mem_keys_iff.1 (q1 ▸ hk' : k ∈ d2.keys)
                  have hk2 : k ∈ d2.keys := q1 ▸ hk'
                  have hs := hsub g hg
                  have hIH := fun t => ih g (args, a) (ordered_of_under hs ho)
                    (plain_of_under hs hp (by
                      intro x hx
                      rcases List.mem_append.1 hx with hx | hx
                      · exact (i2 (k, g) hmem).2.2 x hx
                      · simp at hx; rw [hx]; exact ha)) it t
                  simp only at hIH
                  simp only [groupStep, hit]
                  cases hU : W.update n it g with
                  | error y =>
                    cases hU' : W.update n it (g ++ [(args, a)]) with
                    | error z => simp [Except.map]
                    | ok it' =>
                      obtain ⟨s, hs, _⟩ := (hIH it').1 hU'
                      rw [hU] at hs; cases hs
                  | ok it1 =>
                    simp only [Except.map]
                    have hk3 : k ∈ (d2.set k it1).keys := by
                      rw [Dict.keys_set, if_pos hk2]; exact hk2
                    cases h2 : G2.foldlM (groupStep (W.update n)) (d2.set k it1) with
                    | error y =>
                      constructor
                      · intro h
                        cases hU' : W.update n it (g ++ [(args, a)]) with
                        | error z => rw [hU'] at h; cases h
                        | ok it' =>
                          rw [hU'] at h
                          simp only at h
                          have hw := groups_write (upd := W.update n) G2 (d2.set k it1) k hk3
                            hnd.2 (some it')
                          simp only [writeEntry] at hw
                          rw [Dict.set_set hk2, h2] at hw
                          rw [hw] at h
                          cases h
                      · rintro ⟨s, hs, _⟩
                        cases hs
                    | ok d3 =>
                      obtain ⟨r1, r2⟩ := groups_keys G2 h2
                      have hget3 : d3.get? k = some it1 := by
                        rw [r2 k hnd.2, Dict.get?_set, if_pos rfl]
                      simp only [Except.ok.injEq, exists_eq_left']
                      rw [assignAt_under W k args ha a c d3 it1 hget3]
                      cases hA : assignAt W args a it1 with
                      | error y =>
                        cases hU' : W.update n it (g ++ [(args, a)]) with
                        | error z => simp [Except.map]
                        | ok it' =>
                          obtain ⟨s, hs, hs'⟩ := (hIH it').1 hU'
                          rw [hU] at hs
                          cases hs
                          rw [hs'] at hA
                          cases hA
                      | ok it2 =>
                        have hU' := (hIH it2).2 ⟨it1, hU, hA⟩
                        rw [hU']
                        have hw := groups_write (upd := W.update n) G2 (d2.set k it1) k hk3
                          hnd.2 (some it2)
                        simp only [writeEntry] at hw
                        rw [Dict.set_set hk2, h2] at hw
                        simp only [hw, Except.map]
          · -- an unknown option
            rw [Bool.not_eq_true] at hk
            have hstep : entryStep W (W.update n) c (d1, G) (k :: args, a) = .ok (d1, G) := by
              simp [entryStep, hk]
            rw [hstep]
            simp only
            cases h3 : G.foldlM (groupStep (W.update n)) d1 with
            | error y => simp [Except.map]
            | ok d3 =>
              obtain ⟨q1, _⟩ := groups_keys G h3
              have hk3 : Dict.has d3 k = false := by
                rw [← Bool.not_eq_true, Dict.has_iff, q1, ← Dict.has_iff, hk]; simp
              have hg3 : Dict.get? d3 k = none := by
                rw [Dict.get?_eq_none, ← Dict.has_iff, hk3]; simp
              simp only [Except.map, Except.ok.injEq, exists_eq_left']
              cases args with
              | nil => simp [assignAt, hk3]
              | cons l rest => simp [assignAt, hg3]

/-- **C17** `update` with dotted keys has the same effect as the single assignments
`cfg.a.b.c = value` one after the other, for every dictionary in which selections precede the options
of what is selected. -/
theorem C17_sequential (W : World V) (n : ℕ) (kw : KW V) (ho : Ordered kw) (hp : Plain (n + 1) kw)
    (c : ℕ) (data : Dict Key (Item V)) (t : Item V) :
    W.update (n + 1) (.obj c data) kw = .ok t ↔ assignSeq W kw (.obj c data) = .ok t := by
  induction kw using List.reverseRecOn generalizing t with
  | nil => simp [update_nil, assignSeq, pure, Except.pure]
  | append_singleton kw e ih =>
    rw [update_snoc W (n + 1) kw e ho hp, assignSeq, foldlM_snoc, bind_ok]
    have := fun s => ih (List.Pairwise.sublist (List.sublist_append_left kw [e]) ho)
      (fun x hx => hp x (by simp [hx])) s
    simp only [this]
    rfl

theorem apart_cons {k : Key} {p q : Path} (h : Apart (k :: p) (k :: q)) : Apart p q :=
  ⟨fun h' => h.1 (by simpa using h'), fun h' => h.2 (by simpa using h')⟩

theorem apart_ne_nil {p q : Path} (h : Apart p q) : p ≠ [] ∧ q ≠ [] :=
  ⟨fun e => h.1 (e ▸ List.nil_prefix), fun e => h.2 (e ▸ List.nil_prefix)⟩

/-- The effect of an assignment on the entry of its first name. -/
def act (W : World V) (c : ℕ) (k : Key) (p : Path) (a : Arg V) :
    Option (Item V) → Except PyErr (Option (Item V))
  | none => .ok none
  | some it =>
    match p with
    | [] => W.assignItem (fun _ _ => .error .typeError) c k (some it) a
    | l :: rest => (assignAt W (l :: rest) a it).map some

theorem erase_of_none {d : Dict Key (Item V)} {k : Key} (h : d.get? k = none) : d.erase k = d := by
  unfold Dict.erase
  rw [List.filter_eq_self]
  intro e he
  have := Dict.get?_eq_none.1 h
  simp only [ne_eq, decide_eq_true_eq]
  intro hek
  exact this (hek ▸ List.mem_map_of_mem he)

theorem assignAt_act (W : World V) (k : Key) (p : Path) (a : Arg V) (c : ℕ)
    (d : Dict Key (Item V)) :
    assignAt W (k :: p) a (.obj c d) =
      (act W c k p a (d.get? k)).map fun x => .obj c (writeEntry d k x) := by
  cases hg : Dict.get? d k with
  | none =>
    have hh : Dict.has d k = false := by rw [Dict.has_eq_isSome, hg]; rfl
    cases p with
    | nil => simp [assignAt, hh, act, Except.map, writeEntry, erase_of_none hg]
    | cons l rest => simp [assignAt, hg, act, Except.map, writeEntry, erase_of_none hg]
  | some it =>
    have hh : Dict.has d k = true := by rw [Dict.has_eq_isSome, hg]; rfl
    cases p with
    | nil =>
      simp only [assignAt, hh, if_true, World.assign, hg, act]
      cases W.assignItem (fun _ _ => .error .typeError) c k (some it) a <;> rfl
    | cons l rest =>
      simp only [assignAt, hg, act]
      cases assignAt W (l :: rest) a it <;> rfl

theorem get?_write_ne (d : Dict Key (Item V)) {k l : Key} (h : l ≠ k) (x : Option (Item V)) :
    (writeEntry d k x).get? l = d.get? l := by
  cases x with
  | none => exact Dict.get?_erase_ne d h
  | some it => rw [writeEntry, Dict.get?_set, if_neg h]

theorem get?_write_self (d : Dict Key (Item V)) (k : Key) (it : Item V) :
    (writeEntry d k (some it)).get? k = some it := by
  rw [writeEntry, Dict.get?_set, if_pos rfl]

theorem act_some (W : World V) (c : ℕ) (k : Key) (p : Path) (a : Arg V) {o x : Option (Item V)}
    (h : act W c k p a o = .ok x) (hx : x ≠ none) : o ≠ none := by
  rintro rfl
  cases h
  exact hx rfl

theorem write_comm (d : Dict Key (Item V)) {k l : Key} (h : k ≠ l) (x y : Option (Item V))
    (hx : x ≠ none → d.get? k ≠ none) (hy : y ≠ none → d.get? l ≠ none) :
    writeEntry (writeEntry d k x) l y = writeEntry (writeEntry d l y) k x := by
  have mem : ∀ {k : Key}, d.get? k ≠ none → k ∈ d.keys := fun {k} hk => by
    by_contra hn
    exact hk (Dict.get?_eq_none.2 hn)
  cases x with
  | none =>
    cases y with
    | none =>
      simp only [writeEntry, Dict.erase, List.filter_filter]
      congr 1
      funext e
      exact Bool.and_comm _ _
    | some y =>
      simp only [writeEntry]
      exact Dict.set_erase_comm h (mem (hy (by simp))) y
  | some x =>
    cases y with
    | none =>
      simp only [writeEntry]
      exact (Dict.set_erase_comm (Ne.symm h) (mem (hx (by simp))) x).symm
    | some y =>
      simp only [writeEntry]
      exact Dict.set_comm h (mem (hx (by simp))) (mem (hy (by simp))) x y

theorem assignAt_comm (W : World V) (p q : Path) (a b : Arg V) (h : Apart p q) (it t : Item V) :
    (assignAt W p a it).bind (assignAt W q b) = .ok t →
      (assignAt W q b it).bind (assignAt W p a) = .ok t := by
  induction p generalizing q it t with
  | nil => exact absurd rfl (apart_ne_nil h).1
  | cons k p ih =>
    cases q with
    | nil => exact absurd rfl (apart_ne_nil h).2
    | cons l q =>
      cases it with
      | leaf v => intro hh; cases p <;> simp [assignAt, Except.bind] at hh
      | obj c d =>
        rw [bind_ok, bind_ok]
        rintro ⟨m, h1, h2⟩
        rw [assignAt_act, map_ok] at h1
        obtain ⟨x, hx, rfl⟩ := h1
        rw [assignAt_act, map_ok] at h2
        obtain ⟨y, hy, rfl⟩ := h2
        by_cases hkl : k = l
        · subst hkl
          have h' := apart_cons h
          obtain ⟨np, nq⟩ := apart_ne_nil h'
          cases p with
          | nil => exact absurd rfl np
          | cons p0 p =>
            cases q with
            | nil => exact absurd rfl nq
            | cons q0 q =>
              cases hg : Dict.get? d k with
              | none =>
                rw [hg] at hx
                cases hx
                simp only [writeEntry, erase_of_none hg] at hy ⊢
                rw [hg] at hy
                cases hy
                refine ⟨.obj c d, ?_, ?_⟩
                · rw [assignAt_act, hg]; simp [act, Except.map, writeEntry, erase_of_none hg]
                · rw [assignAt_act, hg]; simp [act, Except.map, writeEntry, erase_of_none hg]
              | some it0 =>
                rw [hg] at hx
                obtain ⟨it1, hi1, rfl⟩ := map_ok.1 hx
                rw [get?_write_self] at hy
                obtain ⟨it2, hi2, rfl⟩ := map_ok.1 hy
                obtain ⟨it1', hj1, hj2⟩ := bind_ok.1
                  (ih (q0 :: q) h' it0 it2 (bind_ok.2 ⟨it1, hi1, hi2⟩))
                have hk : k ∈ Dict.keys d := Dict.mem_keys_iff.2 ⟨_, hg⟩
                refine ⟨.obj c (writeEntry d k (some it1')), ?_, ?_⟩
                · rw [assignAt_act, hg]; simp [act, hj1, Except.map]
                · rw [assignAt_act, get?_write_self]
                  simp only [act, hj2, Except.map, writeEntry, Dict.set_set hk]
        · rw [get?_write_ne d (Ne.symm hkl)] at hy
          refine ⟨.obj c (writeEntry d l y), ?_, ?_⟩
          · rw [assignAt_act, hy]; rfl
          · rw [assignAt_act, get?_write_ne d hkl, hx]
            simp only [Except.map]
            rw [write_comm d hkl x y (act_some W c k p a hx) (act_some W c l q b hy)]

theorem assignSeq_perm (W : World V) {kw kw' : KW V} (hp : kw.Perm kw') :
    Independent kw → ∀ it t, assignSeq W kw it = .ok t → assignSeq W kw' it = .ok t := by
  induction hp with
  | nil => exact fun _ _ _ h => h
  | cons e _ ih =>
    intro hi it t h
    unfold assignSeq at h ⊢
    rw [List.foldlM_cons] at h ⊢
    obtain ⟨s, h1, h2⟩ := bind_ok.1 h
    exact bind_ok.2 ⟨s, h1, ih (List.pairwise_cons.1 hi).2 s t h2⟩
  | swap e e' l =>
    intro hi it t h
    unfold assignSeq at h ⊢
    rw [List.foldlM_cons] at h ⊢
    obtain ⟨s, h1, h2⟩ := bind_ok.1 h
    rw [List.foldlM_cons] at h2
    obtain ⟨s', h3, h4⟩ := bind_ok.1 h2
    have hap := (List.pairwise_cons.1 hi).1 e (by simp)
    obtain ⟨s1, j1, j2⟩ := bind_ok.1 (assignAt_comm W e'.1 e.1 e'.2 e.2 ⟨hap.2, hap.1⟩ it s'
      (bind_ok.2 ⟨s, h1, h3⟩))
    refine bind_ok.2 ⟨s1, j1, ?_⟩
    rw [List.foldlM_cons]
    exact bind_ok.2 ⟨s', j2, h4⟩
  | trans h1 _ ih1 ih2 =>
    intro hi it t h
    have hi' : Independent _ := List.Perm.pairwise h1 hi (fun {_ _} h => ⟨h.2, h.1⟩)
    exact ih2 hi' it t (ih1 hi it t h)

theorem ordered_of_independent {kw : KW V} (h : Independent kw) : Ordered kw := h.imp fun h => h.1

/-- **C17** The order of the keys does not matter when they address different options, none
inside another one. -/
theorem C17_order (W : World V) (n : ℕ) (kw kw' : KW V) (hi : Independent kw)
    (hperm : kw.Perm kw') (hp : Plain (n + 1) kw) (c : ℕ) (data : Dict Key (Item V)) (t : Item V) :
    W.update (n + 1) (.obj c data) kw = .ok t ↔ W.update (n + 1) (.obj c data) kw' = .ok t := by
  have hi' : Independent kw' := List.Perm.pairwise hperm hi (fun {_ _} h => ⟨h.2, h.1⟩)
  have hp' : Plain (n + 1) kw' := fun e he => hp e (hperm.mem_iff.2 he)
  rw [C17_sequential W n kw (ordered_of_independent hi) hp,
    C17_sequential W n kw' (ordered_of_independent hi') hp']
  exact ⟨assignSeq_perm W hperm hi _ _, assignSeq_perm W hperm.symm hi' _ _⟩

theorem readAt_cons (c : ℕ) (d : Dict Key (Item V)) (k : Key) (p : Path) :
    readAt (.obj c d) (k :: p) = (d.get? k).bind fun it => readAt it p := by
  simp only [readAt]
  cases d.get? k <;> rfl

theorem assignAt_frame (W : World V) (p q : Path) (a : Arg V) (h : Apart p q) (it t : Item V)
    (ha : assignAt W p a it = .ok t) :
    readAt t q = readAt it q ∧ leafAt W t q = leafAt W it q := by
  induction p generalizing q it t with
  | nil => exact absurd rfl (apart_ne_nil h).1
  | cons k p ih =>
    cases q with
    | nil => exact absurd rfl (apart_ne_nil h).2
    | cons l q =>
      cases it with
      | leaf v => cases p <;> simp [assignAt] at ha
      | obj c d =>
        rw [assignAt_act, map_ok] at ha
        obtain ⟨x, hx, rfl⟩ := ha
        by_cases hkl : k = l
        · subst hkl
          have h' := apart_cons h
          obtain ⟨np, nq⟩ := apart_ne_nil h'
          cases p with
          | nil => exact absurd rfl np
          | cons p0 p =>
            cases q with
            | nil => exact absurd rfl nq
            | cons q0 q =>
              cases hg : Dict.get? d k with
              | none =>
                rw [hg] at hx
                cases hx
                simp only [writeEntry, erase_of_none hg, and_self]
              | some it0 =>
                rw [hg] at hx
                obtain ⟨it1, hi1, rfl⟩ := map_ok.1 hx
                obtain ⟨r1, r2⟩ := ih (q0 :: q) h' it0 it1 hi1
                refine ⟨?_, ?_⟩
                · rw [readAt_cons, readAt_cons, get?_write_self, hg]
                  exact r1
                · simp only [leafAt, get?_write_self, hg]
                  exact r2
        · refine ⟨?_, ?_⟩
          · rw [readAt_cons, readAt_cons, get?_write_ne d (Ne.symm hkl)]
          · cases q with
            | nil => simp only [leafAt, get?_write_ne d (Ne.symm hkl)]
            | cons q0 q => simp only [leafAt, get?_write_ne d (Ne.symm hkl)]

theorem assignAt_leaf (W : World V) (p : Path) (a : Arg V) (it t : Item V) (o : LeafOpt V)
    (hl : leafAt W it p = some o) (ha : assignAt W p a it = .ok t) :
    ∃ v, o.fset a = .ok v ∧ readAt t p = some (.leaf v) := by
  induction p generalizing it t with
  | nil => cases it <;> simp [leafAt] at hl
  | cons k p ih =>
    cases it with
    | leaf v => cases p <;> simp [assignAt] at ha
    | obj c d =>
      rw [assignAt_act, map_ok] at ha
      obtain ⟨x, hx, rfl⟩ := ha
      cases hg : Dict.get? d k with
      | none => cases p <;> simp [leafAt, hg] at hl
      | some it0 =>
        rw [hg] at hx
        cases p with
        | nil =>
          simp only [leafAt, hg] at hl
          cases ho : W.opt c k with
          | none => rw [ho] at hl; cases hl
          | some o' =>
            rw [ho] at hl
            cases o' with
            | leaf o' =>
              simp only [Option.some.injEq] at hl
              subst hl
              simp only [act, World.assignItem, ho] at hx
              cases hf : o'.fset a with
              | error e => rw [hf] at hx; cases hx
              | ok v =>
                rw [hf] at hx
                cases hx
                exact ⟨v, rfl, by rw [readAt_cons, get?_write_self]; rfl⟩
            | unique c' => cases hl
            | iface l => cases hl
            | stream c' => cases hl
        | cons l rest =>
          simp only [leafAt, hg] at hl
          obtain ⟨it1, hi1, rfl⟩ := map_ok.1 hx
          obtain ⟨v, h1, h2⟩ := ih it0 it1 hl hi1
          exact ⟨v, h1, by rw [readAt_cons, get?_write_self]; exact h2⟩

theorem assignSeq_frame (W : World V) (kw : KW V) (q : Path) (h : ∀ e ∈ kw, Apart e.1 q)
    (it t : Item V) (ha : assignSeq W kw it = .ok t) :
    readAt t q = readAt it q ∧ leafAt W t q = leafAt W it q := by
  induction kw generalizing it with
  | nil => cases ha; exact ⟨rfl, rfl⟩
  | cons e kw ih =>
    unfold assignSeq at ha
    rw [List.foldlM_cons] at ha
    obtain ⟨s, h1, h2⟩ := bind_ok.1 ha
    obtain ⟨r1, r2⟩ := ih (fun e he => h e (by simp [he])) s h2
    obtain ⟨r3, r4⟩ := assignAt_frame W e.1 q e.2 (h e (by simp)) it s h1
    exact ⟨r1.trans r3, r2.trans r4⟩

/-- **C17** Options other than the addressed ones keep their values: keys of different
sub-configurations do not interfere. -/
theorem C17_frame (W : World V) (n : ℕ) (kw : KW V) (ho : Ordered kw) (hp : Plain (n + 1) kw)
    (c : ℕ) (data : Dict Key (Item V)) (t : Item V)
    (h : W.update (n + 1) (.obj c data) kw = .ok t) (q : Path) (hq : ∀ e ∈ kw, Apart e.1 q) :
    readAt t q = readAt (.obj c data) q :=
  (assignSeq_frame W kw q hq _ t ((C17_sequential W n kw ho hp c data t).1 h)).1

/-- **C17** After a successful `update` each addressed plain option has the value its setter
makes of the argument, whatever the other keys are, provided they address other options. -/
theorem C17_effect (W : World V) (n : ℕ) (kw : KW V) (hi : Independent kw)
    (hp : Plain (n + 1) kw) (c : ℕ) (data : Dict Key (Item V)) (t : Item V)
    (h : W.update (n + 1) (.obj c data) kw = .ok t) (p : Path) (a : Arg V) (hmem : (p, a) ∈ kw)
    (o : LeafOpt V) (ho : leafAt W (.obj c data) p = some o) :
    ∃ v, o.fset a = .ok v ∧ readAt t p = some (.leaf v) := by
  have hs := (C17_sequential W n kw (ordered_of_independent hi) hp c data t).1 h
  obtain ⟨k1, k2, rfl⟩ := List.append_of_mem hmem
  unfold assignSeq at hs
  rw [List.foldlM_append] at hs
  obtain ⟨s1, h1, h2⟩ := bind_ok.1 hs
  rw [List.foldlM_cons] at h2
  obtain ⟨s2, h3, h4⟩ := bind_ok.1 h2
  obtain ⟨i1, i2, i3⟩ := List.pairwise_append.1 hi
  have a1 : ∀ e ∈ k1, Apart e.1 p := fun e he => ⟨(i3 e he (p, a) (by simp)).2,
    (i3 e he (p, a) (by simp)).1⟩
  have a2 : ∀ e ∈ k2, Apart e.1 p := fun e he => (List.pairwise_cons.1 i2).1 e he
  obtain ⟨v, hv, hr⟩ := assignAt_leaf W p a s1 s2 o
    ((assignSeq_frame W k1 p a1 _ _ h1).2.trans ho) h3
  exact ⟨v, hv, (assignSeq_frame W k2 p a2 _ _ h4).1.trans hr⟩

theorem set_self {d : Dict Key (Item V)} (hn : d.keys.Nodup) {k : Key} {it : Item V}
    (hg : d.get? k = some it) : d.set k it = d := by
  rw [Dict.set_of_mem (Dict.mem_keys_iff.2 ⟨_, hg⟩)]
  conv_rhs => rw [← List.map_id d]
  refine List.map_congr_left fun e he => ?_
  split_ifs with h
  · have := Dict.get?_of_mem hn (show (k, e.2) ∈ d by rw [← h]; exact he)
    rw [hg] at this
    cases this
    rw [← h]
    rfl
  · rfl

theorem wf_get {c : ℕ} {d : Dict Key (Item V)} (h : WF (.obj c d)) {k : Key} {it : Item V}
    (hg : d.get? k = some it) : WF it := by
  cases h with
  | obj _ _ hn hw => exact hw _ (Dict.mem_of_get? hg)

theorem wf_nodup {c : ℕ} {d : Dict Key (Item V)} (h : WF (.obj c d)) : d.keys.Nodup := by
  cases h with
  | obj _ _ hn hw => exact hn

theorem wf_write {c : ℕ} {d : Dict Key (Item V)} (h : WF (.obj c d)) (k : Key)
    {x : Option (Item V)} (hx : ∀ it, x = some it → WF it) : WF (.obj c (writeEntry d k x)) := by
  cases h with
  | obj _ _ hn hw =>
    cases x with
    | none =>
      refine .obj c _ (List.Nodup.sublist (List.filter_sublist.map _) hn) fun e he => ?_
      exact hw e (List.mem_filter.1 he).1
    | some it =>
      refine .obj c _ (Dict.nodup_set hn k it) fun e he => ?_
      rcases Dict.mem_values_set (List.mem_map_of_mem he) with h | h
      · rw [h]; exact hx it rfl
      · obtain ⟨e', he', h⟩ := List.mem_map.1 h
        rw [← h]; exact hw e' he'

theorem wf_assignItem (W : World V) (hf : ∀ c, WF (W.fresh c)) {c : ℕ} {k : Key}
    {cur x : Option (Item V)} {a : Arg V} (hc : ∀ it, cur = some it → WF it)
    (h : W.assignItem (fun _ _ => .error .typeError) c k cur a = .ok x) :
    ∀ it, x = some it → WF it := by
  unfold World.assignItem at h
  intro it hit
  subst hit
  cases ho : W.opt c k with
  | none => rw [ho] at h; cases h; exact hc it rfl
  | some o =>
    rw [ho] at h
    cases o with
    | leaf o =>
      simp only at h
      cases hv : o.fset a with
      | error e => rw [hv] at h; cases h
      | ok v => rw [hv] at h; cases h; exact .leaf v
    | unique c' =>
      cases a with
      | val v => cases h
      | str s =>
        simp only at h
        split_ifs at h
        cases h; exact hf c'
      | dict kw =>
        cases cur with
        | none => cases h
        | some it => cases h
    | iface l =>
      cases a with
      | val v => cases h
      | str s =>
        simp only at h
        cases hl : l s with
        | none => rw [hl] at h; cases h
        | some c' =>
          rw [hl] at h
          cases cur with
          | none => cases h
          | some it0 =>
            simp only at h
            split_ifs at h
            · cases h; exact hc it rfl
            · cases h; exact hf c'
      | dict kw =>
        cases cur with
        | none => cases h
        | some it => cases h
    | stream c' =>
      cases a with
      | val v =>
        simp only at h
        cases hb : W.asBool v with
        | none => rw [hb] at h; cases h
        | some b => rw [hb] at h; cases b <;> cases h; exact hf c'
      | str s =>
        simp only at h
        split_ifs at h
        cases h; exact hf c'
      | dict kw => cases h

theorem wf_assignAt (W : World V) (hf : ∀ c, WF (W.fresh c)) (p : Path) (a : Arg V)
    {it t : Item V} (hw : WF it) (h : assignAt W p a it = .ok t) : WF t := by
  induction p generalizing it t with
  | nil => cases it <;> (cases h; exact hw)
  | cons k p ih =>
    cases it with
    | leaf v => cases p <;> simp [assignAt] at h
    | obj c d =>
      rw [assignAt_act, map_ok] at h
      obtain ⟨x, hx, rfl⟩ := h
      refine wf_write hw k ?_
      cases hg : Dict.get? d k with
      | none => rw [hg] at hx; cases hx; intro it h; cases h
      | some it0 =>
        rw [hg] at hx
        have hw0 := wf_get hw hg
        cases p with
        | nil => exact wf_assignItem W hf (fun it h => by cases h; exact hw0) hx
        | cons l rest =>
          obtain ⟨it1, h1, rfl⟩ := map_ok.1 hx
          intro it h
          cases h
          exact ih hw0 h1

theorem wf_assignSeq (W : World V) (hf : ∀ c, WF (W.fresh c)) (kw : KW V)
    {it t : Item V} (hw : WF it) (h : assignSeq W kw it = .ok t) : WF t := by
  induction kw generalizing it with
  | nil => cases h; exact hw
  | cons e kw ih =>
    unfold assignSeq at h
    rw [List.foldlM_cons] at h
    obtain ⟨s, h1, h2⟩ := bind_ok.1 h
    exact ih (wf_assignAt W hf _ _ hw h1) h2

theorem assignAt_unknown (W : World V) (p : Path) (a : Arg V) (it : Item V) (hw : WF it)
    (h : Unknown it p) : assignAt W p a it = .ok it := by
  induction p generalizing it with
  | nil => cases it <;> exact absurd h id
  | cons k p ih =>
    cases it with
    | leaf v => exact absurd h id
    | obj c d =>
      rw [assignAt_act]
      cases hg : Dict.get? d k with
      | none => simp [act, Except.map, writeEntry, erase_of_none hg]
      | some it0 =>
        simp only [Unknown, hg] at h
        cases p with
        | nil => cases it0 <;> exact absurd h id
        | cons l rest =>
          simp only [act, ih it0 (wf_get hw hg) h, Except.map, writeEntry,
            set_self (wf_nodup hw) hg]

/-- **C17** A key which addresses no option changes nothing: `update` with it and without it
give the same result. (Whether it addresses an option is judged when its turn comes, after the
selections that precede it.) -/
theorem C17_unknown (W : World V) (hf : ∀ c, WF (W.fresh c)) (n : ℕ) (kw kw' : KW V)
    (p : Path) (a : Arg V) (ho : Ordered (kw ++ (p, a) :: kw'))
    (hp : Plain (n + 1) (kw ++ (p, a) :: kw')) (c : ℕ) (data : Dict Key (Item V))
    (hw : WF (.obj c data))
    (hu : ∀ s, W.update (n + 1) (.obj c data) kw = .ok s → Unknown s p) (t : Item V) :
    W.update (n + 1) (.obj c data) (kw ++ (p, a) :: kw') = .ok t ↔
      W.update (n + 1) (.obj c data) (kw ++ kw') = .ok t := by
  have hsub : (kw ++ kw').Sublist (kw ++ (p, a) :: kw') :=
    List.Sublist.append_left (List.sublist_cons_self _ _) _
  have hsub1 : kw.Sublist (kw ++ (p, a) :: kw') := List.sublist_append_left _ _
  rw [C17_sequential W n _ ho hp, C17_sequential W n _ (ho.sublist hsub)
    (fun e he => hp e (hsub.subset he))]
  have hu' : ∀ s, assignSeq W kw (.obj c data) = .ok s → Unknown s p := fun s hs =>
    hu s ((C17_sequential W n kw (ho.sublist hsub1) (fun e he => hp e (hsub1.subset he)) _ _ _).2 hs)
  have e1 : assignSeq W (kw ++ (p, a) :: kw') (.obj c data) =
      (assignSeq W kw (.obj c data)).bind fun s => (assignAt W p a s).bind (assignSeq W kw') := by
    unfold assignSeq
    rw [List.foldlM_append]
    simp only [List.foldlM_cons]
    rfl
  have e2 : assignSeq W (kw ++ kw') (.obj c data) =
      (assignSeq W kw (.obj c data)).bind (assignSeq W kw') := by
    unfold assignSeq
    rw [List.foldlM_append]
    rfl
  rw [e1, e2]
  cases hs : assignSeq W kw (.obj c data) with
  | error e => rfl
  | ok s =>
    simp only [Except.bind]
    rw [assignAt_unknown W p a s (wf_assignSeq W hf kw hw hs) (hu' s hs)]

/-- **C17** A key below a plain value is an error, it is not ignored. -/
theorem C17_below_value (W : World V) (n : ℕ) (c : ℕ) (data : Dict Key (Item V)) (k l : Key)
    (a : Arg V) (v : V) (hg : data.get? k = some (.leaf v)) :
    W.update (n + 2) (.obj c data) [([k, l], a)] = .error .attributeError := by
  have hh : Dict.has data k = true := by rw [Dict.has_eq_isSome, hg]; rfl
  rw [update_eq _ _ _ _ _ (by simp [Ordered])]
  have hstep : entryStep W (W.update (n + 1)) c (data, []) ([k, l], a) =
      .ok (data, [(k, [([l], a)])]) := by
    simp only [entryStep, hh]
    simp [Dict.set, Dict.has, Dict.get?]
  simp [hstep, Except.bind, groupStep, hg, World.update, Except.map, bind, pure, Except.pure]

theorem group_of_under (W : World V) (upd : Item V → KW V → Except PyErr (Item V)) (c : ℕ)
    (data : Dict Key (Item V)) (k : Key) (hk : data.has k = true) (kw g : KW V)
    (hne : ∀ e ∈ kw, e.1 ≠ []) :
    (kw.map (underKey k)).foldlM (entryStep W upd c) (data, [(k, g)]) =
      .ok (data, [(k, g ++ kw)]) := by
  induction kw generalizing g with
  | nil => simp [pure, Except.pure]
  | cons e kw ih =>
    have h1 := hne e (by simp)
    have hstep : entryStep W upd c (data, [(k, g)]) (underKey k e) =
        .ok (data, [(k, g ++ [e])]) := by
      simp only [entryStep, underKey, hk, h1, false_and, if_false, if_true, not_false_eq_true,
        and_self]
      simp [Dict.set, Dict.has, Dict.get?]
    rw [List.map_cons, List.foldlM_cons, hstep]
    simp only [bind, Except.bind]
    rw [ih _ fun e he => hne e (by simp [he])]
    simp

/-- **C17** A nested dictionary `{'a': {'b.c': x, …}}` is the same as the dotted keys
`{'a.b.c': x, …}`. -/
theorem C17_nested_dict (W : World V) (n : ℕ) (c : ℕ) (data : Dict Key (Item V)) (k : Key)
    (it : Item V) (hg : data.get? k = some it)
    (hopt : (∃ c', W.opt c k = some (.unique c')) ∨ ∃ l, W.opt c k = some (.iface l))
    (kw : KW V) (hkw : kw ≠ []) (ho : Ordered kw) (hne : ∀ e ∈ kw, e.1 ≠ []) :
    W.update (n + 1) (.obj c data) [([k], .dict kw)] =
      W.update (n + 1) (.obj c data) (kw.map (underKey k)) := by
  have hh : Dict.has data k = true := by rw [Dict.has_eq_isSome, hg]; rfl
  have ho' : Ordered (kw.map (underKey k)) := by
    unfold Ordered
    rw [List.pairwise_map]
    exact ho.imp fun h h' => h (by simpa [underKey] using h')
  rw [update_eq _ _ _ _ _ (by simp [Ordered]), update_eq _ _ _ _ _ ho']
  have hl : W.assign (W.update n) c data k (.dict kw) =
      (W.update n it kw).map (data.set k) := by
    unfold World.assign World.assignItem
    rcases hopt with ⟨c', h⟩ | ⟨l, h⟩ <;>
    · simp only [h, hg]
      cases W.update n it kw <;> rfl
  have hr : (kw.map (underKey k)).foldlM (entryStep W (W.update n) c) (data, []) =
      .ok (data, [(k, kw)]) := by
    cases kw with
    | nil => exact absurd rfl hkw
    | cons e kw =>
      have hstep : entryStep W (W.update n) c (data, []) (underKey k e) =
          .ok (data, [(k, [e])]) := by
        simp only [entryStep, underKey, hh, hne e (by simp), false_and, if_false, if_true,
          not_false_eq_true, and_self]
        simp [Dict.set, Dict.has, Dict.get?]
      rw [List.map_cons, List.foldlM_cons, hstep]
      simp only [bind, Except.bind]
      rw [group_of_under W _ c data k hh kw [e] fun e he => hne e (by simp [he])]
      rfl
  rw [hr]
  simp only [List.foldlM_cons, List.foldlM_nil, entryStep, hh, and_self, if_true, hl, groupStep, hg,
    Except.bind, bind, pure, Except.pure, Except.map]
  cases W.update n it kw <;> rfl

/-- **C17** The order matters when an option of a sub-configuration precedes the selection of
the sub-configuration: that is a `TypeError`, in every configuration. The opposite order is a
sequence of assignments by `C17_sequential`. -/
theorem C17_fails_order (W : World V) (n : ℕ) (c : ℕ) (data : Dict Key (Item V)) (k l : Key)
    (r : Path) (a : Arg V) (s : String) (hk : data.has k = true) :
    W.update (n + 1) (.obj c data) [(k :: l :: r, a), ([k], .str s)] = .error .typeError := by
  simp [World.update, World.updateStep, Dict.get?, Dict.has, hk, bind, Except.bind]
  simp [Dict.has] at hk
  simp [hk]

/-! ## A small class hierarchy -/

/-- A plain option for positive numbers; zero means not set. -/
def demoLeaf : LeafOpt ℕ where
  fset
    | .val v => if v = 0 then .error .valueError else .ok v
    | _ => .error .typeError
  readable v := v ≠ 0
  toArg := .val

/-- Classes: `0` the solver with options `dt`, `fem`, `log`; `1` and `2` finite elements `h1`
(`order`) and `l2` (`order`, `theta`); `3` the log stream with name `dream` and option `level`. -/
def demo : World ℕ where
  nameOf c := if c = 0 then "solver" else if c = 1 then "h1" else if c = 2 then "l2" else "dream"
  opt c k :=
    if c = 0 then
      if k = "dt" then some (.leaf demoLeaf)
      else if k = "fem" then
        some (.iface fun s => if s = "h1" then some 1 else if s = "l2" then some 2 else none)
      else if k = "log" then some (.stream 3)
      else none
    else if c = 1 then if k = "order" then some (.leaf demoLeaf) else none
    else if c = 2 then if k = "order" ∨ k = "theta" then some (.leaf demoLeaf) else none
    else if k = "level" then some (.leaf demoLeaf) else none
  isA c c' := c = c'
  fresh c :=
    if c = 0 then .obj 0 [("dt", .leaf 1), ("fem", .obj 1 [("order", .leaf 2)])]
    else if c = 1 then .obj 1 [("order", .leaf 2)]
    else if c = 2 then .obj 2 [("order", .leaf 2), ("theta", .leaf 0)]
    else .obj c [("level", .leaf 3)]
  asBool v := if v = 0 then some false else if v = 1 then some true else none

/-- The keys of the examples: another method, two options of it and an own option. -/
def demoKW : KW ℕ :=
  [(["fem"], .str "l2"), (["fem", "order"], .val 4), (["dt"], .val 7), (["fem", "theta"], .val 5)]

example : Ordered demoKW ∧ Plain 2 demoKW := by
  refine ⟨by simp [Ordered, demoKW], ?_⟩
  intro e he
  simp only [demoKW, List.mem_cons, List.not_mem_nil, or_false] at he
  rcases he with rfl | rfl | rfl | rfl <;> exact ⟨trivial, by simp, by simp⟩

example : demo.update 2 (demo.fresh 0) demoKW =
    .ok (.obj 0 [("dt", .leaf 7), ("fem", .obj 2 [("order", .leaf 4), ("theta", .leaf 5)])]) := rfl

example : assignSeq demo demoKW (demo.fresh 0) =
    .ok (.obj 0 [("dt", .leaf 7), ("fem", .obj 2 [("order", .leaf 4), ("theta", .leaf 5)])]) := rfl

/-- Keys of different options, in two orders. -/
example : Independent ([(["fem", "order"], .val 4), (["dt"], .val 7), (["x", "y"], .val 1)] : KW ℕ) ∧
    demo.update 2 (demo.fresh 0)
      [(["x", "y"], .val 1), (["dt"], .val 7), (["fem", "order"], .val 4)] =
      .ok (.obj 0 [("dt", .leaf 7), ("fem", .obj 1 [("order", .leaf 4)])]) :=
  ⟨by simp [Independent], rfl⟩

example : ∃ o, leafAt demo (demo.fresh 0) ["fem", "order"] = some o ∧ o.fset (.val 4) = .ok 4 :=
  ⟨demoLeaf, rfl, rfl⟩

/-- `fem.theta` is no option before `l2` is selected and is one afterwards. -/
example : Unknown (demo.fresh 0) ["fem", "theta"] ∧
    ∀ s, demo.update 2 (demo.fresh 0) [(["fem"], .str "l2")] = .ok s →
      ¬ Unknown s ["fem", "theta"] := by
  refine ⟨by simp [Unknown, demo, Dict.get?], ?_⟩
  intro s hs
  have : demo.update 2 (demo.fresh 0) [(["fem"], .str "l2")] = .ok
    (.obj 0 [("dt", .leaf 1), ("fem", .obj 2 [("order", .leaf 2), ("theta", .leaf 0)])]) := rfl
  rw [this] at hs
  cases hs
  simp [Unknown, Dict.get?]

example : ∀ c, WF (demo.fresh c) := by
  intro c
  have l : ∀ v : ℕ, WF (Item.leaf v) := WF.leaf
  have h1 : WF (Item.obj 1 [("order", Item.leaf 2)]) := .obj _ _ (by simp [Dict.keys]) (by simp [l])
  unfold demo
  simp only
  split_ifs
  · exact .obj _ _ (by simp [Dict.keys]) (by simp [l, h1])
  · exact h1
  · exact .obj _ _ (by simp [Dict.keys]) (by simp [l])
  · exact .obj _ _ (by simp [Dict.keys]) (by simp [l])

/-- The wrong order fails although the right one is accepted. -/
example : demo.update 2 (demo.fresh 0) [(["fem", "order"], .val 4), (["fem"], .str "l2")] =
      .error .typeError ∧
    demo.update 2 (demo.fresh 0) [(["fem"], .str "l2"), (["fem", "order"], .val 4)] =
      .ok (.obj 0 [("dt", .leaf 1), ("fem", .obj 2 [("order", .leaf 4), ("theta", .leaf 0)])]) :=
  ⟨rfl, rfl⟩

end Dream
