import Verif.Props.ConfigUpdate

/-!
# C16: the exported settings restore the configuration
-/

namespace Dream
open Spec
variable {V : Type}

/-- The shape of the configurations of a lawful hierarchy. -/
inductive Conform (W : World V) : Item V → Prop
  | obj (c : ℕ) (data : List (Key × Item V))
      (hk : Dict.keys data = (freshData W c).keys)
      (hl : ∀ k it o, (k, it) ∈ data → W.opt c k = some (.leaf o) → ∃ v, it = .leaf v ∧
        ((o.readable v = true ∧ o.fset (o.toArg v) = .ok v) ∨
          (o.readable v = false ∧ (freshData W c).get? k = some (.leaf v))))
      (hu : ∀ k it c', (k, it) ∈ data → W.opt c k = some (.unique c') → ∃ d, it = .obj c' d)
      (hi : ∀ k it l, (k, it) ∈ data → W.opt c k = some (.iface l) →
        ∃ c' d, it = .obj c' d ∧ l (W.nameOf c') = some c')
      (hs : ∀ k it, (k, it) ∈ data → ((∃ c', W.opt c k = some (.unique c')) ∨
        ∃ l, W.opt c k = some (.iface l)) → Conform W it) : Conform W (.obj c data)

variable {W : World V}

/-- The kinds of options in use. -/
theorem kind_of_key (hL : Lawful W) {c : ℕ} {k : Key} (h : k ∈ (freshData W c).keys) :
    (∃ o, W.opt c k = some (.leaf o)) ∨ (∃ c', W.opt c k = some (.unique c')) ∨
      ∃ l, W.opt c k = some (.iface l) := by
  obtain ⟨e, he, rfl⟩ := List.mem_map.1 h
  rcases hL.kind c e he with ⟨o, v, h, _⟩ | ⟨c', h, _⟩ | ⟨l, c', h, _⟩
  · exact .inl ⟨o, h⟩
  · exact .inr (.inl ⟨c', h⟩)
  · exact .inr (.inr ⟨l, h⟩)

theorem sizeOf_get {c : ℕ} {d : Dict Key (Item V)} {e : Key × Item V} (he : e ∈ d) :
    sizeOf e.2 < sizeOf (Item.obj c d) := by
  have := List.sizeOf_lt_of_mem he
  obtain ⟨a, b⟩ := e
  simp at this ⊢
  omega

theorem conform_fresh (hL : Lawful W) (it : Item V) (c : ℕ) (h : it = W.fresh c) : Conform W it := by
  have hc := hL.cls c
  rw [h, hc]
  have key : ∀ k it0, (k, it0) ∈ freshData W c → sizeOf it0 < sizeOf it := by
    intro k it0 h0
    have := sizeOf_get (c := c) h0
    rwa [← hc, ← h] at this
  refine .obj c _ rfl ?_ ?_ ?_ ?_
  · intro k it0 o hm ho
    rcases hL.kind c _ hm with ⟨o', v, h, hv, hr⟩ | ⟨c', h, _⟩ | ⟨l, c', h, _⟩
    · simp only at h hv
      rw [ho] at h
      cases h
      refine ⟨v, hv, ?_⟩
      cases hb : o.readable v with
      | true => exact .inl ⟨rfl, hr hb⟩
      | false => exact .inr ⟨rfl, Dict.get?_of_mem (hL.nodup c) (hv ▸ hm)⟩
    · simp only at h; rw [ho] at h; cases h
    · simp only at h; rw [ho] at h; cases h
  · intro k it0 c1 hm ho
    rcases hL.kind c _ hm with ⟨o', v, h, hv, hr⟩ | ⟨c', h, hf⟩ | ⟨l, c', h, _⟩
    · simp only at h; rw [ho] at h; cases h
    · simp only at h hf
      rw [ho] at h
      cases h
      exact ⟨_, hf.trans (hL.cls c1)⟩
    · simp only at h; rw [ho] at h; cases h
  · intro k it0 l1 hm ho
    rcases hL.kind c _ hm with ⟨o', v, h, hv, hr⟩ | ⟨c', h, _⟩ | ⟨l, c', h, hn, hf⟩
    · simp only at h; rw [ho] at h; cases h
    · simp only at h; rw [ho] at h; cases h
    · simp only at h hf
      rw [ho] at h
      cases h
      exact ⟨c', _, hf.trans (hL.cls c'), hn⟩
  · intro k it0 hm _
    have hlt := key k it0 hm
    rcases hL.kind c _ hm with ⟨o', v, h', hv, hr⟩ | ⟨c', h', hf⟩ | ⟨l, c', h', hn, hf⟩
    · rename_i hsub
      simp only at h'
      rcases hsub with ⟨c1, h1⟩ | ⟨l1, h1⟩ <;> (rw [h1] at h'; cases h')
    · exact conform_fresh hL it0 c' hf
    · exact conform_fresh hL it0 c' hf
termination_by sizeOf it

/-- Replace one entry by a suitable one. -/
theorem conform_set (hL : Lawful W) {c : ℕ} {d : Dict Key (Item V)} (h : Conform W (.obj c d))
    {k : Key} (hk : k ∈ d.keys) {it : Item V}
    (hl : ∀ o, W.opt c k = some (.leaf o) → ∃ v, it = .leaf v ∧ o.readable v = true ∧
      o.fset (o.toArg v) = .ok v)
    (hu : ∀ c', W.opt c k = some (.unique c') → ∃ d, it = .obj c' d)
    (hi : ∀ l, W.opt c k = some (.iface l) → ∃ c' d, it = .obj c' d ∧ l (W.nameOf c') = some c')
    (hs : ((∃ c', W.opt c k = some (.unique c')) ∨ ∃ l, W.opt c k = some (.iface l)) →
      Conform W it) : Conform W (.obj c (d.set k it)) := by
  cases h with
  | obj _ _ gk gl gu gi gs =>
    have hcase : ∀ k' it', (k', it') ∈ d.set k it → (k' = k ∧ it' = it) ∨ (k', it') ∈ d := by
      intro k' it' hm
      rw [Dict.set_of_mem hk] at hm
      obtain ⟨x, hx, hxe⟩ := List.mem_map.1 hm
      split_ifs at hxe
      · cases hxe; exact .inl ⟨rfl, rfl⟩
      · rw [← hxe]; exact .inr hx
    refine .obj c _ ?_ ?_ ?_ ?_ ?_
    · rw [← gk, Dict.keys_set, if_pos hk]
    · intro k' it' o hm ho
      rcases hcase k' it' hm with ⟨rfl, rfl⟩ | hm
      · obtain ⟨v, h1, h2⟩ := hl o ho
        exact ⟨v, h1, .inl h2⟩
      · exact gl k' it' o hm ho
    · intro k' it' c' hm ho
      rcases hcase k' it' hm with ⟨rfl, rfl⟩ | hm
      · exact hu c' ho
      · exact gu k' it' c' hm ho
    · intro k' it' l hm ho
      rcases hcase k' it' hm with ⟨rfl, rfl⟩ | hm
      · exact hi l ho
      · exact gi k' it' l hm ho
    · intro k' it' hm ho
      rcases hcase k' it' hm with ⟨rfl, rfl⟩ | hm
      · exact hs ho
      · exact gs k' it' hm ho

/-- The class of a configuration does not change by assignments inside it. -/
theorem assignAt_class (W : World V) {p : Path} {a : Arg V} {c : ℕ} {d : Dict Key (Item V)}
    {t : Item V} (h : assignAt W p a (.obj c d) = .ok t) : ∃ d', t = .obj c d' := by
  cases p with
  | nil => cases h; exact ⟨d, rfl⟩
  | cons k p =>
    rw [assignAt_act, map_ok] at h
    obtain ⟨x, _, rfl⟩ := h
    exact ⟨_, rfl⟩

theorem conform_assignAt (hL : Lawful W) (p : Path) (a : Arg V) (it t : Item V)
    (hc : Conform W it) (ha : assignAt W p a it = .ok t) : Conform W t := by
  induction p generalizing it t with
  | nil => cases it <;> (cases ha; exact hc)
  | cons k p ih =>
    cases it with
    | leaf v => cases p <;> simp [assignAt] at ha
    | obj c d =>
      rw [assignAt_act, map_ok] at ha
      obtain ⟨x, hx, rfl⟩ := ha
      cases hg : Dict.get? d k with
      | none =>
        rw [hg] at hx
        cases hx
        rw [writeEntry, erase_of_none hg]
        exact hc
      | some it0 =>
        rw [hg] at hx
        have hk : k ∈ Dict.keys d := Dict.mem_keys_iff.2 ⟨_, hg⟩
        have hm := Dict.mem_of_get? hg
        have hc' := hc
        cases hc' with
        | obj _ _ gk gl gu gi gs =>
          have hkind := kind_of_key hL (gk ▸ hk)
          cases p with
          | nil =>
            simp only [act] at hx
            unfold World.assignItem at hx
            rcases hkind with ⟨o, ho⟩ | ⟨c', ho⟩ | ⟨l, ho⟩
            · rw [ho] at hx
              simp only at hx
              cases hf : o.fset a with
              | error e => rw [hf] at hx; cases hx
              | ok v =>
                rw [hf] at hx
                cases hx
                refine conform_set hL hc hk ?_ ?_ ?_ ?_
                · intro o' ho'
                  rw [ho] at ho'
                  cases ho'
                  exact ⟨v, rfl, hL.setter c k o a v ho hf⟩
                · intro c' h'; rw [ho] at h'; cases h'
                · intro c' h'; rw [ho] at h'; cases h'
                · rintro (⟨c', h'⟩ | ⟨c', h'⟩) <;> (rw [ho] at h'; cases h')
            · rw [ho] at hx
              cases a with
              | val v => cases hx
              | dict kw => cases hx
              | str s =>
                simp only at hx
                split_ifs at hx
                cases hx
                refine conform_set hL hc hk ?_ ?_ ?_ ?_
                · intro o h'; rw [ho] at h'; cases h'
                · intro c1 h'; rw [ho] at h'; cases h'; exact ⟨_, hL.cls c'⟩
                · intro l h'; rw [ho] at h'; cases h'
                · intro _; exact conform_fresh hL _ c' rfl
            · rw [ho] at hx
              cases a with
              | val v => cases hx
              | dict kw => cases hx
              | str s =>
                simp only at hx
                cases hls : l s with
                | none => rw [hls] at hx; cases hx
                | some c' =>
                  rw [hls] at hx
                  simp only at hx
                  split_ifs at hx with hinst
                  · cases hx
                    have hmem : ∀ {d : Dict Key (Item V)}, d.get? k = some it0 → d.keys.Nodup →
                        writeEntry d k (some it0) = d := fun h hn => set_self hn h
                    have hn : (Dict.keys d).Nodup := by rw [gk]; exact hL.nodup c
                    rw [hmem hg hn]
                    exact hc
                  · cases hx
                    refine conform_set hL hc hk ?_ ?_ ?_ ?_
                    · intro o h'; rw [ho] at h'; cases h'
                    · intro c1 h'; rw [ho] at h'; cases h'
                    · intro l' h'
                      rw [ho] at h'
                      cases h'
                      exact ⟨c', _, hL.cls c', hL.name c k l s c' ho hls⟩
                    · intro _; exact conform_fresh hL _ c' rfl
          | cons p0 p =>
            obtain ⟨it1, hi1, rfl⟩ := map_ok.1 hx
            rcases hkind with ⟨o, ho⟩ | ⟨c', ho⟩ | ⟨l, ho⟩
            · obtain ⟨v, hv, _⟩ := gl k it0 o hm ho
              subst hv
              simp [assignAt] at hi1
            · obtain ⟨d0, rfl⟩ := gu k it0 c' hm ho
              refine conform_set hL hc hk ?_ ?_ ?_ ?_
              · intro o h'; rw [ho] at h'; cases h'
              · intro c1 h'
                rw [ho] at h'
                cases h'
                exact assignAt_class W hi1
              · intro l h'; rw [ho] at h'; cases h'
              · intro h'; exact ih _ _ (gs k _ hm h') hi1
            · obtain ⟨c', d0, rfl, hn⟩ := gi k it0 l hm ho
              refine conform_set hL hc hk ?_ ?_ ?_ ?_
              · intro o h'; rw [ho] at h'; cases h'
              · intro c1 h'; rw [ho] at h'; cases h'
              · intro l' h'
                rw [ho] at h'
                cases h'
                obtain ⟨d', hd'⟩ := assignAt_class W hi1
                exact ⟨c', d', hd', hn⟩
              · intro h'; exact ih _ _ (gs k _ hm h') hi1

theorem conform_assignSeq (hL : Lawful W) (kw : KW V) (it t : Item V) (hc : Conform W it)
    (h : assignSeq W kw it = .ok t) : Conform W t := by
  induction kw generalizing it with
  | nil => cases h; exact hc
  | cons e kw ih =>
    unfold assignSeq at h
    rw [List.foldlM_cons] at h
    obtain ⟨s, h1, h2⟩ := bind_ok.1 h
    exact ih s (conform_assignAt hL _ _ _ _ hc h1) h2

theorem assignSeq_class {kw : KW V} {c : ℕ} {d : Dict Key (Item V)} {t : Item V}
    (h : assignSeq W kw (.obj c d) = .ok t) : ∃ d', t = .obj c d' := by
  induction kw generalizing d with
  | nil => cases h; exact ⟨d, rfl⟩
  | cons e kw ih =>
    unfold assignSeq at h
    rw [List.foldlM_cons] at h
    obtain ⟨s, h1, h2⟩ := bind_ok.1 h
    obtain ⟨d', rfl⟩ := assignAt_class W h1
    exact ih h2

theorem conform_reached (hL : Lawful W) {c : ℕ} {t : Item V} (h : Reached W c t) :
    Conform W t ∧ ∃ d, t = .obj c d := by
  induction h with
  | fresh => exact ⟨conform_fresh hL _ c rfl, _, hL.cls c⟩
  | update n kw s t _ ho hp hu ih =>
    obtain ⟨hc, d, rfl⟩ := ih
    rw [C17_sequential W n kw ho hp] at hu
    exact ⟨conform_assignSeq hL kw _ t hc hu, assignSeq_class hu⟩

/-! ## The exported dictionary -/

theorem toTreeList_eq (W : World V) (c : ℕ) (d : List (Key × Item V)) :
    W.toTreeList c d = d.flatMap (W.toTreeEntry c) := by
  induction d with
  | nil => simp [World.toTreeList]
  | cons e d ih => obtain ⟨k, it⟩ := e; simp [World.toTreeList, ih]

theorem toTreeEntry_head (W : World V) (c : ℕ) (e : Key × Item V) :
    ∀ x ∈ W.toTreeEntry c e, ∃ r, x.1 = e.1 :: r := by
  obtain ⟨k, it⟩ := e
  intro x hx
  cases it with
  | leaf v =>
    simp only [World.toTreeEntry] at hx
    split at hx
    · split_ifs at hx
      · simp at hx; exact ⟨[], by rw [hx]⟩
      · simp at hx
    · simp at hx
  | obj c' d =>
    simp only [World.toTreeEntry, List.mem_cons, List.mem_map] at hx
    rcases hx with rfl | ⟨y, _, rfl⟩
    · exact ⟨[], rfl⟩
    · exact ⟨y.1, rfl⟩

theorem toTreeList_ne_nil (W : World V) (c : ℕ) (d : List (Key × Item V)) :
    ∀ x ∈ W.toTreeList c d, x.1 ≠ [] := by
  rw [toTreeList_eq]
  intro x hx
  obtain ⟨e, _, h⟩ := List.mem_flatMap.1 hx
  obtain ⟨r, hr⟩ := toTreeEntry_head W c e x h
  rw [hr]
  simp

theorem toTree_ordered (it : Item V) (hw : WF it) : Ordered (W.toTree it) := by
  induction hw with
  | leaf v => simp [World.toTree, Ordered]
  | obj c d hn _ ih =>
    rw [World.toTree, toTreeList_eq, Ordered, List.pairwise_flatMap]
    refine ⟨fun e he => ?_, ?_⟩
    · obtain ⟨k, it⟩ := e
      have := ih _ he
      cases it with
      | leaf v =>
        simp only [World.toTreeEntry]
        split
        · split_ifs <;> simp
        · simp
      | obj c' d' =>
        simp only [World.toTreeEntry, List.pairwise_cons, List.mem_map]
        refine ⟨?_, ?_⟩
        · rintro x ⟨y, hy, rfl⟩
          have := toTreeList_ne_nil W c' d' y hy
          simp only [underKey]
          simpa using this
        · rw [List.pairwise_map]
          refine List.Pairwise.imp (fun {a b} hab h' => hab ?_) this
          simpa [underKey] using h'
    · have hpw : d.Pairwise fun e e' => e.1 ≠ e'.1 := List.pairwise_map.1 hn
      refine hpw.imp fun {e e'} hne x hx y hy hpre => ?_
      obtain ⟨r, hr⟩ := toTreeEntry_head W c e x hx
      obtain ⟨r', hr'⟩ := toTreeEntry_head W c e' y hy
      rw [hr, hr', List.cons_prefix_cons] at hpre
      exact hne hpre.1.symm

theorem wf_conform (hL : Lawful W) (it : Item V) (h : Conform W it) : WF it := by
  induction h with
  | obj c d hk hl hu hi hs ih =>
    refine .obj c d (by rw [hk]; exact hL.nodup c) fun e he => ?_
    obtain ⟨k, it⟩ := e
    have hkey : k ∈ (freshData W c).keys := by rw [← hk]; exact List.mem_map_of_mem he
    rcases kind_of_key hL hkey with ⟨o, ho⟩ | ⟨c', ho⟩ | ⟨l, ho⟩
    · obtain ⟨v, hv, _⟩ := hl k it o he ho
      rw [hv]
      exact .leaf v
    · exact ih k it he (.inl ⟨c', ho⟩)
    · exact ih k it he (.inr ⟨l, ho⟩)

theorem toTree_flat (hL : Lawful W) (it : Item V) (hc : Conform W it) :
    ∀ e ∈ W.toTree it, Flat e.2 := by
  induction hc with
  | obj c d hk hl hu hi hs ih =>
    intro x hx
    rw [World.toTree, toTreeList_eq] at hx
    obtain ⟨⟨k, it⟩, he, hx⟩ := List.mem_flatMap.1 hx
    cases it with
    | leaf v =>
      simp only [World.toTreeEntry] at hx
      split at hx
      · rename_i o ho
        split_ifs at hx
        · simp at hx; rw [hx]; exact hL.export_flat c k o v ho
        · simp at hx
      · simp at hx
    | obj c' d' =>
      simp only [World.toTreeEntry, List.mem_cons, List.mem_map] at hx
      rcases hx with rfl | ⟨y, hy, rfl⟩
      · trivial
      · have hkey : k ∈ (freshData W c).keys := by rw [← hk]; exact List.mem_map_of_mem he
        rcases kind_of_key hL hkey with ⟨o, ho⟩ | ⟨c1, ho⟩ | ⟨l, ho⟩
        · obtain ⟨v, hv, _⟩ := hl k _ o he ho
          cases hv
        · exact ih k _ he (.inl ⟨c1, ho⟩) y (by simpa [World.toTree] using hy)
        · exact ih k _ he (.inr ⟨l, ho⟩) y (by simpa [World.toTree] using hy)

/-! ## Restoring -/

theorem assignSeq_append (kw kw' : KW V) (it : Item V) :
    assignSeq W (kw ++ kw') it = (assignSeq W kw it).bind (assignSeq W kw') := by
  unfold assignSeq
  rw [List.foldlM_append]
  rfl

theorem assignSeq_under (k : Key) (kw : KW V) (hne : ∀ e ∈ kw, e.1 ≠ []) (c : ℕ)
    (d : Dict Key (Item V)) (it t : Item V) (hg : d.get? k = some it)
    (h : assignSeq W kw it = .ok t) (hn : d.keys.Nodup) :
    assignSeq W (kw.map (underKey k)) (.obj c d) = .ok (.obj c (d.set k t)) := by
  induction kw generalizing d it with
  | nil =>
    cases h
    rw [set_self hn hg]
    rfl
  | cons e kw ih =>
    unfold assignSeq at h ⊢
    rw [List.foldlM_cons] at h
    obtain ⟨s, h1, h2⟩ := bind_ok.1 h
    rw [List.map_cons, List.foldlM_cons]
    have hk : k ∈ d.keys := Dict.mem_keys_iff.2 ⟨_, hg⟩
    have hstep : assignAt W (underKey k e).1 (underKey k e).2 (.obj c d) =
        .ok (.obj c (d.set k s)) := by
      simp only [underKey]
      rw [assignAt_under W k e.1 (hne e (by simp)) e.2 c d it hg, h1]
      rfl
    rw [hstep]
    have := ih (fun e he => hne e (by simp [he])) (d.set k s) s
      (by rw [Dict.get?_set, if_pos rfl]) h2 (Dict.nodup_set hn k s)
    rw [Dict.set_set hk] at this
    exact this

theorem get?_mid {pre post : Dict Key (Item V)} {k : Key} {x : Item V} (h : k ∉ pre.keys) :
    Dict.get? (pre ++ (k, x) :: post) k = some x := by
  induction pre with
  | nil => simp [Dict.get?]
  | cons e pre ih =>
    simp only [Dict.keys, List.map_cons, List.mem_cons, not_or] at h
    have := ih h.2
    simp only [Dict.get?, List.cons_append] at this ⊢
    rw [List.find?_cons_of_neg (by simpa using Ne.symm h.1)]
    exact this

theorem set_mid {pre post : Dict Key (Item V)} {k : Key} {x y : Item V} (h : k ∉ pre.keys)
    (h' : k ∉ post.keys) : Dict.set (pre ++ (k, x) :: post) k y = pre ++ (k, y) :: post := by
  rw [Dict.set_append h]
  congr 1
  rw [Dict.set_of_mem (by simp [Dict.keys])]
  simp only [List.map_cons, if_true]
  rw [Dict.map_set_of_not_mem h']

/-- The entries of one option restore it. -/
theorem restore_entry (hL : Lawful W) (c : ℕ) (k : Key) (it itf : Item V)
    (pre post : Dict Key (Item V)) (hn : (Dict.keys (pre ++ (k, itf) :: post)).Nodup)
    (hf : (k, itf) ∈ freshData W c)
    (hl : ∀ o, W.opt c k = some (.leaf o) → ∃ v, it = .leaf v ∧
        ((o.readable v = true ∧ o.fset (o.toArg v) = .ok v) ∨
          (o.readable v = false ∧ (freshData W c).get? k = some (.leaf v))))
    (hu : ∀ c', W.opt c k = some (.unique c') → ∃ d, it = .obj c' d)
    (hi : ∀ l, W.opt c k = some (.iface l) → ∃ c' d, it = .obj c' d ∧ l (W.nameOf c') = some c')
    (hs : ∀ c' d, it = .obj c' d → assignSeq W (W.toTree it) (W.fresh c') = .ok it) :
    assignSeq W (W.toTreeEntry c (k, it)) (.obj c (pre ++ (k, itf) :: post)) =
      .ok (.obj c (pre ++ (k, it) :: post)) := by
  have hpre : k ∉ Dict.keys pre := by
    simp only [Dict.keys, List.map_append, List.map_cons, List.nodup_append] at hn
    exact fun h => hn.2.2 k h k (by simp) rfl
  have hpost : k ∉ Dict.keys post := by
    simp only [Dict.keys, List.map_append, List.map_cons, List.nodup_append, List.nodup_cons] at hn
    exact hn.2.1.1
  have hgm := get?_mid (x := itf) (post := post) hpre
  have hgf : (freshData W c).get? k = some itf := Dict.get?_of_mem (hL.nodup c) hf
  have sel : ∀ c' d, it = .obj c' d →
      assignAt W [k] (.str (W.nameOf c')) (.obj c (pre ++ (k, itf) :: post)) =
        .ok (.obj c (pre ++ (k, W.fresh c') :: post)) →
      assignSeq W (W.toTreeEntry c (k, it)) (.obj c (pre ++ (k, itf) :: post)) =
        .ok (.obj c (pre ++ (k, it) :: post)) := by
    intro c' d hit hsel
    have h0 := hs c' d hit
    subst hit
    simp only [World.toTreeEntry]
    have e1 : assignSeq W ((([k], .str (W.nameOf c')) : Path × Arg V) ::
        (W.toTreeList c' d).map (underKey k)) (.obj c (pre ++ (k, itf) :: post)) =
        assignSeq W ((W.toTreeList c' d).map (underKey k))
          (.obj c (pre ++ (k, W.fresh c') :: post)) := by
      unfold assignSeq
      rw [List.foldlM_cons]
      simp only
      rw [hsel]
      rfl
    rw [e1]
    have hn' : (Dict.keys (pre ++ (k, W.fresh c') :: post)).Nodup := by
      simpa [Dict.keys] using hn
    have := assignSeq_under (W := W) k _ (toTreeList_ne_nil W c' d) c _ _ _
      (get?_mid (x := W.fresh c') (post := post) hpre) (by simpa [World.toTree] using h0) hn'
    rw [this, set_mid hpre hpost]
  rcases hL.kind c _ hf with ⟨o, v0, ho, hv0, _⟩ | ⟨c', ho, hfr⟩ | ⟨l, c0, ho, hn0, hfr⟩
  · simp only at ho hv0
    obtain ⟨v, rfl, h⟩ := hl o ho
    simp only [World.toTreeEntry, ho]
    rcases h with ⟨hr, hset⟩ | ⟨hr, hget⟩
    · rw [if_pos hr]
      unfold assignSeq
      simp only [List.foldlM_cons, List.foldlM_nil]
      rw [assignAt_act, hgm]
      simp only [act, World.assignItem, ho, hset, Except.map, writeEntry, set_mid hpre hpost]
      rfl
    · rw [hr]
      rw [hgf] at hget
      cases hget
      rfl
  · simp only at ho hfr
    obtain ⟨d, hit⟩ := hu c' ho
    refine sel c' d hit ?_
    rw [assignAt_act, hgm]
    simp only [act, World.assignItem, ho, if_true, Except.map, writeEntry, set_mid hpre hpost]
  · simp only at ho hfr
    obtain ⟨c', d, hit, hn'⟩ := hi l ho
    refine sel c' d hit ?_
    rw [assignAt_act, hgm]
    simp only [act, World.assignItem, ho, hn']
    by_cases hinst : W.isInstance itf c' = true
    · have hcc : c0 = c' := by
        rw [hfr, hL.cls c0] at hinst
        exact hL.flat c k l _ _ c0 c' ho hn0 hn' hinst
      rw [if_pos hinst, ← hcc, ← hfr]
      simp only [Except.map, writeEntry, set_mid hpre hpost]
    · rw [if_neg hinst]
      simp only [Except.map, writeEntry, set_mid hpre hpost]

theorem restore_list (c : ℕ) (hL : Lawful W) (pre post fpost : Dict Key (Item V))
    (hk : post.keys = fpost.keys) (hn : (Dict.keys (pre ++ fpost)).Nodup)
    (hsub : ∀ e ∈ fpost, e ∈ freshData W c)
    (h : ∀ k it, (k, it) ∈ post →
      (∀ o, W.opt c k = some (.leaf o) → ∃ v, it = .leaf v ∧
        ((o.readable v = true ∧ o.fset (o.toArg v) = .ok v) ∨
          (o.readable v = false ∧ (freshData W c).get? k = some (.leaf v)))) ∧
      (∀ c', W.opt c k = some (.unique c') → ∃ d, it = .obj c' d) ∧
      (∀ l, W.opt c k = some (.iface l) →
        ∃ c' d, it = .obj c' d ∧ l (W.nameOf c') = some c') ∧
      (∀ c' d, it = .obj c' d → assignSeq W (W.toTree it) (W.fresh c') = .ok it)) :
    assignSeq W (W.toTreeList c post) (.obj c (pre ++ fpost)) = .ok (.obj c (pre ++ post)) := by
  induction post generalizing pre fpost with
  | nil =>
    cases fpost with
    | nil => simp [World.toTreeList, assignSeq, pure, Except.pure]
    | cons e f => simp [Dict.keys] at hk
  | cons e post ih =>
    obtain ⟨k, it⟩ := e
    cases fpost with
    | nil => simp [Dict.keys] at hk
    | cons f fpost =>
      obtain ⟨k', itf⟩ := f
      simp only [Dict.keys, List.map_cons, List.cons.injEq] at hk
      obtain ⟨rfl, hk⟩ := hk
      obtain ⟨h1, h2, h3, h4⟩ := h k it (by simp)
      have := restore_entry hL c k it itf pre fpost hn (hsub _ (by simp)) h1 h2 h3 h4
      rw [World.toTreeList, assignSeq_append, this]
      simp only [Except.bind]
      have := ih (pre ++ [(k, it)]) fpost hk (by simpa [Dict.keys] using hn)
        (fun e he => hsub e (by simp [he])) (fun k' it' hm => h k' it' (by simp [hm]))
      simpa using this

theorem restore (hL : Lawful W) (it : Item V) (hc : Conform W it) (c : ℕ)
    (d : List (Key × Item V)) (h : it = .obj c d) :
    assignSeq W (W.toTree it) (W.fresh c) = .ok it := by
  induction hc generalizing c d with
  | obj c0 d0 hk hl hu hi hs ih =>
    cases h
    rw [World.toTree, hL.cls c0]
    refine restore_list c0 hL [] d0 (freshData W c0) hk (hL.nodup c0) (fun e he => he) ?_
    intro k it hm
    refine ⟨fun o ho => hl k it o hm ho, fun c' ho => hu k it c' hm ho,
      fun l ho => hi k it l hm ho, fun c' d' hit => ?_⟩
    have hkey : k ∈ (freshData W c0).keys := by rw [← hk]; exact List.mem_map_of_mem hm
    rcases kind_of_key hL hkey with ⟨o, ho⟩ | ⟨c1, ho⟩ | ⟨l, ho⟩
    · obtain ⟨v, hv, _⟩ := hl k it o hm ho
      rw [hit] at hv
      cases hv
    · exact ih k it hm (.inl ⟨c1, ho⟩) c' d' hit
    · exact ih k it hm (.inr ⟨l, ho⟩) c' d' hit

/-- **C16 (partial)** In a class hierarchy without streams whose setters are idempotent: for every
configuration reached from a new one by any history of `update` calls, `update` with its exported tree
turns a new configuration of the same class into an equal one. (`n` bounds the length of the dotted
keys, the recursion depth `update` needs.)

Missing: configurations with streams, for which the claim is false (`C16_fails_log`,
`C16_fails_stream`). -/
theorem C16_restore_partial (W : World V) (hL : Lawful W) (c : ℕ) (t : Item V)
    (h : Reached W c t) (n : ℕ) (hn : ∀ e ∈ W.toTree t, e.1.length ≤ n + 1) :
    W.update (n + 1) (W.fresh c) (W.toTree t) = .ok t := by
  obtain ⟨hc, d, rfl⟩ := conform_reached hL h
  have hplain : Plain (n + 1) (W.toTree (.obj c d)) := fun e he =>
    ⟨toTree_flat hL _ hc e he, by
      rw [World.toTree] at he
      exact toTreeList_ne_nil W c d e he, hn e he⟩
  have := restore hL _ hc c d rfl
  rw [hL.cls c] at this ⊢
  exact (C17_sequential W n _ (toTree_ordered _ (wf_conform hL _ hc)) hplain _ _ _).2 this

/-- **C16** The export of a configuration is a fixed point: exporting, restoring into a new
configuration and exporting again gives the same tree. -/
theorem C16_export_stable (W : World V) (hL : Lawful W) (c : ℕ) (t s : Item V)
    (h : Reached W c t) (n : ℕ) (hn : ∀ e ∈ W.toTree t, e.1.length ≤ n + 1)
    (hs : W.update (n + 1) (W.fresh c) (W.toTree t) = .ok s) : W.toTree s = W.toTree t := by
  rw [C16_restore_partial W hL c t h n hn] at hs
  cases hs
  rfl

theorem demo_lawful : Lawful demo where
  cls c := by
    unfold freshData demo
    simp only
    split_ifs with h0 h1 h2
    · subst h0; rfl
    · subst h1; rfl
    · subst h2; rfl
    · rfl
  nodup c := by
    unfold freshData demo Dict.keys
    simp only
    split_ifs <;> simp
  kind c := by
    intro e he
    unfold freshData demo at he
    simp only at he
    split_ifs at he with h0 h1 h2
    · subst h0
      simp only [List.mem_cons, List.not_mem_nil, or_false] at he
      rcases he with rfl | rfl
      · exact .inl ⟨demoLeaf, 1, rfl, rfl, fun _ => rfl⟩
      · exact .inr (.inr ⟨_, 1, rfl, rfl, rfl⟩)
    · subst h1
      simp only [List.mem_cons, List.not_mem_nil, or_false] at he
      rcases he with rfl
      exact .inl ⟨demoLeaf, 2, rfl, rfl, fun _ => rfl⟩
    · subst h2
      simp only [List.mem_cons, List.not_mem_nil, or_false] at he
      rcases he with rfl | rfl
      · exact .inl ⟨demoLeaf, 2, rfl, rfl, fun _ => rfl⟩
      · exact .inl ⟨demoLeaf, 0, rfl, rfl, fun h => by cases h⟩
    · simp only [List.mem_cons, List.not_mem_nil, or_false] at he
      rcases he with rfl
      refine .inl ⟨demoLeaf, 3, ?_, rfl, fun _ => rfl⟩
      simp [demo, h0, h1, h2]
  setter c k o a v ho hv := by
    have : o = demoLeaf := by
      unfold demo at ho
      simp only at ho
      split_ifs at ho <;> (cases ho; try rfl)
    subst this
    cases a with
    | val w =>
      simp only [demoLeaf] at hv ⊢
      split_ifs at hv with hw
      cases hv
      simp [hw]
    | str s => cases hv
    | dict kw => cases hv
  export_flat c k o v ho := by
    have : o = demoLeaf := by
      unfold demo at ho
      simp only at ho
      split_ifs at ho <;> (cases ho; try rfl)
    subst this
    trivial
  name c k l s c' ho hl := by
    have : l = fun s => if s = "h1" then some 1 else if s = "l2" then some 2 else none := by
      unfold demo at ho
      simp only at ho
      split_ifs at ho <;> (cases ho; try rfl)
    subst this
    simp only at hl
    split_ifs at hl <;> (cases hl; rfl)
  flat c k l s s' a b ho ha hb h := by
    simpa [demo] using h

/-- A reached configuration with another method selected; one option (`theta`) is never set, so
it is not exported. -/
example : ∃ t, Reached demo 0 t ∧ demo.toTree t =
    [(["dt"], .val 7), (["fem"], .str "l2"), (["fem", "order"], .val 4)] := by
  refine ⟨.obj 0 [("dt", .leaf 7), ("fem", .obj 2 [("order", .leaf 4), ("theta", .leaf 0)])], ?_, ?_⟩
  · refine .update 1 [(["fem"], .str "l2"), (["fem", "order"], .val 4), (["dt"], .val 7)] _ _ .fresh
      (by simp [Ordered]) ?_ rfl
    intro e he
    simp only [List.mem_cons, List.not_mem_nil, or_false] at he
    rcases he with rfl | rfl | rfl <;> exact ⟨trivial, by simp, by simp⟩
  · simp [World.toTree, World.toTreeList, World.toTreeEntry, demo, demoLeaf, underKey]

/-! ## Streams -/

/-- Like `IOConfiguration` (dream/io.py:856-): class `0` has the streams `log` (on, class `1`
with the name `dream`) and `vtk` (off, class `2` with the name `vtk`). -/
def demoIO : World ℕ where
  nameOf c := if c = 0 then "io" else if c = 1 then "dream" else "vtk"
  opt c k :=
    if c = 0 then
      if k = "log" then some (.stream 1) else if k = "vtk" then some (.stream 2) else none
    else if k = "level" then some (.leaf demoLeaf) else none
  isA c c' := c = c'
  fresh c := if c = 0 then .obj 0 [("log", .obj 1 [("level", .leaf 3)])]
    else .obj c [("level", .leaf 3)]
  asBool v := if v = 0 then some false else if v = 1 then some true else none

/-- **C16 fails** with the log stream: its name `dream` is not the name `log` its setter accepts,
so the export of a new configuration can not be applied at all. -/
theorem C16_fails_log (n : ℕ) :
    demoIO.update (n + 1) (demoIO.fresh 0) (demoIO.toTree (demoIO.fresh 0)) =
      .error .valueError := by
  have h : demoIO.toTree (demoIO.fresh 0) =
      [(["log"], .str "dream"), (["log", "level"], .val 3)] := by
    simp [World.toTree, World.toTreeList, World.toTreeEntry, demoIO, demoLeaf, underKey]
  rw [h]
  rfl

/-- **C16 fails** for a stream which is off in a new configuration: `t` is `demoIO` with `log` off
and `vtk` on; in a configuration whose `log` is off, the exported keys of `vtk` are ignored and the
stream stays off. -/
theorem C16_fails_stream (n : ℕ) :
    ∃ s t, assignAt demoIO ["log"] (.val 0) (demoIO.fresh 0) = .ok s ∧
      World.assign demoIO (demoIO.update n) 0 [] "vtk" (.val 1) =
        .ok [("vtk", .obj 2 [("level", .leaf 3)])] ∧
      t = .obj 0 [("vtk", .obj 2 [("level", .leaf 3)])] ∧
      demoIO.update (n + 1) s (demoIO.toTree t) = .ok s ∧ s ≠ t := by
  refine ⟨.obj 0 [], .obj 0 [("vtk", .obj 2 [("level", .leaf 3)])], rfl, rfl, rfl, ?_, by simp⟩
  have h : demoIO.toTree (.obj 0 [("vtk", .obj 2 [("level", .leaf 3)])]) =
      [(["vtk"], .str "vtk"), (["vtk", "level"], .val 3)] := by
    simp [World.toTree, World.toTreeList, World.toTreeEntry, demoIO, demoLeaf, underKey]
  rw [h]
  rfl

end Dream
