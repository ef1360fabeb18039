import Verif.Model.Registry
import Verif.Lemmas.Dict

/-!
# C19: option names select exactly one implementation
-/

namespace Dream

/-- Outcome and effect of the registration loop. -/
theorem registerNames_spec (cls : ℕ) (ns : List Name) (L : Dict Name ℕ) :
    ((registerNames cls ns L).1 = .ok () ↔ (ns.map lower).Nodup ∧ ∀ n ∈ ns, lower n ∉ L.keys) ∧
    ((registerNames cls ns L).1 ≠ .ok () → (registerNames cls ns L).1 = .error .valueError) ∧
    (∀ m c, L.get? m = some c → (registerNames cls ns L).2.get? m = some c) ∧
    (∀ m c, (registerNames cls ns L).2.get? m = some c →
      L.get? m = some c ∨ (c = cls ∧ m ∈ ns.map lower)) ∧
    ((registerNames cls ns L).1 = .ok () →
      ∀ n ∈ ns, (registerNames cls ns L).2.get? (lower n) = some cls) := by
  induction ns generalizing L with
  | nil => simp [registerNames]
  | cons n ns ih =>
    unfold registerNames
    by_cases h : L.has (lower n) = true
    · have hk := Dict.has_iff.1 h
      rw [if_pos h]
      refine ⟨⟨fun hh => by (cases hh), fun hh => absurd hk (hh.2 n (by simp))⟩, fun _ => rfl,
        fun m c hm => hm, fun m c hm => .inl hm, fun hh => by (cases hh)⟩
    · rw [if_neg h]
      have hk : lower n ∉ L.keys := fun hh => h (Dict.has_iff.2 hh)
      obtain ⟨h1, h2, h3, h4, h5⟩ := ih (L.set (lower n) cls)
      have keys : (L.set (lower n) cls).keys = L.keys ++ [lower n] := by
        rw [Dict.keys_set, if_neg hk]
      refine ⟨?_, h2, ?_, ?_, ?_⟩
      · rw [h1, keys, List.map_cons, List.nodup_cons]
        constructor
        · rintro ⟨a, b⟩
          refine ⟨⟨?_, a⟩, ?_⟩
          · intro hm
            obtain ⟨m, hm1, hm2⟩ := List.mem_map.1 hm
            exact b m hm1 (by simp [hm2])
          · intro m hm
            rcases List.mem_cons.1 hm with rfl | hm
            · exact hk
            · exact fun hh => b m hm (by simp [hh])
        · rintro ⟨⟨a, b⟩, c⟩
          refine ⟨b, fun m hm hh => ?_⟩
          rcases List.mem_append.1 hh with hh | hh
          · exact c m (by simp [hm]) hh
          · exact a (List.mem_map.2 ⟨m, hm, by simpa using hh⟩)
      · intro m c hm
        refine h3 m c ?_
        rw [Dict.get?_set, if_neg ?_]
        · exact hm
        · rintro rfl
          exact hk (List.mem_map.2 ⟨_, Dict.mem_of_get? hm, rfl⟩)
      · intro m c hm
        rcases h4 m c hm with hh | ⟨rfl, hh⟩
        · rw [Dict.get?_set] at hh
          split_ifs at hh with hc
          · cases hh
            exact .inr ⟨rfl, by simp [hc]⟩
          · exact .inl hh
        · exact .inr ⟨rfl, by simp [hh]⟩
      · intro hok m hm
        rcases List.mem_cons.1 hm with rfl | hm
        · exact h3 _ _ (by rw [Dict.get?_set, if_pos rfl])
        · exact h5 hok m hm

/-- The name and aliases of a class statement, own or inherited. -/
def Registry.namesOf (R : Registry) (d : ClassDef) : List Name := (R.resolve d).1 :: (R.resolve d).2

theorem Registry.define_eq (R : Registry) (d : ClassDef) (hs : d.skip = false) :
    (R.define d).1 = (registerNames d.cls (R.namesOf d) R.leafs).1 ∧
    (R.define d).2.leafs = (registerNames d.cls (R.namesOf d) R.leafs).2 := by
  unfold Registry.define Registry.namesOf
  simp only [hs, Bool.false_eq_true, if_false]
  rcases h : registerNames d.cls ((R.resolve d).1 :: (R.resolve d).2) R.leafs with ⟨o, L⟩
  cases o <;> simp

/-- **C19** A class statement is accepted exactly if its names and aliases, in lower case, are
different from each other and from all names registered before; otherwise it raises `ValueError`.
If accepted, each of its names selects the class. -/
theorem C19_define (R : Registry) (d : ClassDef) (hs : d.skip = false) :
    ((R.define d).1 = .ok () ↔
      ((R.namesOf d).map lower).Nodup ∧ ∀ n ∈ R.namesOf d, lower n ∉ R.leafs.keys) ∧
    ((R.define d).1 ≠ .ok () → (R.define d).1 = .error .valueError) ∧
    ((R.define d).1 = .ok () →
      ∀ n ∈ R.namesOf d, (R.define d).2.leafs.get? (lower n) = some d.cls) := by
  obtain ⟨h1, h2⟩ := R.define_eq d hs
  obtain ⟨a, b, _, _, e⟩ := registerNames_spec d.cls (R.namesOf d) R.leafs
  rw [h1, h2]
  exact ⟨a, b, e⟩

theorem Registry.define_leafs (R : Registry) (d : ClassDef) (m : Name) (c : ℕ)
    (h : R.leafs.get? m = some c) : (R.define d).2.leafs.get? m = some c := by
  cases hs : d.skip with
  | true => simp only [Registry.define, hs, if_true]; exact h
  | false =>
    rw [(R.define_eq d hs).2]
    exact (registerNames_spec d.cls (R.namesOf d) R.leafs).2.2.1 m c h

/-- **C19** No later class statement, accepted or not, changes what a name selects. -/
theorem C19_stable (R : Registry) (ds : List ClassDef) (m : Name) (c : ℕ)
    (h : R.leafs.get? m = some c) : (R.defineAll ds).leafs.get? m = some c := by
  induction ds generalizing R with
  | nil => exact h
  | cons d ds ih => exact ih _ (R.define_leafs d m c h)

/-- **C19** A name selects a class only if that class listed it (or inherited it): after any
sequence of class statements, every registered name was introduced by a statement of the
sequence for the class it selects. -/
theorem C19_listed (R : Registry) (ds : List ClassDef) (m : Name) (c : ℕ)
    (h : (R.defineAll ds).leafs.get? m = some c) : R.leafs.get? m = some c ∨
      ∃ pre d post, ds = pre ++ d :: post ∧ d.cls = c ∧ d.skip = false ∧
        m ∈ ((R.defineAll pre).namesOf d).map lower := by
  induction ds generalizing R with
  | nil => exact .inl h
  | cons d ds ih =>
    rcases ih (R.define d).2 h with hh | ⟨pre, e, post, rfl, h1, h2, h3⟩
    · cases hs : d.skip with
      | true =>
        left
        simpa only [Registry.define, hs, if_true] using hh
      | false =>
        rw [(R.define_eq d hs).2] at hh
        rcases (registerNames_spec d.cls (R.namesOf d) R.leafs).2.2.2.1 m c hh with h' | ⟨h', h''⟩
        · exact .inl h'
        · exact .inr ⟨[], d, ds, rfl, h'.symm, hs, h''⟩
    · exact .inr ⟨d :: pre, e, post, rfl, h1, h2, h3⟩

/-- **C19** Selecting by name: an unknown name raises `TypeError` and changes nothing; the name
of the current class keeps the object; the name of a class that the object is no instance of
replaces it by a new object of that class. -/
theorem C19_select (R : Registry) (s : Selected) (v : Name) :
    (R.leafs.get? v = none → R.select s v = (.error .typeError, s)) ∧
    (∀ k, R.leafs.get? v = some k → R.isA s.cls k = true → R.select s v = (.ok (), s)) ∧
    (∀ k, R.leafs.get? v = some k → R.isA s.cls k = false →
      (R.select s v).1 = .ok () ∧ (R.select s v).2.cls = k ∧ (R.select s v).2.obj = s.next) := by
  refine ⟨fun h => ?_, fun k h hi => ?_, fun k h hi => ?_⟩
  · simp [Registry.select, h]
  · simp [Registry.select, h, hi]
  · simp [Registry.select, h, hi]

/-- **C19** An object that has been replaced does not come back: after any history, the object after
one more selection is the present one or none of those that were there before. -/
theorem C19_new_objects (R : Registry) (s : Selected) (hs : s.obj < s.next) (h : List Name) (v : Name) :
    (R.select (R.selectAll s h) v).2.obj = (R.selectAll s h).obj ∨
      ∀ h₁, h₁ <+: h → (R.select (R.selectAll s h) v).2.obj ≠ (R.selectAll s h₁).obj := by
  have step : ∀ (s : Selected) v, s.obj < s.next → s.next ≤ (R.select s v).2.next ∧
      (R.select s v).2.obj < (R.select s v).2.next := by
    intro s v h
    unfold Registry.select
    split
    · exact ⟨le_rfl, h⟩
    · split_ifs
      · exact ⟨le_rfl, h⟩
      · exact ⟨Nat.le_succ _, Nat.lt_succ_self _⟩
  have all : ∀ (l : List Name) (s : Selected), s.obj < s.next → s.next ≤ (R.selectAll s l).next ∧
      (R.selectAll s l).obj < (R.selectAll s l).next := by
    intro l
    induction l with
    | nil => exact fun s h => ⟨le_rfl, h⟩
    | cons v l ih =>
      intro s h
      obtain ⟨h1, h2⟩ := step s v h
      obtain ⟨h3, h4⟩ := ih _ h2
      exact ⟨h1.trans h3, h4⟩
  by_cases hn : (R.select (R.selectAll s h) v).2.obj = (R.selectAll s h).next
  · refine .inr fun h₁ hp => ?_
    obtain ⟨h₂, rfl⟩ := hp
    have e : R.selectAll s (h₁ ++ h₂) = R.selectAll (R.selectAll s h₁) h₂ := List.foldl_append ..
    have a1 := all h₁ s hs
    have a2 := all h₂ _ a1.2
    rw [hn, e]
    omega
  · left
    unfold Registry.select at hn ⊢
    split
    · rfl
    · rename_i k hk
      simp only [hk] at hn
      split_ifs at hn ⊢
      · rfl
      · exact absurd rfl hn

/-- C19, concrete instance: going from the first scheme to the second and back gives a third object. -/
example : ((Registry.root.defineAll [⟨1, 0, some "ie".toList, none, false⟩,
      ⟨2, 0, some "bdf2".toList, none, false⟩]).selectAll ⟨1, 0, 1⟩ ["bdf2".toList, "ie".toList]).obj = 2 ∧
    (⟨1, 0, 1⟩ : Selected).obj < (⟨1, 0, 1⟩ : Selected).next := by
  decide +kernel

/-- The class of the last known name of a history. -/
def Spec.lastKnown (leafs : Name → Option ℕ) : List Name → ℕ → ℕ
  | [], c => c
  | v :: h, c => Spec.lastKnown leafs h ((leafs v).getD c)

/-- **C19** If no selectable class derives from another selectable class, then after any history of
selections the implementation is the one of the last known name. Missing: see `C19_fails_derived`. -/
theorem C19_history_partial (R : Registry) (s : Selected)
    (flat : ∀ v c v' c', R.leafs.get? v = some c → R.leafs.get? v' = some c' →
      (R.isA c c' = true ↔ c = c'))
    (hs : ∃ v, R.leafs.get? v = some s.cls) (h : List Name) :
    (R.selectAll s h).cls = Spec.lastKnown R.leafs.get? h s.cls := by
  induction h generalizing s with
  | nil => rfl
  | cons v h ih =>
    obtain ⟨v0, h0⟩ := hs
    unfold Spec.lastKnown
    show (R.selectAll (R.select s v).2 h).cls = _
    cases hv : R.leafs.get? v with
    | none =>
      rw [(C19_select R s v).1 hv]
      exact ih s ⟨v0, h0⟩
    | some k =>
      cases hi : R.isA s.cls k with
      | true =>
        rw [(C19_select R s v).2.1 k hv hi]
        have : s.cls = k := (flat v0 s.cls v k h0 hv).1 hi
        rw [Option.getD_some, ← this]
        exact ih s ⟨v0, h0⟩
      | false =>
        obtain ⟨_, h2, _⟩ := (C19_select R s v).2.2 k hv hi
        rw [ih _ ⟨v, by rw [h2]; exact hv⟩, h2]
        rfl

/-- **C19 fails**: if the current class derives from the named one, naming the latter keeps the
former. -/
theorem C19_fails_derived (R : Registry) (s : Selected) (v : Name) (k : ℕ)
    (h : R.leafs.get? v = some k) (hd : R.isA s.cls k = true) (hne : s.cls ≠ k) :
    (R.select s v).1 = .ok () ∧ (R.select s v).2.cls ≠ k := by
  rw [(C19_select R s v).2.1 k h hd]
  exact ⟨rfl, hne⟩

/-- **C19 fails**: a class derived from a registered class that has aliases, with a name of its
own but no aliases of its own, is always refused, since it inherits the aliases; its name stays
registered nevertheless (if it was free). -/
theorem C19_fails_inherited_alias (R : Registry) (d : ClassDef) (n a : Name) (as : List Name)
    (hs : d.skip = false) (hn : d.name = some n) (ha : d.aliases = none)
    (hp : ∃ pn, R.attrs.get? d.parent = some (pn, a :: as)) (hreg : lower a ∈ R.leafs.keys)
    (hfree : lower n ∉ R.leafs.keys) :
    (R.define d).1 = .error .valueError ∧ (R.define d).2.leafs.get? (lower n) = some d.cls := by
  obtain ⟨pn, hp⟩ := hp
  have hnames : R.namesOf d = n :: a :: as := by
    simp [Registry.namesOf, Registry.resolve, hp, hn, ha]
  obtain ⟨h1, h2⟩ := R.define_eq d hs
  rw [h1, h2, hnames]
  have hf : R.leafs.has (lower n) = false := by
    rw [← Bool.not_eq_true, Dict.has_iff]; exact hfree
  have ht : (R.leafs.set (lower n) d.cls).has (lower a) = true := by
    rw [Dict.has_iff, Dict.keys_set, if_neg hfree]
    simp [hreg]
  simp only [registerNames, hf, ht, Bool.false_eq_true, if_false, if_true]
  exact ⟨trivial, by rw [Dict.get?_set, if_pos rfl]⟩

/-- **C19** Names are registered in lower case and looked up as they are: a name with an upper
case letter is never known. -/
theorem C19_lower_case (ds : List ClassDef) (m : Name) (c : ℕ)
    (h : (Registry.root.defineAll ds).leafs.get? m = some c) : ∃ n, m = lower n := by
  rcases C19_listed _ ds m c h with h | ⟨pre, d, post, _, _, _, h⟩
  · simp [Registry.root, Dict.get?] at h
  · obtain ⟨n, _, rfl⟩ := List.mem_map.1 h
    exact ⟨n, rfl⟩

theorem Registry.root_attrs (ds : List ClassDef) (h : ∀ d ∈ ds, d.cls ≠ 0) :
    (Registry.root.defineAll ds).attrs.get? 0 = some (lower "InterfaceConfiguration".toList, []) := by
  have key : ∀ R : Registry, R.attrs.get? 0 = some (lower "InterfaceConfiguration".toList, []) →
      (R.defineAll ds).attrs.get? 0 = some (lower "InterfaceConfiguration".toList, []) := by
    induction ds with
    | nil => exact fun R h0 => h0
    | cons d ds ih =>
      intro R h0
      refine ih (fun e he => h e (List.mem_cons_of_mem _ he)) _ ?_
      have hd := h d List.mem_cons_self
      unfold Registry.define
      dsimp only
      split
      · exact h0
      · rw [Dict.get?_set, if_neg (Ne.symm hd)]
        exact h0
  exact key _ rfl

/-- **C19 fails**: a class that derives from the interface and has no name of its own is not
registered under the name of the class; all such classes share one name, so that only the first of
them is accepted, in every interface and whatever else was defined before. -/
theorem C19_fails_unnamed (ds : List ClassDef) (h : ∀ d ∈ ds, d.cls ≠ 0) (d : ClassDef)
    (hd : d.skip = false) (hp : d.parent = 0) (hn : d.name = none) (ha : d.aliases = none) :
    (Registry.root.defineAll ds).namesOf d = [lower "InterfaceConfiguration".toList] ∧
    ∀ e : ClassDef, e.skip = false → e.parent = 0 → e.name = none → e.aliases = none → d.cls ≠ 0 →
      ((Registry.root.defineAll (ds ++ [d])).define e).1 = .error .valueError := by
  have names : ∀ (ds : List ClassDef), (∀ d ∈ ds, d.cls ≠ 0) → ∀ d : ClassDef, d.parent = 0 →
      d.name = none → d.aliases = none →
      (Registry.root.defineAll ds).namesOf d = [lower "InterfaceConfiguration".toList] := by
    intro ds h d hp hn ha
    simp [Registry.namesOf, Registry.resolve, hp, hn, ha, Registry.root_attrs ds h]
  refine ⟨names ds h d hp hn ha, fun e he hpe hne hae hd0 => ?_⟩
  have h' : ∀ e ∈ ds ++ [d], e.cls ≠ 0 := fun e he => by
    rcases List.mem_append.1 he with he | he
    · exact h e he
    · rw [List.mem_singleton.1 he]; exact hd0
  have hne' := names (ds ++ [d]) h' e hpe hne hae
  obtain ⟨h1, h2, -⟩ := C19_define (Registry.root.defineAll (ds ++ [d])) e he
  refine h2 fun hok => ?_
  refine (h1.1 hok).2 _ (by rw [hne']; exact List.mem_singleton_self _) ?_
  have hD : Registry.root.defineAll (ds ++ [d]) = ((Registry.root.defineAll ds).define d).2 := by
    simp [Registry.defineAll]
  obtain ⟨g1, -, g3⟩ := C19_define (Registry.root.defineAll ds) d hd
  have hmem : ∀ {L : Dict Name ℕ} {m : Name} {c : ℕ}, L.get? m = some c → m ∈ L.keys := by
    intro L m c hm
    by_contra hc
    rw [Dict.get?_eq_none.2 hc] at hm
    cases hm
  rw [hD]
  by_cases hk : ((Registry.root.defineAll ds).define d).1 = .ok ()
  · have := g3 hk _ (by rw [names ds h d hp hn ha]; exact List.mem_singleton_self _)
    exact hmem this
  · have : lower (lower "InterfaceConfiguration".toList) ∈ (Registry.root.defineAll ds).leafs.keys := by
      by_contra hc
      refine hk (g1.2 ⟨?_, fun n hn' => ?_⟩)
      · rw [names ds h d hp hn ha]; simp
      · rw [names ds h d hp hn ha] at hn'
        rw [List.mem_singleton.1 hn']
        exact hc
    cases hc : (Registry.root.defineAll ds).leafs.get? (lower (lower "InterfaceConfiguration".toList)) with
    | none => exact absurd this (Dict.get?_eq_none.1 hc)
    | some c => exact hmem ((Registry.root.defineAll ds).define_leafs d _ c hc)

/-- C19, concrete instance: two schemes without a name; the second is refused. -/
example : ((Registry.root.defineAll [⟨1, 0, some "bdf2".toList, none, false⟩,
    ⟨2, 0, none, none, false⟩]).define ⟨3, 0, none, none, false⟩).1 = .error .valueError :=
  (C19_fails_unnamed [⟨1, 0, some "bdf2".toList, none, false⟩] (by simp) ⟨2, 0, none, none, false⟩ rfl
    rfl rfl rfl).2 ⟨3, 0, none, none, false⟩ rfl rfl rfl rfl (by simp)

/-- The class statements of an interface whose classes register the given names. -/
def Spec.defsOf (names : List (List String)) : List ClassDef :=
  names.zipIdx.map fun (ns, i) =>
    { cls := i + 1, parent := 0, name := ns.head?.map String.toList,
      aliases := some (ns.tail.map String.toList) }

/-- **C19** In every interface of the package, all class statements are accepted and every
name selects the class that lists it. -/
theorem C19_package : ∀ names ∈ repoRegistrations, ∀ x ∈ names.zipIdx, ∀ n ∈ x.1,
    (Registry.root.defineAll (Spec.defsOf names)).leafs.get? n.toList =
      some (x.2 + 1) := by
  decide +kernel

/-- Non-vacuity of `C19_history_partial` and `C19_fails_inherited_alias`: the time schemes. -/
example : ∃ R : Registry, R = Registry.root.defineAll
      (Spec.defsOf [["implicit_euler", "ie"], ["bdf2"]]) ∧
    R.leafs.keys = ["implicit_euler".toList, "ie".toList, "bdf2".toList] ∧
    R.isA 1 2 = false ∧ R.isA 2 1 = false ∧ R.isA 1 1 = true ∧
    R.attrs.get? 1 = some ("implicit_euler".toList, ["ie".toList]) := by
  refine ⟨_, rfl, ?_⟩
  decide +kernel

end Dream
