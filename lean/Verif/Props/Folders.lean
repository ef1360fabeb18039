import Verif.Model.Folders
import Verif.Lemmas.Dict
import Mathlib.Data.List.Infix

/-!
# C13: moving folders
-/

namespace Dream

/-- What moving a folder from `old` to `new` should do to another folder: one strictly
below `old` keeps its relative position, all others stay. -/
def Spec.moved (old new : APath) (p : APath) : APath :=
  if old <+: p ∧ p ≠ old then new ++ p.drop old.length else p

/-- The loop walks up from a folder below `old` and collects the components. -/
theorem relLoop_append (old a : APath) (name : List String) (fuel : ℕ) (hf : a.length < fuel) :
    relLoop old fuel (old ++ a) name = some (a ++ name) := by
  induction fuel generalizing a name with
  | zero => omega
  | succ fuel ih =>
    rw [relLoop]
    rcases List.eq_nil_or_concat' a with rfl | ⟨b, x, rfl⟩
    · simp
    · have hne : old ++ (b ++ [x]) ≠ old := by
        intro h
        have := congrArg List.length h
        simp at this
      rw [if_pos hne]
      have e1 : parentPath (old ++ (b ++ [x])) = old ++ b := by
        rw [← List.append_assoc]; simp [parentPath]
      have e2 : namePath (old ++ (b ++ [x])) = [x] := by
        rw [← List.append_assoc]; simp [namePath]
      rw [e1, e2, ih b ([x] ++ name) (by simp at hf; omega)]
      simp

/-- Starting above or beside `old` the loop never ends. -/
theorem relLoop_diverges (old parent : APath) (name : List String) (fuel : ℕ)
    (h : ¬ old <+: parent) : relLoop old fuel parent name = none := by
  induction fuel generalizing parent name with
  | zero => rfl
  | succ fuel ih =>
    rw [relLoop, if_pos (by rintro rfl; exact h (List.prefix_refl _))]
    exact ih _ _ fun hp => h (hp.trans (List.dropLast_prefix _))

theorem relocate_ok (fuel : ℕ) (old new p : APath) (h1 : p ≠ new ∨ ¬ (old <+: p ∧ p ≠ old))
    (h2 : p = old → p = new ∨ old = []) (hf : p.length < fuel) :
    relocate fuel old new p = some (if p = old ∧ p ≠ new then new else Spec.moved old new p) := by
  unfold relocate Spec.moved
  by_cases hn : p = new
  · rw [if_pos hn, if_neg (by tauto), if_neg (by tauto)]
  · rw [if_neg hn]
    by_cases hp : old <+: p
    · rw [if_pos hp]
      by_cases he : p = old
      · have ho := (h2 he).resolve_left hn
        subst he
        rw [if_pos ⟨rfl, hn⟩, ho]
        obtain ⟨f, rfl⟩ : ∃ f, fuel = f + 1 := ⟨fuel - 1, by omega⟩
        simp [relLoop, parentPath, namePath]
      · rw [if_neg (by tauto), if_pos ⟨hp, he⟩]
        obtain ⟨a, rfl⟩ := hp
        rcases List.eq_nil_or_concat' a with rfl | ⟨b, x, rfl⟩
        · simp at he
        · have e1 : parentPath (old ++ (b ++ [x])) = old ++ b := by
            rw [← List.append_assoc]; simp [parentPath]
          have e2 : namePath (old ++ (b ++ [x])) = [x] := by
            rw [← List.append_assoc]; simp [namePath]
          rw [e1, e2, relLoop_append old b [x] fuel (by simp at hf; omega)]
          simp
    · rw [if_neg hp, if_neg (by rintro ⟨rfl, _⟩; exact hp (List.prefix_refl _)), if_neg (by tauto)]

theorem mapM_option {α β} (l : List α) (f : α → Option β) (g : α → β)
    (h : ∀ a ∈ l, f a = some (g a)) : l.mapM f = some (l.map g) := by
  induction l with
  | nil => rfl
  | cons a l ih =>
    rw [List.mapM_cons, h a (by simp), ih fun b hb => h b (by simp [hb])]
    rfl

theorem get?_map_snd {κ α β} [DecidableEq κ] (d : Dict κ α) (g : α → β) (k : κ) :
    Dict.get? (d.map fun kv => (kv.1, g kv.2)) k = (d.get? k).map g := by
  unfold Dict.get?
  induction d with
  | nil => rfl
  | cons a d ih =>
    rw [List.map_cons, List.find?_cons, List.find?_cons]
    by_cases h : a.1 = k
    · simp [h]
    · simp only [h, decide_false]
      exact ih

/-- **C13** Assigning a relative path to a folder, when no other folder coincides with the
old or the new location: the assignment ends, the folder becomes root/path, every folder
strictly below the old location keeps its relative position below the new one, and all
other folders are unchanged. -/
theorem C13_relative_partial (cwd : APath) (d : Folders) (hd : d.keys.Nodup) (key : String)
    (root old : APath) (r : List String) (hroot : d.get? "root" = some root)
    (hold : d.get? key = some old)
    (hother : ∀ k p, k ≠ key → d.get? k = some p → p ≠ old ∧ p ≠ root ++ r) :
    ∃ F, ∀ fuel ≥ F, ∃ d', folderSet fuel cwd d key (.rel r) = some (.ok d') ∧
      d'.get? key = some (root ++ r) ∧ d'.keys = d.keys ∧
      ∀ k, k ≠ key → d'.get? k = (d.get? k).map (Spec.moved old (root ++ r)) := by
  set new := root ++ r with hnew
  have hk : key ∈ d.keys := by
    by_contra h
    rw [Dict.get?_eq_none.2 h] at hold; simp at hold
  have hnd' := Dict.nodup_set hd key new
  -- a bound for all path lengths
  obtain ⟨F, hF⟩ : ∃ F, ∀ kv ∈ d.set key new, kv.2.length < F :=
    ⟨((d.set key new).map fun kv => kv.2.length).sum + 1, fun kv hkv => by
      have := List.single_le_sum (l := (d.set key new).map fun kv => kv.2.length)
        (fun _ _ => Nat.zero_le _) _ (List.mem_map.2 ⟨kv, hkv, rfl⟩)
      omega⟩
  refine ⟨F, fun fuel hfuel => ?_⟩
  have hmem : ∀ kv ∈ d.set key new, (relocate fuel old new kv.2).map (fun q => (kv.1, q)) =
      some (kv.1, if kv.1 = key then new else Spec.moved old new kv.2) := by
    intro kv hkv
    obtain ⟨k, p⟩ := kv
    have hg := Dict.get?_of_mem hnd' hkv
    rw [Dict.get?_set] at hg
    by_cases hkk : k = key
    · rw [if_pos hkk] at hg
      have hp : p = new := (Option.some.inj hg).symm
      simp [relocate, hkk, hp]
    · rw [if_neg hkk] at hg
      obtain ⟨h1, h2⟩ := hother k p hkk hg
      have := relocate_ok fuel old new p (.inl h2) (fun h => absurd h h1)
        (lt_of_lt_of_le (hF _ hkv) hfuel)
      simp only
      rw [this, if_neg hkk, if_neg (by tauto)]
      rfl
  have hmapM := mapM_option _ _ _ hmem
  refine ⟨(d.set key new).map fun kv =>
    (kv.1, if kv.1 = key then new else Spec.moved old new kv.2), ?_, ?_, ?_, ?_⟩
  · unfold folderSet
    simp only [hroot, hold, ← hnew]
    rw [hmapM]
    rfl
  · have : ∀ (l : Folders), key ∈ l.keys →
        Dict.get? (l.map fun kv => (kv.1, if kv.1 = key then new else Spec.moved old new kv.2)) key
          = some new := by
      intro l
      induction l with
      | nil => intro h; simp [Dict.keys] at h
      | cons a l ih =>
        intro h
        by_cases ha : a.1 = key
        · simp [Dict.get?, ha]
        · have h' : key ∈ Dict.keys l := by
            have hc : key = a.1 ∨ key ∈ Dict.keys l := by simpa [Dict.keys] using h
            exact hc.resolve_left fun e => ha e.symm
          have := ih h'
          simp only [Dict.get?, List.map_cons, List.find?_cons, ha, decide_false] at this ⊢
          exact this
    apply this
    rw [Dict.keys_set, if_pos hk]; exact hk
  · simp only [Dict.keys, List.map_map]
    have := Dict.keys_set d key new
    rw [if_pos hk] at this
    simpa [Dict.keys, Function.comp_def] using this
  · intro k hkk
    have : ∀ (l : Folders),
        Dict.get? (l.map fun kv => (kv.1, if kv.1 = key then new else Spec.moved old new kv.2)) k
          = (Dict.get? l k).map (Spec.moved old new) := by
      intro l
      induction l with
      | nil => rfl
      | cons a l ih =>
        by_cases ha : a.1 = k
        · have : ¬ k = key := hkk
          simp [Dict.get?, ha, this]
        · simp only [Dict.get?, List.map_cons, List.find?_cons, ha, decide_false] at ih ⊢
          exact ih
    rw [this, Dict.get?_set, if_neg hkk]

/-- **C13** Assigning an absolute path (or `None`, the current directory) changes that
folder only and always ends. -/
theorem C13_absolute (fuel : ℕ) (cwd a : APath) (d : Folders) (key : String) :
    (∃ d', folderSet fuel cwd d key (.abs a) = some (.ok d') ∧
      ∀ k, d'.get? k = if k = key then some a else d.get? k) ∧
    ∃ d', folderSet fuel cwd d key .none = some (.ok d') ∧
      ∀ k, d'.get? k = if k = key then some cwd else d.get? k :=
  ⟨⟨_, rfl, fun k => Dict.get?_set d key a k⟩, ⟨_, rfl, fun k => Dict.get?_set d key cwd k⟩⟩

theorem mapM_option_none {α β} (l : List α) (f : α → Option β) (a : α) (ha : a ∈ l)
    (h : f a = none) : l.mapM f = none := by
  induction l with
  | nil => simp at ha
  | cons b l ih =>
    rw [List.mapM_cons]
    rcases List.mem_cons.1 ha with rfl | ha
    · rw [h]; rfl
    · rw [ih ha]
      cases f b <;> rfl

/-- **C13 fails** (never ends) whenever another folder coincides with the old location of
the folder that is moved. -/
theorem C13_fails_never_ends (cwd : APath) (d : Folders) (key k : String)
    (root old : APath) (r : List String) (hroot : d.get? "root" = some root)
    (hold : d.get? key = some old) (hk : k ≠ key) (hsame : d.get? k = some old)
    (hne : old ≠ root ++ r) (hold' : old ≠ []) (fuel : ℕ) :
    folderSet fuel cwd d key (.rel r) = none := by
  unfold folderSet
  simp only [hroot, hold]
  rw [mapM_option_none _ _ (k, old)]
  · rfl
  · apply Dict.mem_of_get?
    rw [Dict.get?_set, if_neg hk, hsame]
  · unfold relocate
    rw [if_neg hne, if_pos (List.prefix_refl _), relLoop_diverges]
    · rfl
    · intro h
      have := h.length_le
      have h2 : 0 < old.length := List.length_pos_iff.2 hold'
      simp [parentPath] at this
      omega

theorem relLoop_mono (old parent : APath) (name x : List String) (fuel m : ℕ)
    (h : relLoop old fuel parent name = some x) : relLoop old (fuel + m) parent name = some x := by
  induction fuel generalizing parent name with
  | zero => cases h
  | succ fuel ih =>
    rw [Nat.succ_add]
    rw [relLoop] at h ⊢
    split_ifs at h ⊢ with hc
    · exact ih _ _ h
    · exact h

theorem relocate_mono (old new p q : APath) (fuel m : ℕ) (h : relocate fuel old new p = some q) :
    relocate (fuel + m) old new p = some q := by
  unfold relocate at h ⊢
  split_ifs at h ⊢
  · exact h
  · obtain ⟨x, hx, rfl⟩ := Option.map_eq_some_iff.1 h
    rw [relLoop_mono _ _ _ _ _ m hx]
    rfl
  · exact h

/-- Where a folder goes (helper). -/
theorem relocate_some (old new p q : APath) (fuel : ℕ) (h : relocate fuel old new p = some q) :
    (p = old → p = new ∨ old = []) ∧
      q = if p = new then p else if p = old then new else Spec.moved old new p := by
  have bad : p = old → p = new ∨ old = [] := by
    rintro rfl
    by_contra hc
    push Not at hc
    unfold relocate at h
    rw [if_neg hc.1, if_pos (List.prefix_refl _), relLoop_diverges] at h
    · cases h
    · intro h'
      have := h'.length_le
      have h2 : 0 < p.length := List.length_pos_iff.2 hc.2
      simp [parentPath] at this
      omega
  refine ⟨bad, ?_⟩
  by_cases hn : p = new
  · unfold relocate at h
    rw [if_pos hn] at h
    rw [if_pos hn]
    exact (Option.some.inj h).symm
  · have h1 := relocate_mono old new p q fuel (p.length + 1) h
    rw [relocate_ok (fuel + (p.length + 1)) old new p (.inl hn) bad (by omega)] at h1
    rw [if_neg hn, ← Option.some.inj h1]
    by_cases ho : p = old
    · rw [if_pos ⟨ho, hn⟩, if_pos ho]
    · rw [if_neg (by tauto), if_neg ho]

/-- **C13** When an assignment of a relative path ends: exactly if no other folder coincides with the
old location, or nothing moves, or the old location is the root of the file system. -/
theorem C13_ends_iff (cwd : APath) (d : Folders) (hd : d.keys.Nodup) (key : String)
    (root old : APath) (r : List String) (hroot : d.get? "root" = some root)
    (hold : d.get? key = some old) :
    (∃ fuel d', folderSet fuel cwd d key (.rel r) = some (.ok d')) ↔
      (∃ k, k ≠ key ∧ d.get? k = some old) → old = root ++ r ∨ old = [] := by
  constructor
  · rintro ⟨fuel, d', h⟩ ⟨k, hk, hs⟩
    by_contra hc
    push Not at hc
    rw [C13_fails_never_ends cwd d key k root old r hroot hold hk hs hc.1 hc.2 fuel] at h
    cases h
  · intro hall
    obtain ⟨F, hF⟩ : ∃ F, ∀ kv ∈ d.set key (root ++ r), kv.2.length < F :=
      ⟨((d.set key (root ++ r)).map fun kv => kv.2.length).sum + 1, fun kv hkv => by
        have := List.single_le_sum (l := (d.set key (root ++ r)).map fun kv => kv.2.length)
          (fun _ _ => Nat.zero_le _) _ (List.mem_map.2 ⟨kv, hkv, rfl⟩)
        omega⟩
    refine ⟨F, (d.set key (root ++ r)).map fun kv : String × APath => (kv.1, if kv.2 = root ++ r then kv.2
      else if kv.2 = old ∧ kv.2 ≠ root ++ r then root ++ r else Spec.moved old (root ++ r) kv.2), ?_⟩
    unfold folderSet
    simp only [hroot, hold]
    rw [mapM_option _ _ (fun kv : String × APath => (kv.1, if kv.2 = root ++ r then kv.2 else
      if kv.2 = old ∧ kv.2 ≠ root ++ r then root ++ r else Spec.moved old (root ++ r) kv.2))]
    · rfl
    · rintro ⟨k, p⟩ hkv
      simp only
      by_cases hn : p = root ++ r
      · rw [if_pos hn]; unfold relocate; rw [if_pos hn]; rfl
      · rw [if_neg hn, relocate_ok F old (root ++ r) p (.inl hn) ?_ (hF _ hkv)]
        · rfl
        · intro ho
          have hg := Dict.get?_of_mem (Dict.nodup_set hd key (root ++ r)) hkv
          rw [Dict.get?_set] at hg
          by_cases hk : k = key
          · rw [if_pos hk] at hg
            exact absurd (Option.some.inj hg).symm hn
          · rw [if_neg hk, ho] at hg
            rw [ho]
            exact hall ⟨k, hk, hg⟩

/-- **C13** What every assignment of a relative path that ends does, without assumptions on the other
folders: a folder that is already at the new location stays there, one at the old location (which must
then be the root of the file system) goes to the new one, those strictly below the old location keep their
relative position, all others stay. -/
theorem C13_effect (fuel : ℕ) (cwd : APath) (d d' : Folders) (key : String)
    (root old : APath) (r : List String) (hroot : d.get? "root" = some root)
    (hold : d.get? key = some old) (h : folderSet fuel cwd d key (.rel r) = some (.ok d')) :
    d'.get? key = some (root ++ r) ∧ d'.keys = d.keys ∧
      ∀ k, k ≠ key → d'.get? k = (d.get? k).map fun p =>
        if p = root ++ r then p else if p = old then root ++ r else Spec.moved old (root ++ r) p := by
  have hk : key ∈ d.keys := by
    by_contra h
    rw [Dict.get?_eq_none.2 h] at hold; simp at hold
  unfold folderSet at h
  simp only [hroot, hold] at h
  obtain ⟨l, hl, e⟩ := Option.map_eq_some_iff.1 h
  obtain rfl := Except.ok.inj e
  have hmem : ∀ kv ∈ d.set key (root ++ r),
      (relocate fuel old (root ++ r) kv.2).map (fun q => (kv.1, q)) = some (kv.1,
        (fun p => if p = root ++ r then p else if p = old then root ++ r else
          Spec.moved old (root ++ r) p) kv.2) := by
    intro kv hkv
    cases hq : relocate fuel old (root ++ r) kv.2 with
    | none =>
      rw [mapM_option_none _ _ kv hkv (by simp only [hq]; rfl)] at hl
      cases hl
    | some q => rw [(relocate_some _ _ _ _ _ hq).2]; rfl
  rw [mapM_option _ _ _ hmem] at hl
  obtain rfl := Option.some.inj hl
  refine ⟨?_, ?_, fun k hkk => ?_⟩
  · refine (get?_map_snd _ (fun p => if p = root ++ r then p else if p = old then root ++ r else
      Spec.moved old (root ++ r) p) key).trans ?_
    rw [Dict.get?_set, if_pos rfl]
    simp
  · simp only [Dict.keys, List.map_map]
    have := Dict.keys_set d key (root ++ r)
    rw [if_pos hk] at this
    simpa [Dict.keys, Function.comp_def] using this
  · refine (get?_map_snd _ (fun p => if p = root ++ r then p else if p = old then root ++ r else
      Spec.moved old (root ++ r) p) k).trans ?_
    rw [Dict.get?_set, if_neg hkk]

/-- **C13 fails**: such a state is reached by three ordinary assignments: after
`states = "out"`, `vtk = "out"`, the assignment `states = "new"` never returns. -/
theorem C13_fails_reachable (cwd : APath) : ∃ d1 d2,
    (∀ fuel, folderSet (fuel + cwd.length + 3) cwd (Folders.init cwd) "states" (.rel ["out"]) =
      some (.ok d1)) ∧
    (∀ fuel, folderSet (fuel + cwd.length + 3) cwd d1 "vtk" (.rel ["out"]) = some (.ok d2)) ∧
    ∀ fuel, folderSet fuel cwd d2 "states" (.rel ["new"]) = none := by
  have hx : ∀ (x y : String), x ≠ y → ¬ (cwd ++ [x] <+: cwd ++ [y]) := by
    intro x y hxy h
    have := (List.prefix_append_right_inj _).1 h
    simp at this
    exact hxy this
  have hc : ∀ x : String, ¬ (cwd ++ [x] <+: cwd) := by
    intro x h
    have := h.length_le
    simp at this
  refine ⟨[("root", cwd), ("states", cwd ++ ["out"]), ("vtk", cwd ++ ["vtk"]),
   ("settings", cwd ++ ["cfg"]), ("sensors", cwd ++ ["sensors"])],
   [("root", cwd), ("states", cwd ++ ["out"]), ("vtk", cwd ++ ["out"]),
   ("settings", cwd ++ ["cfg"]), ("sensors", cwd ++ ["sensors"])], ?_, ?_, ?_⟩
  · intro fuel
    simp [folderSet, Folders.init, Dict.get?, Dict.set, Dict.has, relocate, hx, hc]
  · intro fuel
    simp [folderSet, Dict.get?, Dict.set, Dict.has, relocate, hx, hc]
  · intro fuel
    exact C13_fails_never_ends cwd _ "states" "vtk" cwd (cwd ++ ["out"]) ["new"]
      rfl rfl (by decide) rfl (by simp) (by simp) fuel

/-- **C13 fails**: a folder that coincides with the new location stays where it is
instead of keeping its position below the moved folder: with the default folders,
`root = "states"` leaves `states` equal to the new root. -/
theorem C13_fails_same_place (cwd : APath) : ∃ F, ∀ fuel ≥ F, ∃ d',
    folderSet fuel cwd (Folders.init cwd) "root" (.rel ["states"]) = some (.ok d') ∧
    d'.get? "root" = some (cwd ++ ["states"]) ∧ d'.get? "states" = some (cwd ++ ["states"]) ∧
    d'.get? "vtk" = some (cwd ++ ["states", "vtk"]) := by
  refine ⟨cwd.length + 3, fun fuel hf => ?_⟩
  have hl : ∀ x : String, relLoop cwd fuel cwd [x] = some [x] := fun x => by
    have := relLoop_append cwd [] [x] fuel (by simp; omega)
    simpa using this
  refine ⟨[("root", cwd ++ ["states"]), ("states", cwd ++ ["states"]),
    ("vtk", cwd ++ ["states", "vtk"]), ("settings", cwd ++ ["states", "cfg"]),
    ("sensors", cwd ++ ["states", "sensors"])], ?_, rfl, rfl, rfl⟩
  simp [folderSet, Folders.init, Dict.get?, Dict.set, Dict.has, relocate, parentPath, namePath, hl]

/-- Non-vacuity of `C13_relative_partial`: the default folders with one more folder two
levels below the states folder. -/
example : ∃ (d : Folders) (root old : APath), d.keys.Nodup ∧ d.get? "root" = some root ∧
    d.get? "states" = some old ∧
    (∀ k p, k ≠ "states" → d.get? k = some p → p ≠ old ∧ p ≠ root ++ ["out"]) ∧
    d.get? "vtk" = some (old ++ ["a", "b"]) := by
  refine ⟨[("root", ["w"]), ("states", ["w", "states"]), ("vtk", ["w", "states", "a", "b"])],
    ["w"], ["w", "states"], by decide, rfl, rfl, ?_, rfl⟩
  intro k p hk hp
  have := Dict.mem_of_get? hp
  simp at this
  rcases this with ⟨rfl, rfl⟩ | ⟨rfl, rfl⟩ | ⟨rfl, rfl⟩
  · decide
  · exact absurd rfl hk
  · decide

end Dream
