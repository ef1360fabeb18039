import Verif.Spec.Conditions
import Verif.Lemmas.Dict

/-!
# C46: region patterns; C36: conditions of regions; C37: grouping by pattern;
C38: dispatch to formulations
-/

namespace Dream
open Spec

/-! ### C46 -/

theorem splitBar_ne_nil (s : Name) : splitBar s ≠ [] := by
  cases s with
  | nil => simp [splitBar]
  | cons c cs =>
    unfold splitBar
    split_ifs
    · simp
    · split <;> simp

theorem splitBar_word {w : Name} (h : '|' ∉ w) : splitBar w = [w] := by
  induction w with
  | nil => rfl
  | cons c cs ih =>
    simp only [List.mem_cons, not_or] at h
    simp [splitBar, Ne.symm h.1, ih h.2]

theorem splitBar_append {w : Name} (h : '|' ∉ w) (s : Name) :
    splitBar (w ++ '|' :: s) = w :: splitBar s := by
  induction w with
  | nil => simp [splitBar]
  | cons c cs ih =>
    simp only [List.mem_cons, not_or] at h
    simp [splitBar, Ne.symm h.1, ih h.2]

theorem intercalate_cons_cons (a b : Name) (t : List Name) :
    List.intercalate ['|'] (a :: b :: t) = a ++ '|' :: List.intercalate ['|'] (b :: t) := by
  simp [List.intercalate, List.intersperse]

theorem split_join {xs : List Name} (hne : xs ≠ []) (h : ∀ x ∈ xs, '|' ∉ x) :
    splitBar (List.intercalate ['|'] xs) = xs := by
  induction xs with
  | nil => exact absurd rfl hne
  | cons a t ih =>
    cases t with
    | nil =>
      have : List.intercalate ['|'] [a] = a := by simp [List.intercalate]
      rw [this, splitBar_word (h a (by simp))]
    | cons b t =>
      rw [intercalate_cons_cons, splitBar_append (h a (by simp)),
        ih (by simp) (fun x hx => h x (by simp [List.mem_cons] at hx ⊢; tauto))]

/-- **C46** Splitting the pattern built from any non-empty sequence of names without the
separator gives the names back. -/
theorem C46_round_trip {xs : List Name} (hne : xs ≠ []) (h : ∀ x ∈ xs, '|' ∉ x) :
    splitBar (getPatternFromSequence (.seq xs)) = xs := split_join hne h

/-- **C46** Conversely every string is the pattern of its parts, and a string is its own
pattern. -/
theorem C46_pattern_of_parts (s : Name) :
    getPatternFromSequence (.seq (splitBar s)) = s ∧ getPatternFromSequence (.str s) = s := by
  refine ⟨?_, rfl⟩
  induction s with
  | nil => rfl
  | cons c cs ih =>
    simp only [getPatternFromSequence] at ih ⊢
    unfold splitBar
    by_cases hc : c = '|'
    · subst hc
      simp only [if_true]
      obtain ⟨w, ws, hw⟩ := List.exists_cons_of_ne_nil (splitBar_ne_nil cs)
      rw [hw, intercalate_cons_cons, ← hw, ih]
      rfl
    · simp only [hc, if_false]
      obtain ⟨w, ws, hw⟩ := List.exists_cons_of_ne_nil (splitBar_ne_nil cs)
      rw [hw] at ih ⊢
      simp only
      cases ws with
      | nil =>
        simp [List.intercalate] at ih ⊢
        exact ih
      | cons b t =>
        rw [intercalate_cons_cons] at ih ⊢
        rw [← ih]; rfl

/-- **C46** Selecting regions by a pattern returns exactly the existing regions named in it, in the
order of the pattern, whether the pattern is a sequence of names or the string built from it. -/
theorem C46_regions (regions xs : List Name) (p : Pattern)
    (hp : p = .seq xs ∨ (xs ≠ [] ∧ (∀ x ∈ xs, '|' ∉ x) ∧
      p = .str (getPatternFromSequence (.seq xs)))) :
    (∀ r, r ∈ getRegionsFromPattern regions p ↔ r ∈ xs ∧ r ∈ regions) ∧
    (getRegionsFromPattern regions p).Sublist xs ∧
    (∀ r ∈ regions, (getRegionsFromPattern regions p).count r = xs.count r) := by
  have hn : p.names = xs := by
    rcases hp with rfl | ⟨h1, h2, rfl⟩
    · rfl
    · exact C46_round_trip h1 h2
  unfold getRegionsFromPattern
  rw [hn]
  refine ⟨fun r => by simp, List.filter_sublist, fun r hr => ?_⟩
  rw [List.count_filter]
  simpa using hr

/-- **C46** The empty sequence is the exception: its pattern names one region, the empty name. -/
theorem C46_fails_empty : splitBar (getPatternFromSequence (.seq [])) = [[]] := rfl

example : getRegionsFromPattern ["left".toList, "right".toList, "wall".toList]
    (.str "wall|nowhere|left".toList) = ["wall".toList, "left".toList] := by decide

/-! ### C36 -/

theorem append_data (C : Conditions) (r : Name) (c : Cond) (r' : Name) :
    (C.append r c).data.get? r' = (C.data.get? r').map fun l => if r' = r then l ++ [c] else l := by
  unfold Conditions.append Dict.get?
  simp only
  induction C.data with
  | nil => rfl
  | cons a t ih =>
    by_cases ha : a.1 = r' <;> by_cases hr : a.1 = r
    · subst hr; simp [ha]
    · have hr' : ¬ r' = r := by rw [← ha]; exact hr
      simp [List.find?_cons, hr, ha, hr']
    · simp only [List.map_cons, hr, if_true, List.find?_cons]
      have : ¬ r = r' := by rw [← hr]; exact ha
      simpa [this, ha] using ih
    · simpa [List.map_cons, hr, ha] using ih

theorem append_regions (C : Conditions) (r : Name) (c : Cond) :
    (C.append r c).regions = C.regions := by
  unfold Conditions.append Conditions.regions Dict.keys
  simp only [List.map_map]
  apply List.map_congr_left
  intro a _
  by_cases h : a.1 = r <;> simp [h]

theorem foldl_append (rs : List Name) (C : Conditions) (c : Cond) :
    (rs.foldl (fun C r => C.append r c) C).regions = C.regions ∧
    (rs.foldl (fun C r => C.append r c) C).options = C.options ∧
    (∀ r, (rs.foldl (fun C r => C.append r c) C).data.get? r
      = (C.data.get? r).map fun l => l ++ List.replicate (rs.count r) c) := by
  induction rs generalizing C with
  | nil => simp
  | cons a t ih =>
    obtain ⟨h1, h2, h3⟩ := ih (C.append a c)
    simp only [List.foldl_cons]
    refine ⟨h1.trans (append_regions C a c), h2.trans rfl, fun r => ?_⟩
    rw [h3, append_data, Option.map_map]
    congr 1
    funext l
    by_cases hr : r = a
    · subst hr
      simp [List.replicate_succ]
    · have : ¬ a = r := fun e => hr e.symm
      simp [hr, this]

theorem fromKeys_nodup (xs : List Name) : (fromKeys xs).Nodup := by
  induction xs with
  | nil => simp [fromKeys]
  | cons a t ih =>
    simp only [fromKeys, List.nodup_cons]
    exact ⟨by simp, ih.filter _⟩

theorem mem_fromKeys (xs : List Name) (r : Name) : r ∈ fromKeys xs ↔ r ∈ xs := by
  induction xs with
  | nil => simp [fromKeys]
  | cons a t ih =>
    simp only [fromKeys, List.mem_cons, List.mem_filter, ih]
    by_cases h : r = a <;> simp [h]

theorem mem_regions_iff {C : Conditions} {r : Name} : r ∈ C.regions ↔ ∃ l, C.data.get? r = some l := by
  rw [← Option.isSome_iff_exists, ← not_iff_not]
  simp only [Bool.not_eq_true, Option.isSome_eq_false_iff, Option.isNone_iff_eq_none]
  exact Dict.get?_eq_none.symm

/-- **C36** A fresh container has one entry for each region of the mesh, without repetitions, and
no conditions. -/
theorem C36_init (mesh : List Name) (opts : Dict Name CondClass) :
    (Conditions.init mesh opts).regions.Nodup ∧
    (∀ r, r ∈ (Conditions.init mesh opts).regions ↔ r ∈ mesh) ∧
    (∀ r ∈ mesh, (Conditions.init mesh opts).data.get? r = some []) := by
  have hk : (Conditions.init mesh opts).regions = fromKeys mesh := by
    simp [Conditions.init, Conditions.regions, Dict.keys, Function.comp_def]
  refine ⟨hk ▸ fromKeys_nodup mesh, fun r => hk ▸ mem_fromKeys mesh r, fun r hr => ?_⟩
  have hn : (Conditions.init mesh opts).regions.Nodup := hk ▸ fromKeys_nodup mesh
  refine Dict.get?_of_mem hn ?_
  simp [Conditions.init, mem_fromKeys, hr]

/-- Assigning a history of conditions, one after the other. -/
def assignAll (C : Conditions) : List (Pattern × Cond) → Except PyErr Conditions
  | [] => .ok C
  | e :: h => do assignAll (← C.setItem e.1 (.cond e.2)) h

/-- The pattern is the given sequence of names, or the string built from it. -/
def Names (xs : List Name) (p : Pattern) : Prop :=
  p = .seq xs ∨ (xs ≠ [] ∧ (∀ x ∈ xs, '|' ∉ x) ∧ p = .str (List.intercalate ['|'] xs))

theorem Names.eq {xs : List Name} {p : Pattern} (h : Names xs p) : p.names = xs := by
  rcases h with rfl | ⟨h1, h2, rfl⟩
  · rfl
  · exact split_join h1 h2

theorem setItem_cond (C : Conditions) (p : Pattern) (c : Cond) :
    ∃ C', C.setItem p (.cond c) = .ok C' ∧ C'.regions = C.regions ∧ C'.options = C.options ∧
      ∀ r l, C.data.get? r = some l →
        C'.data.get? r = some (l ++ List.replicate (p.names.count r) c) := by
  obtain ⟨h1, h2, h3⟩ := foldl_append (getRegionsFromPattern C.regions (.seq p.names)) C c
  refine ⟨_, rfl, h1, h2, fun r l hl => ?_⟩
  rw [h3, hl]
  have : r ∈ C.regions := mem_regions_iff.2 ⟨l, hl⟩
  rw [(C46_regions C.regions p.names (.seq p.names) (.inl rfl)).2.2 r this]
  rfl

theorem assignAll_spec (h : List (Pattern × Cond)) (names : List (List Name)) (C : Conditions)
    (hl : names.length = h.length)
    (hn : ∀ e ∈ names.zip h, Names e.1 e.2.1 ∧ e.1.Nodup) :
    ∃ C', assignAll C h = .ok C' ∧ C'.regions = C.regions ∧
      ∀ r l, C.data.get? r = some l →
        C'.data.get? r = some (l ++ assigned (names.zip (h.map Prod.snd)) r) := by
  induction h generalizing names C with
  | nil =>
    refine ⟨C, rfl, rfl, fun r l e => ?_⟩
    simp [assigned, e]
  | cons e t ih =>
    cases names with
    | nil => simp at hl
    | cons xs ns =>
      obtain ⟨C1, h1, h2, -, h3⟩ := setItem_cond C e.1 e.2
      obtain ⟨C2, g1, g2, g3⟩ := ih ns C1 (by simpa using hl)
        (fun e' he' => hn e' (by simp [he']))
      obtain ⟨q1, q2⟩ := hn (xs, e) (by simp)
      refine ⟨C2, by simp [assignAll, h1, bind, Except.bind, g1], g2.trans h2, fun r l hr => ?_⟩
      rw [g3 r _ (h3 r l hr), q1.eq]
      simp only [assigned, List.zip_cons_cons, List.map_cons, List.filterMap_cons]
      by_cases hm : r ∈ xs
      · simp [hm, List.count_eq_one_of_mem q2 hm]
      · simp [hm, List.count_eq_zero_of_not_mem hm]

/-- **C36** After any history of assignments (patterns given as sequences or as strings, naming any
existing or unknown regions, without naming a region twice in one pattern), the regions are
unchanged and every region of the mesh lists exactly the conditions assigned to patterns that
name it, in order. -/
theorem C36_history_partial (mesh : List Name) (opts : Dict Name CondClass) (h : List (Pattern × Cond))
    (names : List (List Name)) (hl : names.length = h.length)
    (hn : ∀ e ∈ names.zip h, Names e.1 e.2.1 ∧ e.1.Nodup) :
    ∃ C, assignAll (Conditions.init mesh opts) h = .ok C ∧
      C.regions = (Conditions.init mesh opts).regions ∧
      ∀ r ∈ mesh, C.data.get? r = some (assigned (names.zip (h.map Prod.snd)) r) := by
  obtain ⟨C, h1, h2, h3⟩ := assignAll_spec h names (Conditions.init mesh opts) hl hn
  refine ⟨C, h1, h2, fun r hr => ?_⟩
  have := h3 r [] ((C36_init mesh opts).2.2 r hr)
  simpa using this

example : ∃ C, assignAll (Conditions.init ["a".toList, "b".toList] [])
    [(.str "b|c".toList, ⟨0, .farfield⟩), (.seq ["a".toList, "b".toList], ⟨1, .periodic⟩)] = .ok C ∧
    C.data = [("a".toList, [⟨1, .periodic⟩]), ("b".toList, [⟨0, .farfield⟩, ⟨1, .periodic⟩])] :=
  ⟨_, rfl, by decide⟩

/-- **C36** A pattern that names a region twice gives it the condition twice. -/
theorem C36_fails_duplicate (C : Conditions) (r : Name) (c : Cond) {l : List Cond}
    (h : C.data.get? r = some l) :
    ∃ C', C.setItem (.seq [r, r]) (.cond c) = .ok C' ∧ C'.data.get? r = some (l ++ [c, c]) := by
  obtain ⟨C', h1, -, -, h3⟩ := setItem_cond C (.seq [r, r]) c
  refine ⟨C', h1, ?_⟩
  rw [h3 r l h]
  simp [Pattern.names]

/-- **C36** Assigning by name assigns a new object of the class registered under this name; an
unknown name raises `ValueError`, anything else but a condition raises `TypeError`. -/
theorem C36_by_name (C : Conditions) (p : Pattern) (s : Name) :
    (∀ k, C.options.get? s = some k → C.setItem p (.str s)
      = ({ C with next := C.next + 1 } : Conditions).setItem p (.cond ⟨C.next, k⟩)) ∧
    (s ∉ C.options.keys → C.setItem p (.str s) = .error .valueError) ∧
    C.setItem p .other = .error .typeError := by
  refine ⟨fun k hk => ?_, fun hs => ?_, rfl⟩
  · simp [Conditions.setItem, hk]
  · simp [Conditions.setItem, Dict.get?_eq_none.2 hs]

/-- **C36** Clearing keeps the regions and removes all conditions. -/
theorem C36_clear (C : Conditions) (hC : C.regions.Nodup) :
    C.clear.regions = C.regions ∧ ∀ r ∈ C.regions, C.clear.data.get? r = some [] := by
  have hk : C.clear.regions = C.regions := by
    simp [Conditions.clear, Conditions.regions, Dict.keys, Function.comp_def]
  refine ⟨hk, fun r hr => ?_⟩
  have hn : C.clear.regions.Nodup := hk ▸ hC
  refine Dict.get?_of_mem hn ?_
  simp [Conditions.clear, hr]

/-- What a request does: an assignment with the names given as a sequence, whose exception the user
catches, or clearing (dream/mesh.py:519-550). -/
def Conditions.perform (C : Conditions) : Request → Conditions
  | .assign xs v => match C.setItem (.seq xs) v with
    | .ok C' => C'
    | .error _ => C
  | .clear => C.clear

/-- **C36** Every history, without any restriction: whatever is assigned to whatever regions, by
object, by a known or unknown name or with a value that is refused, with any number of `clear` in
between, each region of the mesh lists exactly what has been assigned to it since, as often as it
has been named, and the regions stay the same. -/
theorem C36_histories (mesh : List Name) (opts : Dict Name CondClass) (h : List Request) :
    (h.foldl Conditions.perform (Conditions.init mesh opts)).regions
      = (Conditions.init mesh opts).regions ∧
    ∀ r ∈ mesh, (h.foldl Conditions.perform (Conditions.init mesh opts)).data.get? r
      = some (listed opts r 0 [] h) := by
  have key : ∀ (h : List Request) (C : Conditions), C.regions.Nodup → C.options = opts →
      (h.foldl Conditions.perform C).regions = C.regions ∧
      ∀ r l, C.data.get? r = some l →
        (h.foldl Conditions.perform C).data.get? r = some (listed opts r C.next l h) := by
    intro h
    induction h with
    | nil => intro C _ _; exact ⟨rfl, fun r l hl => hl⟩
    | cons e t ih =>
      intro C hC ho
      have assign : ∀ (D : Conditions) (xs : List Name) (c : Cond), D.regions = C.regions →
          D.data = C.data → D.options = opts →
          ∃ D', D.setItem (.seq xs) (.cond c) = .ok D' ∧
            (t.foldl Conditions.perform D').regions = C.regions ∧
            ∀ r l, C.data.get? r = some l → (t.foldl Conditions.perform D').data.get? r
              = some (listed opts r D.next (l ++ List.replicate (xs.count r) c) t) := by
        intro D xs c hD hd hDo
        obtain ⟨D', h1, h2, h3, h4⟩ := setItem_cond D (.seq xs) c
        have hn : D'.next = D.next := by
          have h1' := h1
          simp only [Conditions.setItem, Except.ok.injEq] at h1'
          rw [← h1']
          generalize getRegionsFromPattern D.regions (.seq (Pattern.seq xs).names) = rs
          clear h1 h1' h2 h3 h4 hD hd hDo
          induction rs generalizing D with
          | nil => rfl
          | cons a rs ihr => simp only [List.foldl_cons]; exact ihr (D.append a c)
        obtain ⟨g1, g2⟩ := ih D' (h2 ▸ hD ▸ hC) (h3.trans hDo)
        refine ⟨D', h1, (g1.trans h2).trans hD, fun r l hl => ?_⟩
        rw [← hn]
        exact g2 r _ (h4 r l (hd ▸ hl))
      cases e with
      | clear =>
        obtain ⟨c1, c2⟩ := C36_clear C hC
        obtain ⟨g1, g2⟩ := ih C.clear (c1 ▸ hC) ho
        refine ⟨g1.trans c1, fun r l hl => ?_⟩
        exact g2 r [] (c2 r (mem_regions_iff.2 ⟨l, hl⟩))
      | assign xs v =>
        cases v with
        | cond c =>
          obtain ⟨D', h1, h2, h3⟩ := assign C xs c rfl rfl ho
          simp only [List.foldl_cons, Conditions.perform, h1, listed]
          exact ⟨h2, h3⟩
        | other =>
          simp only [List.foldl_cons, Conditions.perform, Conditions.setItem, listed]
          exact ih C hC ho
        | str s =>
          cases hs : opts.get? s with
          | none =>
            have : C.setItem (.seq xs) (.str s) = .error .valueError := by
              simp [Conditions.setItem, ho, hs]
            simp only [List.foldl_cons, Conditions.perform, this, listed, hs]
            exact ih C hC ho
          | some cls =>
            have := (C36_by_name C (.seq xs) s).1 cls (ho ▸ hs)
            obtain ⟨D', h1, h2, h3⟩ := assign { C with next := C.next + 1 } xs ⟨C.next, cls⟩
              rfl rfl ho
            simp only [List.foldl_cons, Conditions.perform, this, h1, listed, hs]
            exact ⟨h2, h3⟩
  obtain ⟨i1, -, i3⟩ := C36_init mesh opts
  obtain ⟨h1, h2⟩ := key h (Conditions.init mesh opts) i1 rfl
  exact ⟨h1, fun r hr => h2 r [] (i3 r hr)⟩

example : listed [("wall".toList, .inviscidWall)] "a".toList 0 []
    [.assign ["a".toList] (.cond ⟨7, .farfield⟩), .clear,
      .assign ["b".toList, "a".toList, "a".toList] (.str "wall".toList),
      .assign ["a".toList] (.str "unknown".toList), .assign ["a".toList] .other,
      .assign ["a".toList] (.cond ⟨8, .periodic⟩)]
    = [⟨0, .inviscidWall⟩, ⟨0, .inviscidWall⟩, ⟨8, .periodic⟩] := by decide

/-- **C36** The queries agree with what the regions list. -/
theorem C36_queries (C : Conditions) (hC : C.regions.Nodup) :
    (∀ types r, r ∈ C.getRegion types ↔
      ∃ l, C.data.get? r = some l ∧ ∃ c ∈ l, ∃ k ∈ types, c.isA k = true) ∧
    (∀ k, C.hasCondition k = true ↔ ∃ r l, C.data.get? r = some l ∧ ∃ c ∈ l, c.isA k = true) ∧
    (∀ r, r ∈ C.getPeriodicBoundaries ↔
      ∃ l, C.data.get? r = some l ∧ ∃ c ∈ l, c.isA .periodic = true) ∧
    (∀ r, r ∈ C.getDomainBoundaries ↔
      ∃ l, C.data.get? r = some l ∧ l ≠ [] ∧ ∀ c ∈ l, c.isA .periodic = false) := by
  have key : ∀ r l, C.data.get? r = some l ↔ (r, l) ∈ C.data :=
    fun r l => ⟨Dict.mem_of_get?, Dict.get?_of_mem hC⟩
  have hreg : ∀ types r, r ∈ C.getRegion types ↔
      ∃ l, C.data.get? r = some l ∧ ∃ c ∈ l, ∃ k ∈ types, c.isA k = true := by
    intro types r
    simp only [Conditions.getRegion, List.mem_map, List.mem_filter, Prod.exists,
      List.any_eq_true, exists_and_right, exists_eq_right, key]
  refine ⟨hreg, fun k => ?_, fun r => ?_, fun r => ?_⟩
  · simp only [Conditions.hasCondition, List.any_eq_true, List.mem_map, Prod.exists,
      exists_eq_right, key]
    constructor
    · rintro ⟨l, ⟨r, h⟩, h2⟩; exact ⟨r, l, h, h2⟩
    · rintro ⟨r, l, h, h2⟩; exact ⟨l, ⟨r, h⟩, h2⟩
  · rw [Conditions.getPeriodicBoundaries, hreg]
    simp
  · simp only [Conditions.getDomainBoundaries, List.mem_map, List.mem_filter, Prod.exists,
      exists_and_right, exists_eq_right, key, Bool.and_eq_true, Bool.not_eq_true',
      List.any_eq_false, List.isEmpty_eq_false_iff]
    constructor
    · rintro ⟨l, h1, h2, h3⟩
      exact ⟨l, h1, h3, fun c hc => by simpa using h2 c hc⟩
    · rintro ⟨l, h1, h2, h3⟩
      exact ⟨l, h1, fun c hc => by simpa using h3 c hc, h2⟩

/-- **C36** Hence every region with conditions is either a domain or a periodic boundary, and none is
both. -/
theorem C36_partition (C : Conditions) (hC : C.regions.Nodup) (r : Name) :
    ((∃ l, C.data.get? r = some l ∧ l ≠ []) ↔
      r ∈ C.getDomainBoundaries ∨ r ∈ C.getPeriodicBoundaries) ∧
    ¬ (r ∈ C.getDomainBoundaries ∧ r ∈ C.getPeriodicBoundaries) := by
  obtain ⟨-, -, h1, h2⟩ := C36_queries C hC
  rw [h1, h2]
  constructor
  · constructor
    · rintro ⟨l, h, hne⟩
      by_cases hp : ∃ c ∈ l, c.isA .periodic = true
      · exact .inr ⟨l, h, hp⟩
      · push Not at hp
        exact .inl ⟨l, h, hne, fun c hc => by simpa using hp c hc⟩
    · rintro (⟨l, h, hne, -⟩ | ⟨l, h, c, hc, -⟩)
      · exact ⟨l, h, hne⟩
      · exact ⟨l, h, List.ne_nil_of_mem hc⟩
  · rintro ⟨⟨l, h, -, hn⟩, ⟨l', h', c, hc, hp⟩⟩
    rw [h] at h'
    obtain rfl := Option.some.inj h'
    rw [hn c hc] at hp
    cases hp

/-! ### C37 -/

/-- The key under which `to_pattern` stores a condition. -/
def Conditions.keyOf (C : Conditions) (c : Cond) : Name := List.intercalate ['|'] (C.regionsOf c)

theorem toPattern_keys (C : Conditions) (order : List Cond) (d : Dict Name Cond)
    (hd : d.keys.Nodup) :
    (order.foldl (fun d c => d.set (C.keyOf c) c) d).keys.Nodup := by
  induction order generalizing d with
  | nil => exact hd
  | cons c t ih => exact ih _ (Dict.nodup_set hd _ _)

theorem toPattern_get (C : Conditions) (order : List Cond) (d : Dict Name Cond)
    (hinj : ∀ c ∈ order, ∀ c' ∈ order, C.keyOf c = C.keyOf c' → c = c') (k : Name) :
    (order.foldl (fun d c => d.set (C.keyOf c) c) d).get? k
      = match order.find? (fun c => C.keyOf c = k) with
        | some c => some c
        | none => d.get? k := by
  induction order generalizing d with
  | nil => rfl
  | cons c t ih =>
    simp only [List.foldl_cons]
    rw [ih _ fun a ha b hb => hinj a (by simp [ha]) b (by simp [hb])]
    simp only [List.find?_cons, Dict.get?_set]
    by_cases hk : C.keyOf c = k
    · subst hk
      simp only [decide_true]
      cases hf : t.find? fun c' => decide (C.keyOf c' = C.keyOf c) with
      | none => simp
      | some c' =>
        have h1 := List.find?_some hf
        simp only [decide_eq_true_eq] at h1
        have h2 := hinj c' (by simp [List.mem_of_find?_eq_some hf]) c (by simp) h1
        simp [h2]
    · simp only [hk, decide_false]
      cases hf : t.find? fun c' => decide (C.keyOf c' = k) with
      | none => simp [Ne.symm hk]
      | some c' => rfl

theorem regionsOf_mem (C : Conditions) (hC : C.regions.Nodup) (c : Cond) (r : Name) :
    r ∈ C.regionsOf c ↔ ∃ l, C.data.get? r = some l ∧ c ∈ l := by
  simp only [Conditions.regionsOf, List.mem_map, List.mem_filter, Prod.exists, decide_eq_true_eq,
    exists_and_right, exists_eq_right]
  constructor
  · rintro ⟨l, h1, h2⟩; exact ⟨l, Dict.get?_of_mem hC h1, h2⟩
  · rintro ⟨l, h1, h2⟩; exact ⟨l, Dict.mem_of_get? h1, h2⟩

theorem regionsOf_ne_nil (C : Conditions) {k : CondClass} {c : Cond} (h : c ∈ C.assignedOf k) :
    C.regionsOf c ≠ [] := by
  simp only [Conditions.assignedOf, List.mem_filter, List.mem_flatMap, Prod.exists] at h
  obtain ⟨⟨r, l, h1, h2⟩, -⟩ := h
  apply List.ne_nil_of_mem (a := r)
  simp only [Conditions.regionsOf, List.mem_map, List.mem_filter, Prod.exists, decide_eq_true_eq,
    exists_and_right, exists_eq_right]
  exact ⟨l, h1, h2⟩

/-- **C37** If no two conditions (of the class asked for) are assigned to the same regions, then in
every iteration order of the set the grouping contains every assigned condition, under the
pattern of exactly the regions it was assigned to, and nothing else. -/
theorem C37_grouping_partial (C : Conditions) (hC : C.regions.Nodup)
    (hbar : ∀ r ∈ C.regions, '|' ∉ r) {k : CondClass} {order : List Cond}
    (ho : C.SetOrder k order)
    (hdist : ∀ c ∈ order, ∀ c' ∈ order, C.regionsOf c = C.regionsOf c' → c = c') :
    (∀ c, (∃ p, (C.toPattern order).get? p = some c) ↔ c ∈ C.assignedOf k) ∧
    (∀ p c, (C.toPattern order).get? p = some c →
      ∀ r, r ∈ splitBar p ↔ ∃ l, C.data.get? r = some l ∧ c ∈ l) := by
  have hsub : ∀ c, ∀ r ∈ C.regionsOf c, '|' ∉ r := by
    intro c r hr
    obtain ⟨l, hl, -⟩ := (regionsOf_mem C hC c r).1 hr
    exact hbar r (mem_regions_iff.2 ⟨l, hl⟩)
  have hsplit : ∀ c ∈ order, splitBar (C.keyOf c) = C.regionsOf c := fun c hc =>
    split_join (regionsOf_ne_nil C ((ho.2 c).1 hc)) (hsub c)
  have hinj : ∀ c ∈ order, ∀ c' ∈ order, C.keyOf c = C.keyOf c' → c = c' := by
    intro c hc c' hc' h
    apply hdist c hc c' hc'
    rw [← hsplit c hc, ← hsplit c' hc', h]
  have hget : ∀ p, (C.toPattern order).get? p = order.find? fun c => C.keyOf c = p := by
    intro p
    have := toPattern_get C order [] hinj p
    unfold Conditions.toPattern getPatternFromSequence
    unfold Conditions.keyOf at this ⊢
    simp only at this ⊢
    rw [this]
    cases order.find? fun c => decide (List.intercalate ['|'] (C.regionsOf c) = p) <;> rfl
  constructor
  · intro c
    rw [← ho.2]
    constructor
    · rintro ⟨p, hp⟩
      rw [hget] at hp
      exact List.mem_of_find?_eq_some hp
    · intro hc
      refine ⟨C.keyOf c, ?_⟩
      rw [hget]
      cases hf : order.find? fun c' => decide (C.keyOf c' = C.keyOf c) with
      | none =>
        have := List.find?_eq_none.1 hf c hc
        simp at this
      | some c' =>
        have h1 := List.find?_some hf
        simp only [decide_eq_true_eq] at h1
        rw [hinj c' (List.mem_of_find?_eq_some hf) c hc h1]
  · intro p c hp r
    rw [hget] at hp
    have h1 := List.find?_some hp
    simp only [decide_eq_true_eq] at h1
    rw [← h1, hsplit c (List.mem_of_find?_eq_some hp), regionsOf_mem C hC]

/-- **C37** In general, in every iteration order, the grouping holds under each pattern the last
condition of the order that is assigned to exactly the regions of the pattern: every set of regions
that has conditions keeps exactly one of them. -/
theorem C37_collisions (C : Conditions) (order : List Cond) (p : Name) :
    (C.toPattern order).get? p
      = (order.filter fun c => getPatternFromSequence (.seq (C.regionsOf c)) = p).getLast? := by
  have key : ∀ (order : List Cond) (d : Dict Name Cond),
      (order.foldl (fun d c => d.set (getPatternFromSequence (.seq (C.regionsOf c))) c) d).get? p
        = match (order.filter fun c =>
            getPatternFromSequence (.seq (C.regionsOf c)) = p).getLast? with
          | some c => some c
          | none => d.get? p := by
    intro order
    induction order with
    | nil => intro d; rfl
    | cons c t ih =>
      intro d
      simp only [List.foldl_cons]
      rw [ih, List.filter_cons]
      by_cases hk : getPatternFromSequence (.seq (C.regionsOf c)) = p
      · simp only [hk, decide_true, if_true, List.getLast?_cons]
        cases (t.filter fun c =>
            decide (getPatternFromSequence (.seq (C.regionsOf c)) = p)).getLast? with
        | none => simp [Dict.get?_set]
        | some c' => simp
      · simp only [hk, decide_false, Bool.false_eq_true, if_false]
        cases (t.filter fun c =>
            decide (getPatternFromSequence (.seq (C.regionsOf c)) = p)).getLast? with
        | none => simp [Dict.get?_set, Ne.symm hk]
        | some c' => rfl
  rw [Conditions.toPattern, key]
  cases (order.filter fun c =>
    decide (getPatternFromSequence (.seq (C.regionsOf c)) = p)).getLast? <;> rfl

/-- The values of the grouping are conditions stored under their own key. -/
theorem toPattern_values (C : Conditions) (order : List Cond) (d : Dict Name Cond)
    (hd : ∀ p c, d.get? p = some c → p = C.keyOf c) (p : Name) (c : Cond)
    (h : (order.foldl (fun d c => d.set (C.keyOf c) c) d).get? p = some c) : p = C.keyOf c := by
  induction order generalizing d with
  | nil => exact hd p c h
  | cons a t ih =>
    refine ih (d.set (C.keyOf a) a) ?_ h
    intro q b hq
    rw [Dict.get?_set] at hq
    split_ifs at hq with e
    · rw [← Option.some.inj hq]; exact e
    · exact hd q b hq

/-- **C37** Otherwise conditions are lost: of two conditions assigned to the same regions (for
instance an initial condition and a sponge layer on the same domain) at most one appears in the
grouping, in every iteration order. -/
theorem C37_fails_same_regions (C : Conditions) (order : List Cond) {c c' : Cond} (hne : c ≠ c')
    (hr : C.regionsOf c = C.regionsOf c') :
    ¬ ((∃ p, (C.toPattern order).get? p = some c) ∧
      (∃ p, (C.toPattern order).get? p = some c')) := by
  rintro ⟨⟨p, hp⟩, ⟨p', hp'⟩⟩
  have h1 := toPattern_values C order [] (by simp [Dict.get?]) p c hp
  have h2 := toPattern_values C order [] (by simp [Dict.get?]) p' c' hp'
  have : p = p' := by rw [h1, h2, Conditions.keyOf, Conditions.keyOf, hr]
  subst this
  rw [hp] at hp'
  exact hne (Option.some.inj hp')

/-! ### C38 -/

/-- **C38** Every boundary condition offered to the user is turned into the formulation of its
type, and nothing else is offered that would be refused. -/
theorem C38_boundary (c : Cond) (h : c.cls ∈ offeredBoundary) :
    ∃ f, boundaryFormulation c.cls = some f ∧ dispatchBoundary c = .ok f := by
  obtain ⟨i, k⟩ := c
  simp only [offeredBoundary, List.mem_cons, List.not_mem_nil, or_false] at h
  rcases h with rfl | rfl | rfl | rfl | rfl | rfl | rfl | rfl | rfl <;>
    simp [boundaryFormulation, dispatchBoundary, Cond.isA, CondClass.bases]

/-- **C38** Domain conditions: initial conditions and sponge layers are treated as their type. -/
theorem C38_domain_partial (c : Cond) (h : c.cls = .initial ∨ c.cls = .spongeLayer) :
    ∃ f, domainFormulation c.cls = some f ∧ dispatchDomain c = .ok f := by
  obtain ⟨i, k⟩ := c
  rcases h with h | h <;> simp only at h <;> subst h <;>
    simp [domainFormulation, dispatchDomain, Cond.isA, CondClass.bases]

/-- **C38** The loops over the conditions add one formulation per condition that has one, in the
order of the grouping and on its regions, and nothing else; they raise exactly if some condition
is refused. -/
theorem C38_all_added (dispatch : Cond → Except PyErr (Option Formulation)) (d : Dict Name Cond)
    (l : List (Formulation × Name × Cond)) :
    addConditions dispatch d = .ok l ↔
      ∃ os : List (Option Formulation), List.Forall₂ (fun kv o => dispatch kv.2 = .ok o) d os ∧
        l = (d.zip os).filterMap fun x => x.2.map fun f => (f, x.1.1, x.1.2) := by
  have key : ∀ (d : Dict Name Cond) (added : List (Option (Formulation × Name × Cond))),
      (d.mapM fun kv => (do .ok ((← dispatch kv.2).map fun f => (f, kv.1, kv.2)) :
        Except PyErr (Option (Formulation × Name × Cond)))) = .ok added ↔
      ∃ os : List (Option Formulation), List.Forall₂ (fun kv o => dispatch kv.2 = .ok o) d os ∧
        added = (d.zip os).map fun x => x.2.map fun f => (f, x.1.1, x.1.2) := by
    intro d
    induction d with
    | nil =>
      intro added
      constructor
      · intro h
        cases h
        exact ⟨[], .nil, rfl⟩
      · rintro ⟨os, h, rfl⟩
        cases h
        rfl
    | cons kv t ih =>
      intro added
      rw [List.mapM_cons]
      constructor
      · intro h
        cases hd : dispatch kv.2 with
        | error e => simp [hd, bind, Except.bind] at h
        | ok o =>
          simp only [hd, bind, Except.bind] at h
          cases ht : (t.mapM fun kv => (do .ok ((← dispatch kv.2).map fun f => (f, kv.1, kv.2)) :
              Except PyErr (Option (Formulation × Name × Cond)))) with
          | error e => simp only [bind, Except.bind] at ht; simp [ht] at h
          | ok rest =>
            obtain ⟨os, h1, h2⟩ := (ih rest).1 ht
            simp only [bind, Except.bind] at ht
            simp only [ht, pure, Except.pure, Except.ok.injEq] at h
            exact ⟨o :: os, .cons hd h1, by rw [← h, h2]; rfl⟩
      · rintro ⟨os, h, rfl⟩
        cases h with
        | cons hd ht =>
          have := (ih _).2 ⟨_, ht, rfl⟩
          rw [this]
          simp [hd, bind, Except.bind, pure, Except.pure]
  unfold addConditions
  constructor
  · intro h
    cases ha : (d.mapM fun kv => (do .ok ((← dispatch kv.2).map fun f => (f, kv.1, kv.2)) :
        Except PyErr (Option (Formulation × Name × Cond)))) with
    | error e => rw [ha] at h; cases h
    | ok added =>
      obtain ⟨os, h1, h2⟩ := (key d added).1 ha
      rw [ha] at h
      cases h
      exact ⟨os, h1, by rw [h2, List.filterMap_map]; rfl⟩
  · rintro ⟨os, h1, rfl⟩
    rw [(key d _).2 ⟨os, h1, rfl⟩]
    simp only [bind, Except.bind, List.filterMap_map]
    rfl

/-- C38, concrete instance: an outflow and a periodic boundary. -/
example : addConditions dispatchBoundary
    [("a".toList, ⟨0, .outflow⟩), ("b".toList, ⟨1, .periodic⟩)]
      = .ok [(.outflow, "a".toList, ⟨0, .outflow⟩)] := by
  rw [C38_all_added]
  exact ⟨[some .outflow, none], by
    refine .cons ?_ (.cons ?_ .nil) <;> simp [dispatchBoundary, Cond.isA, CondClass.bases], rfl⟩

/-- **C38** The polynomial sponge layer is never used: every such condition gets the formulation
of the plain sponge layer. -/
theorem C38_fails_psponge (c : Cond) :
    (c.isA .pspongeLayer = true → dispatchDomain c = .ok (some .sponge)) ∧
    dispatchDomain c ≠ .ok (some .psponge) := by
  obtain ⟨i, k⟩ := c
  cases k <;> simp [dispatchDomain, Cond.isA, CondClass.bases]

/-- **C38** Four of the seven domain conditions offered to the user raise `TypeError`; among them
the grid deformation, which needs no term in the equations. -/
theorem C38_fails_offered (c : Cond)
    (h : c.cls ∈ [CondClass.pml, .force, .perturbation, .gridDeformation]) :
    c.cls ∈ offeredDomain ∧ dispatchDomain c = .error .typeError := by
  obtain ⟨i, k⟩ := c
  simp only [List.mem_cons, List.not_mem_nil, or_false] at h
  rcases h with rfl | rfl | rfl | rfl <;>
    simp [offeredDomain, dispatchDomain, Cond.isA, CondClass.bases]

/-- **C38** A sponge layer and an initial condition on the same regions: if the set yields the
initial condition last, no sponge term is added at all; the set order decides. -/
theorem C38_fails_initial_and_sponge {s i : Cond} (hs : s.cls = .spongeLayer)
    (hi : i.cls = .initial) (r : Name) :
    let C : Conditions := { data := [(r, [i, s])], options := [] }
    C.SetOrder .condition [s, i] ∧ C.SetOrder .condition [i, s] ∧
    addConditions dispatchDomain (C.toPattern [s, i]) = .ok [] ∧
    addConditions dispatchDomain (C.toPattern [i, s]) = .ok [(.sponge, r, s)] := by
  have hne : s ≠ i := fun e => by rw [e, hi] at hs; cases hs
  have hr : ∀ c, c = s ∨ c = i →
      ({ data := [(r, [i, s])], options := [] } : Conditions).regionsOf c = [r] := by
    rintro c (rfl | rfl) <;> simp [Conditions.regionsOf]
  have e1 : ({ data := [(r, [i, s])], options := [] } : Conditions).toPattern [s, i] = [(r, i)] := by
    simp [Conditions.toPattern, getPatternFromSequence, hr, List.intercalate, Dict.set, Dict.has]
  have e2 : ({ data := [(r, [i, s])], options := [] } : Conditions).toPattern [i, s] = [(r, s)] := by
    simp [Conditions.toPattern, getPatternFromSequence, hr, List.intercalate, Dict.set, Dict.has]
  have ds : dispatchDomain s = .ok (some .sponge) := by
    simp [dispatchDomain, Cond.isA, hs, CondClass.bases]
  have di : dispatchDomain i = .ok none := by
    simp [dispatchDomain, Cond.isA, hi, CondClass.bases]
  have as : s.isA .condition = true := by simp [Cond.isA, hs, CondClass.bases]
  have ai : i.isA .condition = true := by simp [Cond.isA, hi, CondClass.bases]
  refine ⟨⟨by simp [hne], ?_⟩, ⟨by simp [hne.symm], ?_⟩, ?_, ?_⟩
  · intro c
    simp only [Conditions.assignedOf, List.flatMap_cons, List.flatMap_nil, List.append_nil,
      List.mem_filter, List.mem_cons, List.not_mem_nil, or_false]
    constructor
    · rintro (rfl | rfl)
      · exact ⟨.inr rfl, as⟩
      · exact ⟨.inl rfl, ai⟩
    · rintro ⟨rfl | rfl, -⟩
      · exact .inr rfl
      · exact .inl rfl
  · intro c
    simp only [Conditions.assignedOf, List.flatMap_cons, List.flatMap_nil, List.append_nil,
      List.mem_filter, List.mem_cons, List.not_mem_nil, or_false]
    constructor
    · rintro (rfl | rfl)
      · exact ⟨.inl rfl, ai⟩
      · exact ⟨.inr rfl, as⟩
    · rintro ⟨h, -⟩; exact h
  · rw [e1]; simp [addConditions, di, bind, Except.bind, pure, Except.pure]
  · rw [e2]; simp [addConditions, ds, bind, Except.bind, pure, Except.pure]

end Dream
