import Verif.Model.Sensors
import Verif.Props.Conditions

/-!
# C60: the regions of a sensor
-/

namespace Dream

/-- The parts of a string contain no separator. -/
theorem bar_not_mem_splitBar (s : Name) : ∀ w ∈ splitBar s, '|' ∉ w := by
  induction s with
  | nil => simp [splitBar]
  | cons c cs ih =>
    unfold splitBar
    split_ifs with hc
    · intro w hw
      rcases List.mem_cons.1 hw with rfl | hw
      · simp
      · exact ih w hw
    · split
      · rename_i h
        exact absurd h (splitBar_ne_nil cs)
      · rename_i w ws h
        rw [h] at ih
        intro v hv
        rcases List.mem_cons.1 hv with rfl | hv
        · simp only [List.mem_cons, not_or]
          exact ⟨fun e => hc e.symm, ih w (by simp)⟩
        · exact ih v (by simp [hv])

/-- **C60** A region sensor given a pattern string measures over one region set; if any named
region exists, the set consists of the named regions that exist, in the order named. -/
theorem C60_pattern (expected : List Name) (s : Name) : ∃ r,
    setRegions expected (.str s) = .ok ([r], .str r) ∧
    ((∃ w ∈ splitBar s, w ∈ expected) → splitBar r = (splitBar s).filter fun w => w ∈ expected) := by
  refine ⟨_, rfl, ?_⟩
  rintro ⟨w, hw, he⟩
  refine split_join ?_ ?_
  · intro h
    have : w ∈ getRegionsFromPattern expected (.str s) := List.mem_filter.2 ⟨hw, by simpa using he⟩
    rw [h] at this
    simp at this
  · intro x hx
    exact bar_not_mem_splitBar s x (List.mem_filter.1 hx).1

/-- **C60** Given a sequence, it measures over every named region that exists, separately, and
each once. -/
theorem C60_sequence (expected xs : List Name) : ∃ locs,
    setRegions expected (.seq xs) = .ok (locs, .seq (xs.filter fun r => r ∈ expected)) ∧
    locs.Nodup ∧ ∀ r, r ∈ locs ↔ r ∈ xs ∧ r ∈ expected :=
  ⟨_, rfl, fromKeys_nodup _, fun r => by rw [mem_fromKeys, List.mem_filter]; simp⟩

/-- **C60** Given nothing, it measures over the union of all regions; anything else is refused. -/
theorem C60_all (expected : List Name) (hne : expected ≠ []) (h : ∀ x ∈ expected, '|' ∉ x) :
    (∃ r, setRegions expected .none = .ok ([r], .none) ∧ splitBar r = expected) ∧
    setRegions expected .other = .error .valueError :=
  ⟨⟨_, rfl, split_join hne h⟩, rfl⟩

/-- **C60** Opening a sensor again, which starts from the option as rewritten by the first
opening, gives the same regions. -/
theorem C60_reopen (expected : List Name) (hn : [] ∉ expected) (arg arg' : RegionArg)
    (locs : List Name) (h : setRegions expected arg = .ok (locs, arg')) :
    setRegions expected arg' = .ok (locs, arg') := by
  cases arg with
  | none => cases h; rfl
  | other => cases h
  | seq xs =>
    cases h
    simp [setRegions, List.filter_filter]
  | str s =>
    cases h
    have key : getRegionsFromPattern expected
        (.str (getPatternFromSequence (.seq (getRegionsFromPattern expected (.str s))))) =
        getRegionsFromPattern expected (.str s) := by
      by_cases he : getRegionsFromPattern expected (.str s) = []
      · rw [he]
        simp [getPatternFromSequence, getRegionsFromPattern, Pattern.names, List.intercalate,
          splitBar, hn]
      · have hb : ∀ x ∈ getRegionsFromPattern expected (.str s), '|' ∉ x := fun x hx =>
          bar_not_mem_splitBar s x (List.mem_filter.1 hx).1
        have := split_join he hb
        simp only [getRegionsFromPattern, Pattern.names, getPatternFromSequence] at this ⊢
        rw [this]
        simp [List.filter_filter]
    simp only [setRegions]
    rw [key]

/-- **C60 fails**: a misspelt single region is handled differently by the two forms: as a
string it leaves a measurement over an empty pattern, as a sequence no measurement at all (which then raises,
see C11_data). -/
theorem C60_fails_missing (expected : List Name) (s : Name) (hs : '|' ∉ s) (h : s ∉ expected) :
    setRegions expected (.str s) = .ok ([[]], .str []) ∧
    setRegions expected (.seq [s]) = .ok ([], .seq []) := by
  constructor
  · simp [setRegions, getRegionsFromPattern, Pattern.names, splitBar_word hs, h,
      getPatternFromSequence, List.intercalate]
  · simp [setRegions, h, fromKeys]

/-- What the user asked for: the regions named, or all. -/
def Spec.wants (expected : List Name) : RegionArg → Name → Prop
  | .none, r => r ∈ expected
  | .str s, r => r ∈ splitBar s
  | .seq xs, r => r ∈ xs
  | .other, _ => False

/-- **C60** Every integral of a sensor with named regions, and of a domain sensor without,
runs over elements of the named regions of its kind only, and every such element of the mesh is
covered. Missing: boundary sensors without regions, see `C60_fails_boundary_default`. -/
theorem C60_covered_partial (boundary : Bool) (expected : List Name) (hn : [] ∉ expected)
    (hb : ∀ x ∈ expected, '|' ∉ x) (arg : RegionArg) (ho : arg ≠ .other)
    (hd : boundary = true → arg ≠ .none) :
    ∃ ds, regionDomains boundary expected arg = .ok ds ∧ (ds.map Prod.fst).Nodup ∧
      ∀ e : Elem, (e.region ∈ expected) →
        ((∃ d ∈ ds, d.2.covers e = true) ↔ e.boundary = boundary ∧ Spec.wants expected arg e.region) := by
  cases arg with
  | other => exact absurd rfl ho
  | none =>
    have hbd : boundary = false := by
      cases boundary with
      | false => rfl
      | true => exact absurd rfl (hd rfl)
    subst hbd
    refine ⟨[(_, .none)], rfl, by simp, fun e he => ?_⟩
    simp [DefinedOn.covers, Spec.wants, he]
  | str s =>
    refine ⟨[(_, .region boundary _)], rfl, by simp, fun e he => ?_⟩
    simp only [List.mem_singleton, exists_eq_left, DefinedOn.covers, Spec.wants, Bool.and_eq_true,
      beq_iff_eq, List.contains_iff_mem]
    refine and_congr_right fun _ => ?_
    obtain ⟨r, h1, h2⟩ := C60_pattern expected s
    have hr : getPatternFromSequence (.seq (getRegionsFromPattern expected (.str s))) = r := by
      have := h1
      simp only [setRegions] at this
      cases this
      rfl
    rw [hr]
    by_cases hex : ∃ w ∈ splitBar s, w ∈ expected
    · rw [h2 hex, List.mem_filter]
      simp [he]
    · have hnil : getRegionsFromPattern expected (.str s) = [] := by
        rw [getRegionsFromPattern, List.filter_eq_nil_iff]
        intro w hw hc
        exact hex ⟨w, hw, by simpa using hc⟩
      rw [hnil] at hr
      have : r = [] := by rw [← hr]; simp [getPatternFromSequence, List.intercalate]
      subst this
      constructor
      · intro h
        simp [splitBar] at h
        exact absurd (h ▸ he) hn
      · intro h
        exact absurd ⟨_, h, he⟩ hex
  | seq xs =>
    refine ⟨_, rfl, ?_, fun e he => ?_⟩
    · rw [List.map_map]
      simpa [Function.comp_def] using fromKeys_nodup (xs.filter fun r => r ∈ expected)
    · simp only [List.mem_map, DefinedOn.covers, Spec.wants]
      constructor
      · rintro ⟨d, ⟨r, hr, rfl⟩, hc⟩
        rw [mem_fromKeys, List.mem_filter] at hr
        simp only [Bool.and_eq_true, beq_iff_eq, List.contains_iff_mem] at hc
        rw [splitBar_word (hb r (by simpa using hr.2))] at hc
        simp only [List.mem_singleton] at hc
        exact ⟨hc.1, hc.2 ▸ hr.1⟩
      · rintro ⟨h1, h2⟩
        refine ⟨_, ⟨e.region, ?_, rfl⟩, ?_⟩
        · rw [mem_fromKeys, List.mem_filter]
          exact ⟨h2, by simpa using he⟩
        · simp [splitBar_word (hb _ he), h1]

/-- **C60 fails**: a boundary sensor without regions, the default, covers no boundary element
at all, but every element of the volume. -/
theorem C60_fails_boundary_default (expected : List Name) :
    ∃ ds, regionDomains true expected .none = .ok ds ∧
      ∀ e : Elem, (∃ d ∈ ds, d.2.covers e = true) ↔ e.boundary = false :=
  ⟨[(_, .none)], rfl, fun e => by simp [DefinedOn.covers]⟩

/-- Non-vacuity. -/
example : ∃ expected : List Name, [] ∉ expected ∧ (∀ x ∈ expected, '|' ∉ x) ∧
    ∃ w ∈ splitBar ['a', '|', 'c'], w ∈ expected := by
  refine ⟨[['a'], ['b']], by decide, by decide, ['a'], by decide, by decide⟩

end Dream
