import Verif.Props.Registry

/-!
# C19: upper case and derived classes
-/

namespace Dream

theorem toLower_not_upper (c : Char) : c.toLower.isUpper = false := by
  unfold Char.toLower Char.isUpper
  split
  · rename_i h
    have h1 : 65 ≤ c.val.toNat ∧ c.val.toNat ≤ 90 := by
      simp only [ge_iff_le, UInt32.le_iff_toNat_le] at h
      exact h
    simp only [ge_iff_le, Bool.and_eq_false_iff, decide_eq_false_iff_not, UInt32.le_iff_toNat_le,
      UInt32.toNat_add]
    show ¬ (65 ≤ (c.val.toNat + 32) % 4294967296 ∧ (c.val.toNat + 32) % 4294967296 ≤ 90)
    omega
  · rename_i h
    simp only [ge_iff_le] at h ⊢
    simpa [Bool.and_eq_false_iff, not_and_or] using h

/-- **C19** Whatever classes are defined, no registered name has an upper case letter; so the selection
of a name with one raises `TypeError` and changes nothing, even if a class was given this name. -/
theorem C19_upper (ds : List ClassDef) :
    (∀ m c, (Registry.root.defineAll ds).leafs.get? m = some c → ∀ ch ∈ m, ch.isUpper = false) ∧
    ∀ (s : Selected) (v : Name), (∃ ch ∈ v, ch.isUpper = true) →
      (Registry.root.defineAll ds).select s v = (.error .typeError, s) := by
  have key : ∀ m c, (Registry.root.defineAll ds).leafs.get? m = some c →
      ∀ ch ∈ m, ch.isUpper = false := by
    intro m c h ch hch
    obtain ⟨n, rfl⟩ := C19_lower_case ds m c h
    obtain ⟨x, -, rfl⟩ := List.mem_map.1 hch
    exact toLower_not_upper x
  refine ⟨key, fun s v hv => ?_⟩
  obtain ⟨ch, h1, h2⟩ := hv
  refine (C19_select _ s v).1 ?_
  rcases h : (Registry.root.defineAll ds).leafs.get? v with _ | c
  · rfl
  · rw [key v c h ch h1] at h2
    exact absurd h2 (by simp)

/-- **C19** Objects of a class are instances of it and of all the class it derives from is an instance
of, and of nothing else; the other classes are not affected by a class statement. -/
theorem C19_derived (R : Registry) (d : ClassDef) (h : (R.define d).1 = .ok ()) :
    (∀ k, (R.define d).2.isA d.cls k = true ↔ k = d.cls ∨ R.isA d.parent k = true) ∧
    (∀ c k, c ≠ d.cls → (R.define d).2.isA c k = R.isA c k) := by
  have e : (R.define d).2.mro = R.mro.set d.cls (d.cls :: (R.mro.get? d.parent).getD []) := by
    unfold Registry.define at h ⊢
    simp only at h ⊢
    split
    · rename_i heq
      rw [heq] at h
      simp at h
    · rfl
  refine ⟨fun k => ?_, fun c k hc => ?_⟩
  · simp only [Registry.isA, e, Dict.get?_set, if_true]
    simp
  · simp only [Registry.isA, e, Dict.get?_set, if_neg hc]

/-- The interface with a class `a`, and `B` derived from it. -/
def derivedPair : Registry :=
  Registry.root.defineAll [⟨1, 0, some "a".toList, none, false⟩, ⟨2, 1, some "B".toList, none, false⟩]

/-- `C19_derived` and `C19_fails_derived` on it: an object of class 2 stays when class 1 is selected,
and `B` can only be selected as `b`. -/
example : derivedPair.isA 2 1 = true ∧ derivedPair.isA 1 2 = false ∧
    derivedPair.select ⟨2, 0, 1⟩ "a".toList = (.ok (), ⟨2, 0, 1⟩) ∧
    derivedPair.select ⟨1, 0, 1⟩ "b".toList = (.ok (), ⟨2, 1, 2⟩) ∧
    derivedPair.select ⟨1, 0, 1⟩ "B".toList = (.error .typeError, ⟨1, 0, 1⟩) := by
  decide +kernel

end Dream
