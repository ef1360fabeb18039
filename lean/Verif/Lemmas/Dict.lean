import Verif.Model.Dict

/-! # Lemmas about dictionaries -/

namespace Dream
namespace Dict

variable {κ α : Type} [DecidableEq κ]

theorem get?_eq_none {d : Dict κ α} {k : κ} : d.get? k = none ↔ k ∉ d.keys := by
  simp only [get?, Option.map_eq_none_iff, List.find?_eq_none, decide_eq_true_eq, keys,
    List.mem_map, not_exists, not_and]

theorem has_iff {d : Dict κ α} {k : κ} : d.has k = true ↔ k ∈ d.keys := by
  simp [has, keys]

theorem mem_of_get? {d : Dict κ α} {k : κ} {v : α} (h : d.get? k = some v) : (k, v) ∈ d := by
  simp only [get?, Option.map_eq_some_iff] at h
  obtain ⟨⟨a, b⟩, h1, rfl⟩ := h
  have h2 := List.find?_some h1
  simp only [decide_eq_true_eq] at h2
  subst h2
  exact List.mem_of_find?_eq_some h1

theorem get?_of_mem {d : Dict κ α} (hd : d.keys.Nodup) {k : κ} {v : α} (h : (k, v) ∈ d) :
    d.get? k = some v := by
  induction d with
  | nil => simp at h
  | cons a t ih =>
    simp only [keys, List.map_cons, List.nodup_cons] at hd
    simp only [get?, List.find?_cons]
    rcases List.mem_cons.1 h with rfl | h'
    · simp
    · have hne : a.1 ≠ k := by
        rintro rfl
        exact hd.1 (List.mem_map.2 ⟨_, h', rfl⟩)
      simp only [hne, decide_false]
      exact ih hd.2 h'

theorem keys_set (d : Dict κ α) (k : κ) (v : α) :
    (d.set k v).keys = if k ∈ d.keys then d.keys else d.keys ++ [k] := by
  unfold set
  by_cases h : k ∈ d.keys
  · have hc := has_iff.2 h
    simp only [hc, if_true, h]
    simp only [keys, List.map_map]
    apply List.map_congr_left
    intro a _
    by_cases ha : a.1 = k <;> simp [ha]
  · have hc : d.has k = false := by
      rw [Bool.eq_false_iff]; exact fun hh => h (has_iff.1 hh)
    rw [if_neg h]; simp [hc, keys]

theorem nodup_set {d : Dict κ α} (hd : d.keys.Nodup) (k : κ) (v : α) :
    (d.set k v).keys.Nodup := by
  rw [keys_set]
  split_ifs with h
  · exact hd
  · rw [List.nodup_append]
    refine ⟨hd, by simp, ?_⟩
    intro a ha b hb
    simp only [List.mem_singleton] at hb
    subst hb
    rintro rfl
    exact h ha

theorem get?_set (d : Dict κ α) (k : κ) (v : α) (k' : κ) :
    (d.set k v).get? k' = if k' = k then some v else d.get? k' := by
  unfold set
  by_cases hc : d.has k = true
  · simp only [hc, if_true]
    induction d with
    | nil => simp [has] at hc
    | cons a t ih =>
      by_cases ha : a.1 = k
      · by_cases hk : k' = k
        · subst hk; simp [get?, ha]
        · have : ¬ k = k' := fun e => hk e.symm
          simp only [hk, if_false]
          have e1 : a.1 ≠ k' := by rw [ha]; exact this
          simp only [get?, List.map_cons, ha, if_true, List.find?_cons, this, decide_false]
          by_cases ht : Dict.has t k = true
          · have := ih ht
            simp only [hk, if_false, get?] at this
            exact this
          · have hmap : (t.map fun kv => if kv.1 = k then (k, v) else kv) = t := by
              conv_rhs => rw [← List.map_id t]
              apply List.map_congr_left
              intro b hb
              have : b.1 ≠ k := fun e => ht (has_iff.2 (List.mem_map.2 ⟨b, hb, e⟩))
              simp [this]
            rw [hmap]
      · have ht : Dict.has t k = true := by
          simpa [has, ha] using hc
        have := ih ht
        simp only [get?, List.map_cons, ha, if_false, List.find?_cons] at this ⊢
        by_cases hk : k' = k
        · subst hk; simpa [ha] using this
        · by_cases e : a.1 = k'
          · simp [e, hk]
          · simpa [e, hk] using this
  · have hc' : d.has k = false := by simpa using hc
    have hn : k ∉ d.keys := fun h => hc (has_iff.2 h)
    simp only [hc', Bool.false_eq_true, if_false]
    simp only [get?, List.find?_append]
    by_cases hk : k' = k
    · subst hk
      have := get?_eq_none.2 hn
      simp only [get?, Option.map_eq_none_iff] at this
      simp [this]
    · have : ¬ k = k' := fun e => hk e.symm
      simp [this, hk]

theorem mem_values_set {d : Dict κ α} {k : κ} {v x : α} (h : x ∈ (d.set k v).map Prod.snd) :
    x = v ∨ x ∈ d.map Prod.snd := by
  unfold set at h
  split_ifs at h
  · simp only [List.mem_map, Prod.exists] at h
    obtain ⟨a, b, ⟨c, e, h1, h2⟩, rfl⟩ := h
    by_cases hc : c = k
    · simp [hc] at h2; exact .inl h2.2.symm
    · simp [hc] at h2; exact .inr (List.mem_map.2 ⟨_, h1, h2.2⟩)
  · simp only [List.map_append, List.mem_append] at h
    rcases h with h | h
    · exact .inr h
    · simp at h; exact .inl h

end Dict
end Dream
