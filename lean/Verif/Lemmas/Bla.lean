import Verif.Model.Bla
import Mathlib.Data.Matrix.Diagonal
import Mathlib.Data.List.GetD

namespace Dream.Bla

theorem abs_eq (x : ℝ) : abs x = |x| := by
  unfold abs ifPos
  split
  · rw [abs_of_pos ‹_›]
  · rw [abs_of_nonpos (not_lt.1 ‹_›)]

theorem max_eq (x y : ℝ) : max x y = x ⊔ y := by
  unfold max ifPos
  split
  · rw [max_eq_left (by linarith)]
  · rw [max_eq_right (by linarith)]

theorem min_eq (x y : ℝ) : min x y = x ⊓ y := by
  unfold min ifPos
  split
  · rw [min_eq_right (by linarith)]
  · rw [min_eq_left (by linarith)]

theorem foldl_set_length (N : ℕ) (f : ℕ → ℝ) (m : ℕ) (l : List ℝ) :
    ((List.range m).foldl (fun mat i => mat.set ((N + 1) * i) (f i)) l).length = l.length := by
  induction m with
  | zero => rfl
  | succ m ih => rw [List.range_succ, List.foldl_append]; simpa using ih

theorem foldl_set_getD (N : ℕ) (f : ℕ → ℝ) (m : ℕ) (l : List ℝ) (k : ℕ) (hk : k < l.length) :
    ((List.range m).foldl (fun mat i => mat.set ((N + 1) * i) (f i)) l).getD k 0
      = if k % (N + 1) = 0 ∧ k / (N + 1) < m then f (k / (N + 1)) else l.getD k 0 := by
  induction m with
  | zero => simp
  | succ m ih =>
    rw [List.range_succ, List.foldl_append]
    simp only [List.foldl_cons, List.foldl_nil]
    have hl := foldl_set_length N f m l
    rw [List.getD_eq_getElem?_getD, List.getElem?_set]
    by_cases h : (N + 1) * m = k
    · have h1 : k % (N + 1) = 0 := by rw [← h]; simp
      have h2 : k / (N + 1) = m := by rw [← h]; simp
      rw [if_pos h, if_pos (by rw [hl, h]; exact hk), if_pos ⟨h1, by omega⟩, h2]
      rfl
    · rw [if_neg h, ← List.getD_eq_getElem?_getD, ih]
      have : (k % (N + 1) = 0 ∧ k / (N + 1) < m) ↔ (k % (N + 1) = 0 ∧ k / (N + 1) < m + 1) := by
        constructor
        · rintro ⟨a, b⟩; exact ⟨a, by omega⟩
        · rintro ⟨a, b⟩
          refine ⟨a, ?_⟩
          have := Nat.div_add_mod k (N + 1)
          rw [a, Nat.add_zero] at this
          rcases Nat.lt_succ_iff_lt_or_eq.1 b with b | b
          · exact b
          · exact absurd (b ▸ this) h
      simp only [this]

theorem diagonalEntries_length (x : List ℝ) : (diagonalEntries x).length = x.length ^ 2 := by
  unfold diagonalEntries
  rw [foldl_set_length x.length (fun i => x.getD i 0)]
  simp

theorem diagonalEntries_getD (x : List ℝ) (i j : ℕ) (hi : i < x.length) (hj : j < x.length) :
    (diagonalEntries x).getD (i * x.length + j) 0 = if i = j then x.getD i 0 else 0 := by
  have hlt : i * x.length + j < x.length ^ 2 := by nlinarith
  unfold diagonalEntries
  rw [foldl_set_getD x.length (fun i => x.getD i 0) _ _ _ (by simpa using hlt)]
  have hz : (List.replicate (x.length ^ 2) (0 : ℝ)).getD (i * x.length + j) 0 = 0 := by
    rw [List.getD_eq_getElem?_getD, List.getElem?_replicate]; split <;> rfl
  rw [hz]
  by_cases h : i = j
  · subst h
    have e : i * x.length + i = (x.length + 1) * i := by ring
    rw [e]
    simp [hi]
  · rw [if_neg h, if_neg]
    rintro ⟨h0, h1⟩
    have hd := Nat.div_add_mod (i * x.length + j) (x.length + 1)
    rw [h0, Nat.add_zero] at hd
    set k := (i * x.length + j) / (x.length + 1)
    have e : k + x.length * k = j + x.length * i := by nlinarith
    have h2 : (k + x.length * k) % x.length = k := by
      rw [Nat.add_mul_mod_self_left, Nat.mod_eq_of_lt h1]
    have h3 : (j + x.length * i) % x.length = j := by
      rw [Nat.add_mul_mod_self_left, Nat.mod_eq_of_lt hj]
    have hkj : k = j := by rw [← h2, e, h3]
    have : x.length * k = x.length * i := by omega
    have := Nat.eq_of_mul_eq_mul_left (by omega) this
    omega

theorem diagonalM_eq {n : ℕ} (x : Fin n → ℝ) : diagonalM x = Matrix.diagonal x := by
  ext i j
  have h := diagonalEntries_getD (List.ofFn x) i j (by simp) (by simp)
  simp only [List.length_ofFn] at h
  simp only [diagonalM, Matrix.of_apply, h, Matrix.diagonal_apply, Fin.ext_iff]
  split
  · rw [List.getD_eq_getElem _ _ (by simp)]; simp
  · rfl

end Dream.Bla
