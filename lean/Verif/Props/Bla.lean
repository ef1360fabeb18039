import Verif.Lemmas.Bla
import Mathlib.Tactic.IntervalCases

/-!
# C45: scalar and matrix helpers
-/

namespace Dream
open Matrix

/-- **C45** The `IfPos` based helpers are absolute value, maximum and minimum. -/
theorem C45_abs_max_min (x y : ℝ) :
    Bla.abs x = |x| ∧ Bla.max x y = Max.max x y ∧ Bla.min x y = Min.min x y ∧
    Bla.max x = Max.max x 0 ∧ Bla.min x = Min.min x 0 :=
  ⟨Bla.abs_eq x, Bla.max_eq x y, Bla.min_eq x y, Bla.max_eq x 0, Bla.min_eq x 0⟩

/-- **C45** `interval` clamps: inside the bounds it is the identity, below and above it is the
bound, and for ordered bounds the result lies between them. -/
theorem C45_interval {x lo hi : ℝ} (h : lo ≤ hi) :
    lo ≤ Bla.interval x lo hi ∧ Bla.interval x lo hi ≤ hi ∧
    (lo ≤ x → x ≤ hi → Bla.interval x lo hi = x) ∧
    (x ≤ lo → Bla.interval x lo hi = lo) ∧ (hi ≤ x → Bla.interval x lo hi = hi) := by
  unfold Bla.interval
  rw [Bla.max_eq, Bla.min_eq]
  refine ⟨le_min (le_max_right _ _) h, min_le_right _ _, fun h1 h2 => ?_, fun h1 => ?_, fun h1 => ?_⟩
  · rw [max_eq_left h1, min_eq_left h2]
  · rw [max_eq_right h1, min_eq_left h]
  · rw [max_eq_left (h.trans h1), min_eq_right h1]

/-- **C45** `diagonal` of a vector of any length is the square matrix with the vector on the
diagonal and zeros elsewhere. -/
theorem C45_diagonal (x : List ℝ) : ∃ A, Bla.diagonal x = .ok A ∧ A.rows = x.length ∧
    A.cols = x.length ∧ ∀ i j, (hi : i < x.length) → j < x.length →
      A.get? i j = some (if i = j then x[i] else 0) := by
  refine ⟨_, rfl, rfl, rfl, fun i j hi hj => ?_⟩
  have hlt : i * x.length + j < (Bla.diagonalEntries x).length := by
    rw [Bla.diagonalEntries_length]; nlinarith
  have h := Bla.diagonalEntries_getD x i j hi hj
  simp only [Bla.MatCF.get?, hi, hj, and_self, if_true]
  rw [List.getElem?_eq_getElem hlt, ← List.getD_eq_getElem _ 0 hlt, h,
    List.getD_eq_getElem _ _ hi]

/-- **C45** The diagonal matrix used by the solver is `diag(x)`. -/
theorem C45_diagonal_matrix {n : ℕ} (x : Fin n → ℝ) : Bla.diagonalM x = Matrix.diagonal x :=
  Bla.diagonalM_eq x

/-- **C45** `trace` sums the diagonal of every square matrix and refuses all others. -/
theorem C45_trace (A : Bla.MatCF) :
    (A.rows ≠ A.cols → Bla.trace A = .error .valueError) ∧
    (∀ n : ℕ, ∀ B : Matrix (Fin n) (Fin n) ℝ, A.rows = n → A.cols = n →
      (∀ i j : Fin n, A.get? i j = some (B i j)) → Bla.trace A = .ok (Matrix.trace B)) := by
  refine ⟨fun h => by simp [Bla.trace, h], fun n B hr hc h => ?_⟩
  simp only [Bla.trace, hr, hc, if_true, Matrix.trace, Matrix.diag]
  congr 1
  rw [← List.sum_ofFn, List.ofFn_eq_map, ← List.map_coe_finRange_eq_range, List.map_map]
  congr 1
  refine List.map_congr_left fun i _ => ?_
  simp [h i i]

/-- **C45** `as_matrix` without dims accepts exactly the square numbers of entries. -/
theorem C45_as_matrix (x : List ℝ) :
    ((∃ k, k * k = x.length) ↔ ∃ A, Bla.asMatrix x none = .ok A) ∧
    (∀ A, Bla.asMatrix x none = .ok A → A.rows = A.cols ∧ A.rows * A.cols = x.length ∧
      A.entries = x) ∧
    (∀ e, Bla.asMatrix x none = .error e → e = .valueError) := by
  simp only [Bla.asMatrix]
  refine ⟨⟨?_, ?_⟩, ?_, ?_⟩
  · rintro ⟨k, hk⟩
    rw [← hk, Nat.sqrt_eq]
    simp [sq]
  · rintro ⟨A, hA⟩
    split at hA
    · cases hA
    · rename_i h
      exact ⟨Nat.sqrt x.length, by rw [← sq]; exact not_not.1 h⟩
  · intro A hA
    split at hA
    · cases hA
    · rename_i h
      cases hA
      exact ⟨rfl, by rw [← sq]; exact not_not.1 h, rfl⟩
  · intro e he
    split at he
    · cases he; rfl
    · cases he

/-- **C45** The symmetric constructor gives a symmetric matrix whose upper triangle is the
given vector (times the factor), for three (2D) or six (3D) components, and refuses other
lengths. -/
theorem C45_symmetric (x : List ℝ) (f : ℝ) :
    (∀ A, Bla.symmetricMatrixFromVector x f = .ok A →
      (x.length = A.rows * (A.rows + 1) / 2) ∧ A.rows = A.cols ∧
      (∀ i j, A.get? i j = A.get? j i) ∧
      (List.range A.rows).flatMap (fun i => ((List.range A.rows).drop i).map
        fun j => A.get? i j) = x.map fun v => some (f * v)) ∧
    (Bla.symmetricMatrixFromVector x f = .error .valueError ↔ x.length ≠ 3 ∧ x.length ≠ 6) := by
  constructor
  · intro A hA
    unfold Bla.symmetricMatrixFromVector at hA
    split at hA
    · cases hA
      refine ⟨by simp, rfl, ?_, ?_⟩
      · intro i j
        simp only [Bla.MatCF.get?]
        by_cases hi : i < 2 <;> by_cases hj : j < 2 <;> simp [hi, hj]
        interval_cases i <;> interval_cases j <;> simp
      · simp [Bla.MatCF.get?, List.range_succ]
    · cases hA
      refine ⟨by simp, rfl, ?_, ?_⟩
      · intro i j
        simp only [Bla.MatCF.get?]
        by_cases hi : i < 3 <;> by_cases hj : j < 3 <;> simp [hi, hj]
        interval_cases i <;> interval_cases j <;> simp
      · simp [Bla.MatCF.get?, List.range_succ]
    · cases hA
  · unfold Bla.symmetricMatrixFromVector
    split
    · simp
    · simp
    · rename_i h1 h2
      simp only [true_iff]
      constructor
      · intro h
        obtain ⟨a, b, c, rfl⟩ := List.length_eq_three.1 h
        exact h1 _ _ _ rfl
      · intro h
        match x, h with
        | [a, b, c, d, e, g], _ => exact h2 _ _ _ _ _ _ rfl

/-- **C45** The skew-symmetric constructor gives a skew-symmetric matrix with zero diagonal;
its strictly lower triangle is the scalar, respectively the components with alternating sign. -/
theorem C45_skew (x : ℝ ⊕ List ℝ) (f : ℝ) (A : Bla.MatCF)
    (hA : Bla.skewsymmetricMatrixFromVector x f = .ok A) :
    A.rows = A.cols ∧ (∀ i j, A.get? j i = (A.get? i j).map (-·)) ∧
    (∀ a, x = .inl a → A.rows = 2 ∧ A.get? 1 0 = some (f * a)) ∧
    (∀ a b c, x = .inr [a, b, c] → A.rows = 3 ∧ A.get? 1 0 = some (f * a) ∧
      A.get? 2 0 = some (-(f * b)) ∧ A.get? 2 1 = some (f * c)) := by
  unfold Bla.skewsymmetricMatrixFromVector at hA
  split at hA
  · cases hA
    refine ⟨rfl, ?_, ?_, ?_⟩
    · intro i j
      simp only [Bla.MatCF.get?]
      by_cases hi : i < 2 <;> by_cases hj : j < 2 <;> simp [hi, hj]
      interval_cases i <;> interval_cases j <;> simp
    · rintro a ⟨⟩; simp [Bla.MatCF.get?]
    · simp
  · cases hA
    refine ⟨rfl, ?_, ?_, ?_⟩
    · intro i j
      simp only [Bla.MatCF.get?]
      by_cases hi : i < 3 <;> by_cases hj : j < 3 <;> simp [hi, hj]
      interval_cases i <;> interval_cases j <;> simp
    · simp
    · rintro a b c ⟨⟩; simp [Bla.MatCF.get?]
  · cases hA

/-- **C45** `unit_vector` has length one and points in the direction of the argument, for
every non-zero vector in every dimension. -/
theorem C45_unit_vector {n : ℕ} {x : Fin n → ℝ} (hx : x ≠ 0) :
    Bla.unitVector x ⬝ᵥ Bla.unitVector x = 1 ∧ ∃ a : ℝ, 0 < a ∧ Bla.unitVector x = a • x := by
  have h : 0 < x ⬝ᵥ x := by
    obtain ⟨i, hi⟩ := Function.ne_iff.1 hx
    exact Finset.sum_pos' (fun j _ => mul_self_nonneg _)
      ⟨i, Finset.mem_univ _, mul_self_pos.2 (by simpa using hi)⟩
  refine ⟨?_, 1 / √(x ⬝ᵥ x), one_div_pos.2 (Real.sqrt_pos.2 h), rfl⟩
  simp only [Bla.unitVector, smul_dotProduct, dotProduct_smul, smul_eq_mul]
  have := Real.mul_self_sqrt h.le
  have h' : √(x ⬝ᵥ x) ≠ 0 := (Real.sqrt_pos.2 h).ne'
  field_simp
  nlinarith

example : Bla.interval 7 0 5 = 5 := (C45_interval (by norm_num)).2.2.2.2 (by norm_num)
example : ∃ A, Bla.asMatrix [1, 2, 3, 4] none = .ok A :=
  (C45_as_matrix _).1.1 ⟨2, rfl⟩
example : ∃ A, Bla.symmetricMatrixFromVector [1, 2, 3, 4, 5, 6] 2 = .ok A := ⟨_, rfl⟩
example : (![3, 4] : Fin 2 → ℝ) ≠ 0 := fun h => by simpa using congrFun h 0

end Dream
