import Verif.Spec.Casts
import Verif.Props.Layers

/-!
# C98: casts and tests of scalars, vectors and matrices; C41: radial layers
-/

noncomputable section

namespace Dream
open Bla

/-- **C98** The tests exclude each other, and on coefficient functions they see nothing but the number
of dimensions: functions of more than two dimensions pass none. Numbers are scalars; sequences and other
objects pass no test. -/
theorem C98_tests (a : Arg) :
    ¬ (isScalar a = true ∧ isVector a = true) ∧ ¬ (isScalar a = true ∧ isMatrix a = true) ∧
    ¬ (isVector a = true ∧ isMatrix a = true) ∧
    (∀ c, a = .cf c → (isScalar a = true ↔ c.dims.length = 0) ∧
      (isVector a = true ↔ c.dims.length = 1) ∧ (isMatrix a = true ↔ c.dims.length = 2) ∧
      (isSymmetric a = true ↔ ∃ n, c.dims = [n, n])) ∧
    (∀ x, a = .num x → isScalar a = true) ∧
    ((∀ c, a ≠ .cf c) → (∀ x, a ≠ .num x) → isScalar a = false ∧ isVector a = false ∧
      isMatrix a = false ∧ isSymmetric a = false) := by
  cases a with
  | num x => simp [isScalar, isVector, isMatrix]
  | seq xs => simp [isScalar, isVector, isMatrix, isSymmetric]
  | other => simp [isScalar, isVector, isMatrix, isSymmetric]
  | cf c =>
    obtain ⟨dims, e, z⟩ := c
    rcases dims with _ | ⟨d, _ | ⟨d', _ | ⟨d'', l⟩⟩⟩ <;>
      simp [isScalar, isVector, isMatrix, isSymmetric]
    exact eq_comm

/-- **C98** What the casts accept: numbers become scalars, sequences of other than one entry vectors,
sequences of a square number of entries square matrices (of any number with explicit dimensions), each
with the entries given, in their order. All else but coefficient functions is refused. -/
theorem C98_casts (x : ℝ) (xs : List ℝ) :
    (∃ c, asScalar (.num x) = .ok c ∧ Spec.HasShape c .scalar [x]) ∧
    (xs.length ≠ 1 → ∃ c, asVector (.seq xs) = .ok c ∧ Spec.HasShape c (.vector xs.length) xs) ∧
    (∀ n, xs.length = n ^ 2 →
      ∃ c, asMatrixArg (.seq xs) none = .ok c ∧ Spec.HasShape c (.matrix n n) xs) ∧
    ((∀ n, xs.length ≠ n ^ 2) → asMatrixArg (.seq xs) none = .error .valueError) ∧
    (∀ n m, ∃ c, asMatrixArg (.seq xs) (some (n, m)) = .ok c ∧ Spec.HasShape c (.matrix n m) xs) ∧
    asScalar (.seq xs) = .error .notImplemented ∧ asVector (.num x) = .error .notImplemented ∧
    (∀ d, asMatrixArg (.num x) d = .error .notImplemented) ∧
    asScalar .other = .error .notImplemented ∧ asVector .other = .error .notImplemented ∧
    ∀ d, asMatrixArg .other d = .error .notImplemented := by
  refine ⟨⟨_, rfl, rfl, rfl⟩, fun h => ⟨_, rfl, rfl, ?_⟩, fun n hn => ?_, fun h => ?_,
    fun n m => ⟨_, rfl, rfl, rfl⟩, rfl, rfl, fun _ => rfl, rfl, rfl, fun _ => rfl⟩
  · simp [CF.ofTuple, h]
  · have : Nat.sqrt xs.length = n := by rw [hn]; exact Nat.sqrt_eq' n
    refine ⟨⟨[n, n], xs, false⟩, ?_, rfl, rfl⟩
    simp [asMatrixArg, asMatrix, this, hn, bind, Except.bind]
  · have : Nat.sqrt xs.length ^ 2 ≠ xs.length := fun e => h _ e.symm
    simp [asMatrixArg, asMatrix, this, bind, Except.bind]

/-- **C98** Casting twice is casting once. -/
theorem C98_idempotent (a : Arg) (c : CF) :
    (asScalar a = .ok c → asScalar (.cf c) = .ok c) ∧ (asVector a = .ok c → asVector (.cf c) = .ok c) ∧
    ∀ d d', asMatrixArg a d = .ok c → asMatrixArg (.cf c) d' = .ok c :=
  ⟨fun _ => rfl, fun _ => rfl, fun _ _ _ => rfl⟩

/-- **C98 fails**: the casts do not establish the shape they name. Every coefficient function is handed
back as it is, so the cast to a scalar returns vectors and matrices, that to a vector scalars and
matrices, that to a matrix scalars and vectors, even if other dimensions are asked for; and the cast of
a sequence of one entry is a scalar, not a vector. -/
theorem C98_fails_shapes :
    (∀ c : CF, asScalar (.cf c) = .ok c ∧ asVector (.cf c) = .ok c ∧
      ∀ d, asMatrixArg (.cf c) d = .ok c) ∧
    (∃ c, asScalar (.cf c) = .ok c ∧ isVector (.cf c) = true) ∧
    (∃ c, asVector (.cf c) = .ok c ∧ isScalar (.cf c) = true) ∧
    (∃ c, asMatrixArg (.cf c) (some (3, 3)) = .ok c ∧ isVector (.cf c) = true) ∧
    ∀ x, ∃ c, asVector (.seq [x]) = .ok c ∧ isScalar (.cf c) = true ∧ isVector (.cf c) = false :=
  ⟨fun _ => ⟨rfl, rfl, fun _ => rfl⟩, ⟨⟨[2], [1, 2], false⟩, rfl, rfl⟩, ⟨⟨[], [1], false⟩, rfl, rfl⟩,
    ⟨⟨[2], [1, 2], false⟩, rfl, rfl⟩, fun _ => ⟨_, rfl, rfl, rfl⟩⟩

/-- **C98** (part that holds) A cast returns the shape it names unless it is given a coefficient function
of another shape or, for vectors, a sequence of one entry. Missing: these cases
(`C98_fails_shapes`). -/
theorem C98_shapes_partial (a : Arg) (c : CF) :
    ((∀ f, a = .cf f → isScalar a = true) → asScalar a = .ok c → isScalar (.cf c) = true) ∧
    ((∀ f, a = .cf f → isVector a = true) → (∀ x, a ≠ .seq [x]) → asVector a = .ok c →
      isVector (.cf c) = true) ∧
    ∀ d, (∀ f, a = .cf f → isMatrix a = true) → asMatrixArg a d = .ok c → isMatrix (.cf c) = true := by
  cases a with
  | num x =>
    refine ⟨fun _ h => ?_, fun _ _ h => (by cases h), fun d _ h => (by cases h)⟩
    cases h; rfl
  | other => exact ⟨fun _ h => (by cases h), fun _ _ h => (by cases h), fun d _ h => (by cases h)⟩
  | cf f =>
    refine ⟨fun hf h => ?_, fun hf _ h => ?_, fun d hf h => ?_⟩ <;>
      (cases h; exact hf _ rfl)
  | seq xs =>
    refine ⟨fun _ h => (by cases h), fun _ h1 h => ?_, fun d _ h => ?_⟩
    · cases h
      have : xs.length ≠ 1 := fun e => by
        obtain ⟨x, rfl⟩ := List.length_eq_one_iff.1 e
        exact h1 x rfl
      simp [isVector, CF.ofTuple, this]
    · simp only [asMatrixArg] at h
      cases hA : asMatrix xs d with
      | error e => rw [hA] at h; cases h
      | ok A => rw [hA] at h; cases h; rfl

example : isScalar (.num 2) = true ∧ isMatrix (.cf ⟨[2, 2], [1, 2, 3, 4], false⟩) = true := ⟨rfl, rfl⟩

/-- **C98** Whether a number is zero is decided by its value; whether a coefficient function is zero, by
its name alone: of two functions with the same values one may count as zero and the other not. -/
theorem C98_zero (x : ℝ) (c : CF) :
    (isZero (.num x) = .ok true ↔ x = 0) ∧ (isZero (.num x) = .ok false ↔ x ≠ 0) ∧
    (∃ c₁ c₂ : CF, c₁.dims = c.dims ∧ c₁.entries = c.entries ∧ c₂.dims = c.dims ∧
      c₂.entries = c.entries ∧ isZero (.cf c₁) = .ok true ∧ isZero (.cf c₂) = .ok false) ∧
    ∀ xs, isZero (.seq xs) = .error .typeError := by
  refine ⟨?_, ?_, ⟨⟨c.dims, c.entries, true⟩, ⟨c.dims, c.entries, false⟩, rfl, rfl, rfl, rfl, rfl, rfl⟩,
    fun _ => rfl⟩ <;> simp [isZero]

theorem outerEntries_length (x y : List ℝ) : (outerEntries x y).length = x.length * y.length := by
  induction x with
  | nil => simp [outerEntries]
  | cons a x ih =>
    have : outerEntries (a :: x) y = y.map (fun b => a * b) ++ outerEntries x y := by
      simp [outerEntries]
    rw [this, List.length_append, ih]
    simp [Nat.succ_mul, Nat.add_comm]

theorem outerEntries_get (x y : List ℝ) (i j : ℕ) (hi : i < x.length) (hj : j < y.length) :
    (outerEntries x y)[i * y.length + j]? = some (x[i] * y[j]) := by
  induction x generalizing i with
  | nil => simp at hi
  | cons a x ih =>
    have e : outerEntries (a :: x) y = y.map (fun b => a * b) ++ outerEntries x y := by
      simp [outerEntries]
    rw [e]
    cases i with
    | zero =>
      rw [Nat.zero_mul, Nat.zero_add, List.getElem?_append_left (by simpa using hj)]
      simp [hj]
    | succ i =>
      rw [List.getElem?_append_right (by simp [Nat.succ_mul]; omega)]
      have : (i + 1) * y.length + j - (y.map fun b => a * b).length = i * y.length + j := by
        simp [Nat.succ_mul]; omega
      rw [this, ih i (by simpa using hi)]
      simp

/-- **C98** The outer product of two sequences has as many rows as the first has entries, as many columns
as the second, and the product of the entries `i` and `j` in row `i` and column `j`. -/
theorem C98_outer (x y : List ℝ) : ∃ A, outer (.seq x) (.seq y) = .ok A ∧
    A.dims = [x.length, y.length] ∧ A.entries.length = x.length * y.length ∧
    ∀ i j (hi : i < x.length) (hj : j < y.length),
      A.entries[i * y.length + j]? = some (x[i] * y[j]) :=
  ⟨_, rfl, rfl, outerEntries_length x y, fun i j hi hj => outerEntries_get x y i j hi hj⟩

example : outer (.seq [1, 2]) (.seq [3, 4, 5]) = .ok ⟨[2, 3], [1 * 3, 1 * 4, 1 * 5, 2 * 3, 2 * 4, 2 * 5],
    false⟩ := rfl

/-! ### Radial layers -/

theorem polar_radius (p : Fin 3 → ℝ) (a b : ℝ) :
    radius [p 0, p 1] [a, b] = Spec.planeDist ![p 0, p 1] ![a, b] := by
  simp [radius, Spec.planeDist, EuclideanSpace.dist_eq, Real.dist_eq, sq_abs]

theorem spherical_radius (p : Fin 3 → ℝ) (a b c : ℝ) :
    radius [p 0, p 1, p 2] [a, b, c] = Spec.spaceDist p ![a, b, c] := by
  simp [radius, Spec.spaceDist, EuclideanSpace.dist_eq, Real.dist_eq, sq_abs, Fin.sum_univ_three,
    add_assoc]

/-- **C41** Radial layers: the coordinate is the distance from the centre between the radii `r0 < rn`,
`r0` inside and `rn` outside; for cylindrical layers the distance from the axis, whatever `z` is. -/
theorem C41_radial {r0 rn : ℝ} (h : r0 < rn) (p : Fin 3 → ℝ) (a b c : ℝ) :
    polarCoord r0 rn [a, b] p = Max.max r0 (Min.min rn (Spec.planeDist ![p 0, p 1] ![a, b])) ∧
    sphericalCoord r0 rn [a, b, c] p = Max.max r0 (Min.min rn (Spec.spaceDist p ![a, b, c])) := by
  have key : ∀ x, bufferCoord x r0 rn = Max.max r0 (Min.min rn x) := by
    intro x
    obtain ⟨-, h1, h2, h3⟩ := C41_coordinate (x := x) h.ne
    have hp : 0 < rn - r0 := sub_pos.2 h
    rcases le_total x r0 with hx | hx
    · rw [(h1 (mul_nonpos_of_nonpos_of_nonneg (sub_nonpos.2 hx) hp.le)).2, min_eq_right (hx.trans h.le),
        max_eq_left hx]
    · rcases le_total rn x with hy | hy
      · rw [(h2 (mul_le_mul_of_nonneg_right (sub_le_sub_right hy _) hp.le)).2, min_eq_left hy,
          max_eq_right h.le]
      · rw [(h3 (mul_nonneg (sub_nonneg.2 hx) hp.le)
          (mul_le_mul_of_nonneg_right (sub_le_sub_right hy _) hp.le)).2, min_eq_right hy,
          max_eq_right hx]
  rw [polarCoord, sphericalCoord, key, key, polar_radius, spherical_radius]
  exact ⟨rfl, rfl⟩

/-- **C41** A centre with a missing component silently leaves out this coordinate: the spherical
coordinate becomes a cylindrical one, the polar one the distance from a line, without a centre all is
inside. -/
theorem C41_short_centre (r0 rn a b : ℝ) (p : Fin 3 → ℝ) :
    sphericalCoord r0 rn [a, b] p = polarCoord r0 rn [a, b] p ∧
    polarCoord r0 rn [a] p = bufferCoord |p 0 - a| r0 rn ∧
    polarCoord r0 rn [] p = bufferCoord 0 r0 rn := by
  simp [sphericalCoord, polarCoord, radius, Real.sqrt_sq_eq_abs]

example : polarCoord 1 2 [0, 0] ![3, 4, 7] = 2 := by
  rw [(C41_radial (by norm_num) _ 0 0 0).1]
  have : Spec.planeDist ![3, 4] ![(0 : ℝ), 0] = 5 := by
    rw [Spec.planeDist, EuclideanSpace.dist_eq]
    simp [Real.dist_eq]
    rw [show (3 : ℝ) ^ 2 + 4 ^ 2 = 5 ^ 2 by norm_num]
    exact Real.sqrt_sq (by norm_num)
  simp [this]
  norm_num

end Dream
