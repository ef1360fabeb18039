import Verif.Model.Flow

/-!
# dream/bla.py: scalar, vector and matrix helpers

Coefficient functions are modelled by their values. The `Number` branches of `abs`, `max`
and `min` call Python's built-ins and are the mathematical functions by definition; the
coefficient function branches are modelled here.
-/

noncomputable section

namespace Dream.Bla

/-- NGSolve's `IfPos(x, a, b)`: `a` where `x > 0`, otherwise `b`. -/
def ifPos (x a b : ℝ) : ℝ := open Classical in if 0 < x then a else b

/-- `abs` on coefficient functions (dream/bla.py:19-21). -/
def abs (x : ℝ) : ℝ := ifPos x x (-x)

/-- `max` on coefficient functions (dream/bla.py:28-31), second argument 0 by default. -/
def max (x : ℝ) (y : ℝ := 0) : ℝ := ifPos (x - y) x y

/-- `min` on coefficient functions (dream/bla.py:38-41), second argument 0 by default. -/
def min (x : ℝ) (y : ℝ := 0) : ℝ := ifPos (x - y) y x

/-- `interval` (dream/bla.py:48-49). -/
def interval (x lo hi : ℝ) : ℝ := min (max x lo) hi

/-- A matrix valued coefficient function: its dims and its entries in row major order
(`ngs.CF(tuple, dims=dims)`). -/
structure MatCF where
  rows : ℕ
  cols : ℕ
  entries : List ℝ

/-- Entry `x[i, j]` of a matrix valued coefficient function; out of range is `none`. -/
def MatCF.get? (A : MatCF) (i j : ℕ) : Option ℝ :=
  if i < A.rows ∧ j < A.cols then A.entries[i * A.cols + j]? else none

/-- `trace` (dream/bla.py:52-57) with `is_symmetric` (dream/bla.py:148-152), which tests for
equal dims, i.e. squareness. -/
def trace (A : MatCF) : Except PyErr ℝ :=
  if A.rows = A.cols then
    .ok ((List.range A.rows).map fun i => (A.get? i i).getD 0).sum
  else .error .valueError

/-- The list that `diagonal` fills (dream/bla.py:63-65). -/
def diagonalEntries (x : List ℝ) : List ℝ :=
  (List.range x.length).foldl (fun mat i => mat.set ((x.length + 1) * i) (x.getD i 0))
    (List.replicate (x.length ^ 2) 0)

/-- `as_matrix` on a sequence (dream/bla.py:119-138). `int(sqrt(len))` is the integer square
root. With explicit dims the entries are passed on to `ngs.CF`; the check of NGSolve that the
number of entries fits the dims is not modelled. -/
def asMatrix (x : List ℝ) (dims : Option (ℕ × ℕ)) : Except PyErr MatCF :=
  match dims with
  | none =>
    let row := Nat.sqrt x.length
    if row ^ 2 ≠ x.length then .error .valueError else .ok ⟨row, row, x⟩
  | some (r, c) => .ok ⟨r, c, x⟩

/-- `diagonal` (dream/bla.py:60-67). -/
def diagonal (x : List ℝ) : Except PyErr MatCF :=
  asMatrix (diagonalEntries x) (some (x.length, x.length))

/-- `diagonal` as it is used by the solver: the matrix with the entries that
`diagonalEntries` produces, read in row major order. -/
def diagonalM {n : ℕ} (x : Fin n → ℝ) : Matrix (Fin n) (Fin n) ℝ :=
  Matrix.of fun i j => (diagonalEntries (List.ofFn x)).getD (i * n + j) 0

/-- `unit_vector` (dream/bla.py:70-72). -/
def unitVector {n : ℕ} (x : Fin n → ℝ) : Fin n → ℝ := (1 / √(x ⬝ᵥ x)) • x

/-- `symmetric_matrix_from_vector` (dream/bla.py:181-190). -/
def symmetricMatrixFromVector (x : List ℝ) (factor : ℝ := 1) : Except PyErr MatCF :=
  match x with
  | [a, b, c] => .ok ⟨2, 2, [a, b, b, c].map (factor * ·)⟩
  | [a, b, c, d, e, f] => .ok ⟨3, 3, [a, b, c, b, d, e, c, e, f].map (factor * ·)⟩
  | _ => .error .valueError

/-- `skewsymmetric_matrix_from_vector` (dream/bla.py:193-203): a scalar gives a 2x2 matrix, a
vector of length three a 3x3 matrix. -/
def skewsymmetricMatrixFromVector (x : ℝ ⊕ List ℝ) (factor : ℝ := 1) : Except PyErr MatCF :=
  match x with
  | .inl a => .ok ⟨2, 2, [0, -a, a, 0].map (factor * ·)⟩
  | .inr [a, b, c] => .ok ⟨3, 3, [0, -a, b, a, 0, -c, -b, c, 0].map (factor * ·)⟩
  | .inr _ => .error .valueError

end Dream.Bla
