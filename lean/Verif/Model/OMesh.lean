import Verif.Model.Basic
import Mathlib.Analysis.SpecialFunctions.Trigonometric.Basic
import Mathlib.Analysis.SpecialFunctions.Pow.Real

/-!
# dream/mesh.py: `get_cylinder_omesh`

The numbers of elements are integers. A point number returned by `mesh.Add` is modelled by the
position of the point in `pnums`. The geometry object, the face descriptors and the names of the
boundaries are not modelled.
-/

namespace Dream

/-- Python's `range(a, b)` on integers. -/
def pyRangeInt (a b : ℤ) : List ℤ := (List.range (b - a).toNat).map fun (k : ℕ) => a + (k : ℤ)

/-- Python's subscript `xs[i]` of a list of length `n`: the position, or `IndexError`. -/
def pyIndex (n : ℕ) (i : ℤ) : Except PyErr ℕ :=
  if 0 ≤ i ∧ i < n then .ok i.toNat
  else if i < 0 ∧ -(n : ℤ) ≤ i then .ok (i + n).toNat
  else .error .indexError

/-- The points (dream/mesh.py:751-760) as pairs of polar index `i` and radial index `j`. The division
`j/n_radial` raises `ZeroDivisionError` for the first point if `n_radial` is 0. -/
def omeshPoints (n_polar n_radial : ℤ) : Except PyErr (List (ℤ × ℤ)) :=
  let ps := (pyRangeInt 0 (n_radial + 1)).flatMap fun j => (pyRangeInt 0 n_polar).map fun i => (i, j)
  if ps ≠ [] ∧ n_radial = 0 then .error .zeroDivision else .ok ps

/-- The vertices of the triangles as subscripts of `pnums` (dream/mesh.py:769-796). -/
def omeshTriangles (n_polar n_radial : ℤ) : List (ℤ × ℤ × ℤ) :=
  (pyRangeInt 0 n_radial).flatMap fun j =>
    ((pyRangeInt 0 (n_polar - 1)).flatMap fun i =>
      [(i + j * n_polar, i + (j + 1) * n_polar, i + 1 + j * n_polar),
       (i + (j + 1) * n_polar, i + (j + 1) * n_polar + 1, i + 1 + j * n_polar)]) ++
    [(n_polar - 1 + j * n_polar, n_polar - 1 + (j + 1) * n_polar, j * n_polar),
     (0 + j * n_polar, n_polar - 1 + (j + 1) * n_polar, (j + 1) * n_polar)]

/-- `int(-n_radial/2 + n_polar/4)` (dream/mesh.py:803); `int` truncates towards zero. -/
def omeshOffset (n_polar n_radial : ℤ) : ℤ := Int.tdiv (n_polar - 2 * n_radial) 4

/-- The boundary edges with their index (dream/mesh.py:799-813); `int(n_polar/2)` truncates. -/
def omeshEdges (n_polar n_radial : ℤ) : List ((ℤ × ℤ) × ℕ) :=
  let offset := omeshOffset n_polar n_radial
  ((pyRangeInt 0 (n_polar - 1)).map fun i => ((i, i + 1), 1)) ++
  [((n_polar - 1, 0), 1)] ++
  ((pyRangeInt 0 offset).map fun i => ((i + n_radial * n_polar, i + n_radial * n_polar + 1), 3)) ++
  ((pyRangeInt offset (Int.tdiv n_polar 2 + offset)).map fun i =>
    ((i + n_radial * n_polar, i + n_radial * n_polar + 1), 2)) ++
  ((pyRangeInt (Int.tdiv n_polar 2 + offset) (n_polar - 1)).map fun i =>
    ((i + n_radial * n_polar, i + n_radial * n_polar + 1), 3)) ++
  [((n_radial * n_polar, n_polar - 1 + n_radial * n_polar), 3)]

/-- The generated mesh: grid indices of the points, triangles and boundary edges by point number. -/
structure OMesh where
  points : List (ℤ × ℤ)
  triangles : List (ℕ × ℕ × ℕ)
  edges : List ((ℕ × ℕ) × ℕ)

/-- `get_cylinder_omesh` (dream/mesh.py:706-818). The checks use Python's `%`, the remainder with the
sign of the divisor (here `Int.emod`, the divisor is positive). -/
def getCylinderOMesh (n_polar n_radial : ℤ) : Except PyErr OMesh := do
  if n_polar % 4 > 0 then throw .valueError
  if n_radial % 2 > 0 then throw .valueError
  if n_radial > Int.tdiv n_polar 2 then throw .valueError
  let points ← omeshPoints n_polar n_radial
  let n := points.length
  let triangles ← (omeshTriangles n_polar n_radial).mapM fun t => do
    let a ← pyIndex n t.1
    let b ← pyIndex n t.2.1
    let c ← pyIndex n t.2.2
    pure (a, b, c)
  let edges ← (omeshEdges n_polar n_radial).mapM fun e => do
    let a ← pyIndex n e.1.1
    let b ← pyIndex n e.1.2
    pure ((a, b), e.2)
  pure ⟨points, triangles, edges⟩

noncomputable section

/-- The radius of the points with radial index `j` (dream/mesh.py:758). -/
def omeshRadius (ri ro geom : ℝ) (n_radial j : ℤ) : ℝ :=
  (ro - ri) * ((j : ℝ) / n_radial) ^ geom + ri

/-- The coordinates of the point with polar index `i` and radial index `j`
(dream/mesh.py:754-760). -/
def omeshCoord (ri ro geom : ℝ) (n_polar n_radial i j : ℤ) : ℝ × ℝ :=
  let phi := Real.pi / n_polar * j
  let r := omeshRadius ri ro geom n_radial j
  (r * Real.cos (2 * Real.pi * i / n_polar + phi), r * Real.sin (2 * Real.pi * i / n_polar + phi))

end

end Dream
