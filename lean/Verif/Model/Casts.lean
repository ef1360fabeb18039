import Verif.Model.Layers

/-!
# dream/bla.py: shapes of arguments, casts and tests; dream/mesh.py: radial coordinates
-/

noncomputable section

namespace Dream.Bla

/-- A coefficient function, at a point: its shape `cf.dims`, its entries in row major order and
whether `str(cf)` is `'ZeroCoefficientFunction'`. -/
structure CF where
  dims : List ℕ
  entries : List ℝ
  zeroName : Bool := false

/-- An argument of the helpers: a number, a coefficient function, a sequence or generator of
scalars, or anything else. Sequences of vectors, which NGSolve joins, are not modelled. -/
inductive Arg
  | num (x : ℝ)
  | cf (c : CF)
  | seq (xs : List ℝ)
  | other

/-- `ngs.CF(x)` of a number. -/
def CF.ofNumber (x : ℝ) : CF := ⟨[], [x], false⟩

/-- `ngs.CF(tuple)` of scalars: a vector; NGSolve gives no shape to a single entry. -/
def CF.ofTuple (xs : List ℝ) : CF := ⟨if xs.length = 1 then [] else [xs.length], xs, false⟩

/-- `as_scalar` (dream/bla.py:85-91). -/
def asScalar : Arg → Except PyErr CF
  | .cf c => .ok c
  | .num x => .ok (.ofNumber x)
  | _ => .error .notImplemented

/-- `is_scalar` (dream/bla.py:94-100). -/
def isScalar : Arg → Bool
  | .num _ => true
  | .cf c => c.dims.isEmpty
  | _ => false

/-- `as_vector` (dream/bla.py:103-109). -/
def asVector : Arg → Except PyErr CF
  | .cf c => .ok c
  | .seq xs => .ok (.ofTuple xs)
  | _ => .error .notImplemented

/-- `is_vector` (dream/bla.py:112-116). -/
def isVector : Arg → Bool
  | .cf c => c.dims.length == 1
  | _ => false

/-- `as_matrix` (dream/bla.py:119-138); on sequences it is `asMatrix` of the model of the helpers. -/
def asMatrixArg (x : Arg) (dims : Option (ℕ × ℕ)) : Except PyErr CF :=
  match x with
  | .cf c => .ok c
  | .seq xs => do
    let A ← asMatrix xs dims
    .ok ⟨[A.rows, A.cols], A.entries, false⟩
  | _ => .error .notImplemented

/-- `is_matrix` (dream/bla.py:141-145). -/
def isMatrix : Arg → Bool
  | .cf c => c.dims.length == 2
  | _ => false

/-- `is_symmetric` (dream/bla.py:148-152). -/
def isSymmetric : Arg → Bool
  | .cf c => isMatrix (.cf c) && c.dims[0]? == c.dims[1]?
  | _ => false

/-- `is_zero` (dream/bla.py:155-161). -/
def isZero : Arg → Except PyErr Bool
  | .num x => open Classical in .ok (decide (x = 0))
  | .cf c => .ok c.zeroName
  | _ => .error .typeError

/-- `ngs.OuterProduct` of two coefficient functions with the entries `x` and `y`: the matrix of all
products. -/
def outerEntries (x y : List ℝ) : List ℝ := x.flatMap fun a => y.map fun b => a * b

/-- `outer` (dream/bla.py:79-82). -/
def outer (x y : Arg) : Except PyErr CF := do
  let x ← asVector x
  let y ← asVector y
  .ok ⟨[x.entries.length, y.entries.length], outerEntries x.entries y.entries, false⟩

end Dream.Bla

namespace Dream

/-- The radius of `BufferCoord.polar` and `BufferCoord.spherical` (dream/mesh.py:60-68): the
coordinates are paired with the components of `shift` by `zip`, which stops at the shorter one. -/
def radius (coords shift : List ℝ) : ℝ :=
  Real.sqrt ((coords.zip shift).map fun x => (x.1 - x.2) ^ 2).sum

/-- The coordinate of `BufferCoord.polar` (dream/mesh.py:60-63). -/
def polarCoord (r0 rn : ℝ) (shift : List ℝ) (p : Fin 3 → ℝ) : ℝ :=
  bufferCoord (radius [p 0, p 1] shift) r0 rn

/-- The coordinate of `BufferCoord.spherical` (dream/mesh.py:65-68). -/
def sphericalCoord (r0 rn : ℝ) (shift : List ℝ) (p : Fin 3 → ℝ) : ℝ :=
  bufferCoord (radius [p 0, p 1, p 2] shift) r0 rn

end Dream
