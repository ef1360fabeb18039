import Verif.Model.Bla
import Verif.Model.Conditions
import Mathlib.Analysis.SpecialFunctions.Log.Basic
import Mathlib.Analysis.SpecialFunctions.Trigonometric.Arctan

/-!
# dream/mesh.py: buffer coordinates, sponge functions, grid mappings, grid deformations,
p-sponge layers; dream/bla.py: the fixpoint iteration

Coefficient functions of the coordinates are modelled by their value at one point.
-/

noncomputable section

namespace Dream

/-- `fixpoint_iteration` (dream/bla.py:164-178). `math` is the module `builtins`
(dream/bla.py:3), `math.abs` the absolute value. Log messages are not modelled. -/
def Bla.fixpointIteration (f : ℝ → ℝ) (tol : ℝ) : ℕ → ℝ → ℝ
  | 0, x0 => x0
  | it + 1, x0 =>
    let xn := f x0
    let err := |xn - x0|
    open Classical in if err < tol then xn else Bla.fixpointIteration f tol it xn

/-- The value of a `BufferCoord` at a point with coordinate `x` (dream/mesh.py:70-74). -/
def bufferCoord (x x0 xn : ℝ) : ℝ := Bla.interval ((x - x0) / (xn - x0)) 0 1 * (xn - x0) + x0

/-- `BufferCoord.get_normalised_coordinate` (dream/mesh.py:92-93). -/
def normalisedCoordinate (x x0 xn : ℝ) : ℝ := (bufferCoord x x0 xn - x0) / (xn - x0)

/-- `SpongeFunction.constant` (dream/mesh.py:100-102). -/
def spongeConstant (weight : ℝ) : ℝ := weight

/-- `SpongeFunction.polynomial` (dream/mesh.py:104-110), `order` a natural number. -/
def spongePolynomial (weight x x0 xn : ℝ) (order : ℕ := 3) : ℝ :=
  weight * normalisedCoordinate x x0 xn ^ order

/-- `SpongeFunction.penta` (dream/mesh.py:112-118). -/
def spongePenta (weight x x0 xn : ℝ) : ℝ :=
  let t := normalisedCoordinate x x0 xn
  weight * (6 * t ^ 5 - 15 * t ^ 4 + 10 * t ^ 3)

/-- A `GridMapping` (dream/mesh.py:121-213) on the buffer coordinate of a layer: the end points of
the layer and the map. -/
structure GridMapping where
  x0 : ℝ
  xn : ℝ
  map : ℝ → ℝ

/-- `GridMapping.linear` (dream/mesh.py:137-155). The check for the type of the coordinate is not
modelled, here and below. -/
def GridMapping.linear (scale x0 xn : ℝ) : Except PyErr GridMapping :=
  open Classical in
  if ¬ scale > 1 then .error .valueError
  else .ok ⟨x0, xn, fun x => scale * (x - x0) + x0⟩

/-- The mapping of `GridMapping.exponential` for a given constant `c1`
(dream/mesh.py:178-180). -/
def GridMapping.exponentialWith (c1 x0 xn : ℝ) : GridMapping :=
  let c0 := -1 / c1
  ⟨x0, xn, fun x => c0 * (1 - Real.exp (c1 * (x - x0))) + x0⟩

/-- The function iterated by `GridMapping.exponential` (dream/mesh.py:177). -/
def expStep (scale L c : ℝ) : ℝ := Real.log (1 + scale * L * c) / L

/-- `GridMapping.exponential` (dream/mesh.py:157-182). -/
def GridMapping.exponential (scale x0 xn : ℝ) : Except PyErr GridMapping :=
  open Classical in
  if ¬ scale > 1 then .error .valueError
  else
    let L := xn - x0
    let c1 := Bla.fixpointIteration (expStep scale L) 1e-16 100 L
    .ok (GridMapping.exponentialWith c1 x0 xn)

/-- The mapping of `GridMapping.tangential` for a given constant `c1`
(dream/mesh.py:205-207). -/
def GridMapping.tangentialWith (c1 x0 xn : ℝ) : GridMapping :=
  let c0 := 1 / c1
  ⟨x0, xn, fun x => c0 * Real.tan (c1 * (x - x0)) + x0⟩

/-- The function iterated by `GridMapping.tangential` (dream/mesh.py:204). -/
def tanStep (scale L c : ℝ) : ℝ := Real.arctan (scale * L * c) / L

/-- `GridMapping.tangential` (dream/mesh.py:184-209). -/
def GridMapping.tangential (scale x0 xn : ℝ) : Except PyErr GridMapping :=
  open Classical in
  if ¬ scale > 1 then .error .valueError
  else
    let L := xn - x0
    let c1 := Bla.fixpointIteration (tanStep scale L) 1e-16 100 L
    .ok (GridMapping.tangentialWith c1 x0 xn)

/-- `GridMapping.deformation` (dream/mesh.py:235-237) at a point with coordinate `x`. -/
def GridMapping.deformation (m : GridMapping) (x : ℝ) : ℝ :=
  m.map (bufferCoord x m.x0 m.xn) - bufferCoord x m.x0 m.xn

/-- `GridMapping.length` (dream/mesh.py:239-241), the thickness of the mapped layer. -/
def GridMapping.length (m : GridMapping) : ℝ := |m.map m.xn - m.map m.x0|

/-- One of the two mappings of `GridMapping.polar_to_cartesian` (dream/mesh.py:215-233) at a point
with radius `r` and direction cosine `e`. The map ignores its argument (lines 224-225). -/
def GridMapping.polarComponent (m : GridMapping) (r e : ℝ) : GridMapping :=
  ⟨m.x0 * e, m.xn * e, fun _ => m.map (bufferCoord r m.x0 m.xn) * e⟩

/-- The deformation of this component: its buffer coordinate is built from `r * cos_theta`
(dream/mesh.py:227-228) with the buffer coordinate `r`. -/
def GridMapping.polarDeformation (m : GridMapping) (r e : ℝ) : ℝ :=
  (m.polarComponent r e).deformation (bufferCoord r m.x0 m.xn * e)

/-! ### Grid deformations -/

/-- The stored data of a `GridDeformation` (dream/mesh.py:324-391): `x`, `y`, `z` hold no value
before they are first set; `function` is `None` or a vector. -/
structure GridDef (δ : Type) where
  x : Option δ := none
  y : Option δ := none
  z : Option δ := none
  dim : ℕ := 2
  function : Option (List δ) := none
  order : ℤ := 0

variable {δ : Type}

/-- `GridDeformation.set_function` (dream/mesh.py:350-361). A mapping is represented by its
deformation; the deformation of `GridMapping.none` is `zero`. `dim` is a natural number. -/
def GridDef.setFunction (zero : δ) (g : GridDef δ) (x y z : Option δ) : GridDef δ :=
  let x := x.getD (g.x.getD zero)
  let y := y.getD (g.y.getD zero)
  let z := z.getD (g.z.getD zero)
  { g with function := some (([x, y, z] : List δ).take g.dim) }

/-- Assignments of a user to a `GridDeformation`. -/
inductive GridDefOp (δ : Type)
  | x (m : Option δ) | y (m : Option δ) | z (m : Option δ) | dim (d : ℕ)
  | function (f : Option (List δ)) | order (o : ℤ)

/-- The setters (dream/mesh.py:303-314, 328-348, 376-384): `configuration.__set__` calls the
function, then stores what it returns (dream/config.py:168-172). -/
def GridDef.step (zero : δ) (g : GridDef δ) : GridDefOp δ → GridDef δ
  | .x m => { g.setFunction zero m none none with x := some (m.getD zero) }
  | .y m => { g.setFunction zero none m none with y := some (m.getD zero) }
  | .z m => { g.setFunction zero none none m with z := some (m.getD zero) }
  | .dim d => { g with dim := d }
  | .function f => { g with function := f }
  | .order o => { g with order := o }

/-- A new `GridDeformation`: `clear` resets every configuration to its default, first those of the
class, then those of its base class (dream/config.py:405-421). -/
def GridDef.init (zero : δ) : GridDef δ :=
  [.dim 2, .x none, .y none, .z none, .function none, .order 0].foldl (GridDef.step zero) {}

/-- Reading `function` (dream/mesh.py:307-310). -/
def GridDef.getFunction (g : GridDef δ) : Except PyErr (List δ) :=
  match g.function with
  | some f => .ok f
  | none => .error .valueError

/-- `DomainConditions.get_grid_deformation_function` (dream/mesh.py:594-597): without an argument
the grouping is computed but not assigned, and `get_space` (line 365) calls `.values()` of `None`.
With an argument the projected function depends on NGSolve, the model returns the grouping. -/
def getGridDeformationFunction {G : Type} (toPattern : G) (grid_deformations : Option G) :
    Except PyErr G :=
  match grid_deformations with
  | none => let _ := toPattern; .error .attributeError
  | some g => .ok g

/-- `SolverConfiguration.set_grid_deformation` (dream/solver.py:421-423). -/
def setGridDeformation {G : Type} (toPattern : G) : Except PyErr G :=
  getGridDeformationFunction toPattern none

/-! ### p-sponge layers -/

/-- The stored orders of a `PSpongeLayer`; both are set when it is created. -/
structure PSponge where
  high : ℤ
  low : ℤ
  deriving DecidableEq

/-- Setter of `high_order` (dream/mesh.py:439-449). `self.data.get("low_order", 0)` is the stored
value or 0, here always stored. -/
def PSponge.setHigh (s : PSponge) (h : ℚ) : Except PyErr PSponge :=
  if h < 0 then .error .valueError
  else if ¬ h ≥ s.low then .error .valueError
  else .ok { s with high := pyInt h }

/-- Setter of `low_order` (dream/mesh.py:451-460). -/
def PSponge.setLow (s : PSponge) (l : ℚ) : Except PyErr PSponge :=
  if l < 0 then .error .valueError
  else if ¬ (s.high : ℚ) ≥ l then .error .valueError
  else .ok { s with low := pyInt l }

/-- A new layer: `high_order` is reset first, when `low_order` is not stored yet, then
`low_order`. -/
def PSponge.init : PSponge := ⟨0, 0⟩

/-- `is_equal_order` (dream/mesh.py:462-464). -/
def PSponge.isEqualOrder (s : PSponge) : Bool := s.high = s.low

/-- Python's `range(start, stop, -step)` for `step ≥ 1`; `fuel` bounds the length. -/
def rangeDown (stop step : ℤ) : ℕ → ℤ → List ℤ
  | 0, _ => []
  | fuel + 1, start => if stop < start then start :: rangeDown stop step fuel (start - step) else []

/-- `get_pairs_of_polynomial_orders` (dream/mesh.py:466-469) for `step ≥ 1`; the range has at most
`highest - lowest` elements. -/
def orderPairs (highest lowest step : ℤ) : List (ℤ × ℤ) :=
  let orders := rangeDown lowest step (highest - lowest).toNat highest ++ [lowest, lowest]
  orders.dropLast.zip orders.tail

end Dream
