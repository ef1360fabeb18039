import Verif.Model.Hdg

/-!
# Piecewise constant spaces
-/

noncomputable section

namespace Dream
open Matrix

variable {n k : ℕ} {V B : Type}

/-- To which element the quadrature points belong and to which facet those of the element
boundaries. -/
structure Cells (V B E Fc : Type) where
  el : V → E
  elB : B → E
  facet : B → Fc

variable {E Fc : Type} [DecidableEq E] [DecidableEq Fc]

/-- The function that is one in the `i`-th equation on one element and zero elsewhere. -/
def Cells.elementTest (K : Cells V B E Fc) (e : E) (i : Fin k) : HdgTest n k V B where
  grad := fun _ => 0
  val := fun v => if K.el v = e then Pi.single i 1 else 0
  trace := fun b => if K.elB b = e then Pi.single i 1 else 0
  hat := fun _ => 0

/-- The facet function that is one in the `i`-th equation on one facet and zero elsewhere. -/
def Cells.facetTest (K : Cells V B E Fc) (f : Fc) (i : Fin k) : HdgTest n k V B where
  grad := fun _ => 0
  val := fun _ => 0
  trace := fun _ => 0
  hat := fun b => if K.facet b = f then Pi.single i 1 else 0

/-- The test functions of order zero: functions that are constant on the elements, and constant on
the facets. -/
def Cells.HasIndicators (K : Cells V B E Fc) (T : Set (HdgTest n k V B)) : Prop :=
  (∀ e i, K.elementTest e i ∈ T) ∧ ∀ f i, K.facetTest f i ∈ T

/-- The values `U` in the elements, their traces and the facet values are constant on the elements and
on the facets. -/
structure Cells.Constant (K : Cells V B E Fc) (U : V → Fin k → ℝ) (tr hat : B → Fin k → ℝ) : Prop where
  volume : ∀ v v', K.el v = K.el v' → U v = U v'
  trace : ∀ v b, K.el v = K.elB b → tr b = U v
  facets : ∀ b b', K.facet b = K.facet b' → hat b = hat b'

/-- The points fit together: weights are positive, every element has a point, normals have length
one, facets lie either on the boundary (where conditions act, `mask` zero) or not, and facets of the
boundary are straight and belong to one element. -/
structure Cells.Fits (K : Cells V B E Fc) (M : HdgMesh n V B) (mask : B → ℝ) : Prop where
  volume : ∀ v, 0 < M.wV v
  boundary : ∀ b, 0 < M.wB b
  points : ∀ b, ∃ v, K.el v = K.elB b
  unit : ∀ b, M.normal b ⬝ᵥ M.normal b = 1
  mask01 : ∀ b, mask b = 0 ∨ mask b = 1
  maskFacet : ∀ b b', K.facet b = K.facet b' → mask b = mask b'
  outer : ∀ b b', mask b = 0 → K.facet b' = K.facet b → K.elB b' = K.elB b ∧ M.normal b' = M.normal b

end Dream
