import Verif.Model.Hdg
import Verif.Model.Sensors

/-!
# Force coefficients at boundary sensors
-/

namespace Dream

variable {n : ℕ} {V B : Type} [Fintype V] [Fintype B]

/-- The points of the boundary regions named by a pattern, `mesh.Boundaries(pattern)`
(dream/io.py:811). Region names are taken literally, as in `DefinedOn.covers`. -/
def HdgMesh.onRegion (M : HdgMesh n V B) (pattern : Name) (b : B) : Bool :=
  match M.region b with
  | some r => (splitBar pattern).contains r
  | none => false

/-- `ngs.Integrate(cf, mesh, definedon=mesh.Boundaries(pattern))` (dream/io.py:745-747, 811). Integrals are
taken with the quadrature of the equations; NGSolve uses one of fixed order. -/
noncomputable def HdgMesh.integrateOver (M : HdgMesh n V B) (f : B → ℝ) (pattern : Name) : ℝ :=
  ∑ b, if M.onRegion pattern b then M.wB b * f b else 0

/-- A boundary sensor (dream/io.py:803-818) of the fields `drag_coefficient` and `lift_coefficient` on one
set of regions. -/
def forceSensor (name : String) (rate : ℕ) (body : Name) (cd cl : B → ℝ) : Sensor B :=
  ⟨.boundary, name, rate,
    [⟨"drag_coefficient", [], fun b _ => cd b⟩, ⟨"lift_coefficient", [], fun b _ => cl b⟩],
    [.region body]⟩

end Dream
