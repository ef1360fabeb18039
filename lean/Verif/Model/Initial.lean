import Verif.Model.Conditions
import Verif.Model.Boundary
import Verif.Model.Hdg

/-!
# Initial states (dream/compressible/formulations/conservative.py:382-390, 788-812, 882-890)
-/

noncomputable section

namespace Dream

variable {n : ℕ}

/-- `Initial.fields` with its getter check (dream/mesh.py:272-281). -/
def initialFields (fields : Cond → Option (Flow n)) (c : Cond) : Except PyErr (Flow n) :=
  match fields c with
  | some f => .ok f
  | none => .error .valueError

/-- The dictionary comprehension of `set_initial_conditions`
(dream/compressible/formulations/conservative.py:885-888): the conservative variables of every
initial condition, by region pattern. -/
def initialValues (γ : ℝ) (fields : Cond → Option (Flow n)) (d : Dict Name Cond) :
    Except PyErr (Dict Name (Fin (n + 2) → ℝ)) :=
  d.mapM fun kv => do .ok (kv.1, ← stateVec γ (← initialFields fields kv.2))

/-- `mesh.MaterialCF(values)` at a region of the mesh: NGSolve goes through the items and assigns
the value to all regions that match the pattern, so the last match counts; without match there is
no value (evaluated as 0). Names are taken literally, `|` separates alternatives. -/
def materialCF {α : Type} (values : Dict Name α) (region : Name) : Option α :=
  values.foldl (fun acc kv => if region ∈ splitBar kv.1 then some kv.2 else acc) none

/-- The initial state of `ConservativeFiniteElementMethod.set_initial_conditions`
(dream/compressible/formulations/conservative.py:882-890) at a region, when the set in
`to_pattern` is iterated in the given order. The first line, a call of
`FiniteElementMethod.set_initial_conditions` (dream/solver.py:295-298), only logs. -/
def initialState (γ : ℝ) (dcs : Conditions) (order : List Cond) (fields : Cond → Option (Flow n)) :
    Except PyErr (Name → Option (Fin (n + 2) → ℝ)) := do
  .ok (materialCF (← initialValues γ fields (dcs.toPattern order)))

variable {V B : Type} [Fintype B]

/-- `HDG.set_initial_conditions` (dream/compressible/formulations/conservative.py:796-812): the
facet unknown `u` of the space `W` solves the mass matrix system whose right-hand side is the
initial state `U` seen from the elements on both sides. One component. -/
def IsFacetProjection (M : HdgMesh n V B) (W : Set (B → ℝ)) (U u : B → ℝ) : Prop :=
  u ∈ W ∧ ∀ v ∈ W, ∑ b, M.wB b * (u b * v b) = ∑ b, M.wB b * (U b * v b)

end Dream
