import Mathlib.Data.List.Basic
import Mathlib.Algebra.BigOperators.Group.List.Basic
import Mathlib.Data.Real.Basic

/-!
# What a sensor table is

The columns of the table are all combinations (location, field, component), location by
location and, at each location, field by field.
-/

namespace Dream.Spec

/-- All columns: `dim f` components for every field. -/
def columns {L F : Type} (locs : List L) (fields : List F) (dim : F → ℕ) : List (L × F × ℕ) :=
  locs.flatMap fun l => fields.flatMap fun f => (List.range (dim f)).map fun i => (l, f, i)

/-- The letter of a coordinate direction. -/
def axis : ℕ → String
  | 0 => "x"
  | 1 => "y"
  | _ => "z"

/-- The label of entry `i` of a value of shape `dims`: blank for scalars, a letter for
vectors up to dimension three, two letters (row, column) for 2x2 and 3x3 matrices, and
otherwise the index. -/
def componentLabel (dims : List ℕ) (i : ℕ) : String :=
  match dims with
  | [] => " "
  | [n] => if n ≤ 3 then axis i else toString i
  | [n, m] => if n * m ≤ 9 then axis (i / m) ++ axis (i % m) else toString i
  | _ => toString i

end Dream.Spec
