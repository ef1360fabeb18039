import Verif.Model.Conditions

/-!
# Specification: assignments of conditions and the formulation of each condition type
-/

namespace Spec

open Dream (Name Cond CondClass CondValue Dict Formulation)

/-- What a region should list after a history of assignments: the conditions assigned to
patterns that name it, in order. -/
def assigned (history : List (List Name × Cond)) (r : Name) : List Cond :=
  history.filterMap fun e => if r ∈ e.1 then some e.2 else none

/-- What a user does with the conditions of a mesh: assign something to the named regions, or remove
everything. -/
inductive Request
  | assign (names : List Name) (value : CondValue)
  | clear

/-- What region `r` should list after a history, if it lists `l` before and the next new object gets
the number `k`: an object that is assigned is appended as often as it is named, a registered name
stands for a new object of its class, anything else has no effect. -/
def listed (options : Dict Name CondClass) (r : Name) : ℕ → List Cond → List Request → List Cond
  | _, l, [] => l
  | k, _, .clear :: h => listed options r k [] h
  | k, l, .assign xs (.cond c) :: h =>
    listed options r k (l ++ List.replicate (xs.count r) c) h
  | k, l, .assign xs (.str s) :: h =>
    match options.get? s with
    | some cls => listed options r (k + 1) (l ++ List.replicate (xs.count r) ⟨k, cls⟩) h
    | none => listed options r k l h
  | k, l, .assign _ .other :: h => listed options r k l h

/-- The formulation of a boundary condition type, by its name in the documentation; periodic
boundaries need none. -/
def boundaryFormulation : CondClass → Option (Option Formulation)
  | .farfield => some (some .farfield)
  | .outflow => some (some .outflow)
  | .cbc | .grcbc | .nscbc => some (some .cbc)
  | .inviscidWall | .symmetry => some (some .inviscidWall)
  | .isothermalWall => some (some .isothermalWall)
  | .adiabaticWall => some (some .adiabaticWall)
  | .periodic => some none
  | _ => none

/-- The formulation of a domain condition type. Initial conditions, grid deformations need no
term in the equations. -/
def domainFormulation : CondClass → Option (Option Formulation)
  | .spongeLayer => some (some .sponge)
  | .pspongeLayer => some (some .psponge)
  | .initial | .gridDeformation => some none
  | _ => none

end Spec
