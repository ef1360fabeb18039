import Verif.Model.Options
import Mathlib.Order.WithBot

/-!
# What the validated options promise
-/

namespace Dream.Spec

/-- The extended number denoted by a Python number; `nan` denotes none. -/
def denote : PyNum → Option (WithBot (WithTop ℚ))
  | .fin q => some ((q : WithTop ℚ) : WithBot (WithTop ℚ))
  | .inf false => some ((⊤ : WithTop ℚ) : WithBot (WithTop ℚ))
  | .inf true => some ⊥
  | .nan => none

/-- `x` is a number with property `P`. -/
def Is (P : WithBot (WithTop ℚ) → Prop) (x : PyNum) : Prop := ∃ e, denote x = some e ∧ P e

/-- The documented constraints: `0 <= start < end`, Mach `>= 0`, Reynolds `> 0`, Prandtl
`> 0`, convergence criterion `> 0`, rates `> 0`. -/
structure ValidOptions (σ : Options) : Prop where
  interval : ∃ a b, denote σ.interval.1 = some a ∧ denote σ.interval.2 = some b ∧ 0 ≤ a ∧ a < b
  mach : Is (0 ≤ ·) σ.mach
  reynolds : Is (0 < ·) σ.reynolds
  prandtl : Is (0 < ·) σ.prandtl
  criterion : Is (0 < ·) σ.criterion
  vtkRate : 0 < σ.vtkRate
  gfuRate : 0 < σ.gfuRate
  levelRate : 0 < σ.levelRate
  sensorRate : 0 < σ.sensorRate

/-- A number that is not `nan` and, if finite, is a float already. -/
def Proper (fl : Rounding) : PyNum → Prop
  | .fin q => fl q = some q
  | .nan => False
  | .inf _ => True

/-- All numbers in the value are proper. -/
def ProperVal (fl : Rounding) : PyVal → Prop
  | .num x => Proper fl x
  | .seq xs => ∀ x ∈ xs, Proper fl x
  | .other => True

end Dream.Spec
