import Mathlib.Data.Rat.Floor
import Mathlib.Tactic.Ring
import Mathlib.Tactic.Linarith
import Mathlib.Tactic.FieldSimp
import Mathlib.Tactic.NormNum
import Mathlib.Tactic.Positivity

/-!
# Python values used throughout the model

Python exceptions are values of `PyErr`, a Python call that may raise is a
function into `Except PyErr`.
-/

namespace Dream

/-- The exception classes that occur in the modelled code. -/
inductive PyErr
  | valueError | typeError | keyError | attributeError | zeroDivision | indexError
  | notImplemented | unboundLocal | fileNotFound | runtime | overflow
  deriving DecidableEq, Repr

/-- Python's built-in `round(x)` (round half to even), on exact rationals.
Used by dream/time.py:45. Floats are modelled by rationals, so representation
error is not part of the model. -/
def pyRound (x : ℚ) : ℤ :=
  let f := ⌊x⌋
  let r := x - f
  if r < 1 / 2 then f
  else if 1 / 2 < r then f + 1
  else if f % 2 = 0 then f else f + 1

/-- Python's `round(x, d)` for `d ≥ 0` on exact rationals (dream/time.py:49). -/
def pyRoundDigits (x : ℚ) (d : ℕ) : ℚ := (pyRound (x * 10 ^ d) : ℚ) / 10 ^ d

/-- Python's `int(x)` for a number: truncation towards zero. -/
def pyInt (x : ℚ) : ℤ := if 0 ≤ x then ⌊x⌋ else ⌈x⌉

end Dream
