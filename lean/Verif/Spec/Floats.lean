import Mathlib.Algebra.Order.Ring.Rat
import Mathlib.Algebra.Order.AbsoluteValue.Basic

/-!
# Floating point numbers

The standard model of rounding: every result has a small relative error. The range of the exponents
is not part of it.
-/

namespace Spec

/-- `fl x` is `x` up to the relative error `u`. -/
structure Rounds (fl : ℚ → ℚ) (u : ℚ) : Prop where
  unit : 0 ≤ u
  err : ∀ x, |fl x - x| ≤ u * |x|

end Spec
