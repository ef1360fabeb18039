import Mathlib.Data.Rat.Floor
import Mathlib.Data.List.Basic

/-!
# Specification vocabulary for time.py (independent of the model)
-/

namespace Spec

/-- `l` is the arithmetic progression `first, first+h, first+2h, …`. -/
def Equidistant (first h : ℚ) (l : List ℚ) : Prop :=
  ∀ (k : ℕ) (hk : k < l.length), l[k] = first + k * h

/-- The number of decimals of `x` is at most `d`. -/
def Decimals (x : ℚ) (d : ℕ) : Prop := ∃ a : ℤ, x = a / 10 ^ d

/-- The last element of `l` with a value under `f`, or `dflt` if there is none. -/
def lastOr {α β : Type} (f : α → Option β) (dflt : β) (l : List α) : β :=
  ((l.filterMap f).getLast?).getD dflt

/-- `back j` of a run that started at `u0` and computed the solutions `us`
(oldest first): the solution `j` steps ago, the initial state if the run is not
that old. -/
def back {V : Type} (u0 : V) (us : List V) (j : ℕ) : V := (us.reverse[j]?).getD u0

end Spec
