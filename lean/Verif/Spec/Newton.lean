import Verif.Model.Transient
import Mathlib.Analysis.Calculus.FDeriv.Basic
import Mathlib.Analysis.Normed.Operator.Basic

/-!
# Regular solutions of nonlinear equations
-/

noncomputable section

namespace Dream

variable {X : Type} [NormedAddCommGroup X] [NormedSpace ℝ X]

/-- `z` solves `F z = 0`; up to the distance `R` from it `F` is differentiable, with a derivative `F'`
that changes with the rate `L` at most; and the derivative in `z` has an inverse with norm at most
`β`. -/
structure RegularSolution (F : X → X) (F' : X → X →L[ℝ] X) (z : X) (β L R : ℝ) : Prop where
  solution : F z = 0
  deriv : ∀ x, ‖x - z‖ ≤ R → HasFDerivAt F (F' x) x
  lipschitz : ∀ x y, ‖x - z‖ ≤ R → ‖y - z‖ ≤ R → ‖F' x - F' y‖ ≤ L * ‖x - y‖
  regular : ∀ v, ‖v‖ ≤ β * ‖F' z v‖

/-- The linear solver solves the systems `F'(x) δ = F(x)` that have exactly one solution, and the
reported error is bounded by the sizes of the increment and the residual. -/
def SolvesSystems (lin : LinOracle X) (F : X → X) (F' : X → X →L[ℝ] X) (c : ℝ) : Prop :=
  ∀ it x, Function.Bijective (F' x) →
    ∃ δ e, lin it x = (δ, some e) ∧ F' x δ = F x ∧ |e| ≤ c * (‖δ‖ * ‖F x‖)

end Dream
