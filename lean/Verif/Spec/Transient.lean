import Mathlib.Data.Real.Basic
import Mathlib.Algebra.BigOperators.Group.Finset.Basic

/-!
# Time stepping methods in textbook form (independent of the model)
-/

namespace Spec

/-- The states computed by a two-step recursion `next t current previous`, one for each time. -/
def trajectory {X T : Type} (next : T → X → X → X) : (prev cur : X) → List T → List X
  | _, _, [] => []
  | prev, cur, t :: ts => next t cur prev :: trajectory next cur (next t cur prev) ts

/-- Every state of a list satisfies an equation that involves its two predecessors. -/
def Satisfies {X T : Type} (eqn : T → (new cur prev : X) → Prop) :
    (prev cur : X) → List T → List X → Prop
  | _, _, [], [] => True
  | prev, cur, t :: ts, x :: xs => eqn t x cur prev ∧ Satisfies eqn cur x ts xs
  | _, _, _, _ => False

/-- The backward Euler difference quotient. -/
noncomputable def backwardEuler (dt new cur _prev : ℝ) : ℝ := (new - cur) / dt

/-- The second order backward difference quotient. -/
noncomputable def backward2 (dt new cur prev : ℝ) : ℝ := (3 * new - 4 * cur + prev) / (2 * dt)

/-- Weighted sum of products: the quadrature of `∫ u v` with weights `w`. -/
noncomputable def dot {ι : Type} [Fintype ι] (w u v : ι → ℝ) : ℝ := ∑ i, w i * (u i * v i)

/-- Squared distance of two states in that quadrature. -/
noncomputable def dist2 {ι : Type} [Fintype ι] (w u v : ι → ℝ) : ℝ :=
  dot w (fun i => u i - v i) (fun i => u i - v i)

end Spec
