import Verif.Spec.ShortSteps
import Mathlib.Analysis.Calculus.Deriv.Basic

/-!
# The discrete equations before the discretisation in time
-/

noncomputable section

namespace Dream
open Matrix Set

variable {n k : ℕ} {V B : Type} [Fintype V] [Fintype B]

/-- The equations of a step (dream/solver.py:400-409) with the rate of change `d` of the element
values in place of the difference quotient. -/
def hdgRate (M : HdgMesh n V B) (mask : B → ℝ) (T : Set (HdgTest n k V B)) (d : V → Fin k → ℝ)
    (x : HdgState n k V B) : Prop :=
  ∀ φ ∈ T, timeForm M d φ
    + convectionForm M mask x.F x.Fn φ + diffusionForm M mask x.G x.Gn φ
    + boundaryForm M x.R φ + timeForm M x.source φ = 0

/-- `y` is a flow in continuous time, from 0 to `T`: its values change at a rate that satisfies the
equations, and differ from the vector `w` by at most `η`, in the elements and on the facets. -/
structure IsEvolution (γ : ℝ) (rs : Riemann) (P : HdgSpaces n (n + 2) V B) (M : HdgMesh n V B)
    (mask : B → ℝ) (cond : B → FacetCond n) (σ : V → ℝ) (target : Flow n) (w : Fin (n + 2) → ℝ)
    (η T : ℝ) (y : ℝ → HdgState n (n + 2) V B) : Prop where
  near : ∀ t ∈ Icc 0 T, (y t).NearFlow γ rs P M mask cond σ target w η
  rate : ∀ t ∈ Icc 0 T, ∃ d : V → Fin (n + 2) → ℝ,
    (∀ v i, HasDerivWithinAt (fun s => (y s).U v i) (d v i) (Icc 0 T) t) ∧
    hdgRate M mask P.tests d (y t)

end Dream
