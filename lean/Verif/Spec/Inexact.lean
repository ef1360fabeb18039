import Verif.Spec.Convergence

/-!
# Steps that are solved approximately (independent of the model)
-/

noncomputable section

namespace Spec

variable {ι : Type} [Fintype ι]

/-- `x` satisfies the equations of a step with the difference quotient `q` up to residuals of at most
`ε` for test functions of root mean square one. -/
def NearStep (S : Submodule ℝ (ι → ℝ)) (w : ι → ℝ) (a : ℚ → (ι → ℝ) → (ι → ℝ) → ℝ)
    (q : ℝ → ℝ → ℝ → ℝ) (ε : ℝ) (t : ℚ) (x cur prev : ι → ℝ) : Prop :=
  x ∈ S ∧ ∀ φ ∈ S, |dot w (fun i => q (x i) (cur i) (prev i)) φ + a t x φ| ≤ ε * rms w φ

end Spec
