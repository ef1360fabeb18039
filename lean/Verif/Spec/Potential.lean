import Verif.Spec.Gas

/-!
# Steady incompressible flow without rotation around a circular cylinder

Anderson, Fundamentals of Aerodynamics: superposition of the uniform flow and a doublet.
-/

noncomputable section

namespace Spec
open Matrix

/-- The velocity `w` and the pressure `p` satisfy the equations of steady incompressible flow without
friction and without rotation at the point `x`, for the density `ρ`: `div w = 0`, `rot w = 0`,
`ρ (w·∇) w + ∇p = 0`. -/
def SolvesIncompressible (ρ : ℝ) (w : (Fin 2 → ℝ) → Fin 2 → ℝ) (p : (Fin 2 → ℝ) → ℝ)
    (x : Fin 2 → ℝ) : Prop :=
  ∃ (G : Matrix (Fin 2) (Fin 2) ℝ) (g : Fin 2 → ℝ), IsJac w x G ∧ IsGrad p x g ∧
    G 0 0 + G 1 1 = 0 ∧ G 1 0 - G 0 1 = 0 ∧ ∀ i, ρ * (G *ᵥ w x) i + g i = 0

/-- Uniform flow of speed `V` along the first axis and a doublet that makes the circle of radius `a`
a streamline. -/
def cylinderVelocity (V a : ℝ) (x : Fin 2 → ℝ) : Fin 2 → ℝ :=
  ![V * (1 - a ^ 2 * (x 0 ^ 2 - x 1 ^ 2) / (x 0 ^ 2 + x 1 ^ 2) ^ 2),
    V * -(a ^ 2 * (2 * x 0 * x 1) / (x 0 ^ 2 + x 1 ^ 2) ^ 2)]

/-- Bernoulli's pressure for the velocity `w`, the pressure `p0` and the speed `V` far away. -/
def bernoulli (ρ p0 V : ℝ) (w : (Fin 2 → ℝ) → Fin 2 → ℝ) (x : Fin 2 → ℝ) : ℝ :=
  p0 + ρ / 2 * (V ^ 2 - w x ⬝ᵥ w x)

/-- The gas state `S` has the entropy and the total enthalpy of `S0`. -/
def SameStream {n : ℕ} (γ : ℝ) (S S0 : GasState n) : Prop :=
  S.p / S.rho ^ γ = S0.p / S0.rho ^ γ ∧ S.H = S0.H

end Spec
