import Verif.Spec.Euler
import Verif.Spec.Gas

/-!
# Specification: signals of the Euler equations in any dimension
-/

noncomputable section

namespace Spec

open Matrix

variable {n : ℕ}

/-- The normal flux as a function of the vector of conservative variables `(ρ, m₁, …, mₙ, e)`. -/
def eulerFluxOf (γ : ℝ) (d : Fin n → ℝ) (w : Fin (n + 2) → ℝ) : Fin (n + 2) → ℝ :=
  eulerFlux γ d (w 0) (fun i => w i.castSucc.succ) (w (Fin.last (n + 1)))

/-- `μ` is a signal speed of the linear system `∂ₜ v + A ∂ₓ v = 0`: an eigenvalue of `A`. -/
def IsSpeed (A : (Fin (n + 2) → ℝ) →L[ℝ] (Fin (n + 2) → ℝ)) (μ : ℝ) : Prop :=
  ∃ v, v ≠ 0 ∧ A v = μ • v

/-- The state of a gas in one more dimension with the same quantities, which does not move in the
new direction. -/
def GasState.embed (S : GasState n) : GasState (n + 1) :=
  { S with u := Fin.snoc S.u 0, rho_u := Fin.snoc S.rho_u 0 }

/-- A vector of conservative quantities in one more dimension, with nothing in the new
direction. -/
def embedCons (w : Fin (n + 2) → ℝ) : Fin (n + 3) → ℝ :=
  Fin.cons (w 0) (Fin.snoc (Fin.snoc (fun i : Fin n => w i.castSucc.succ) 0) (w (Fin.last (n + 1))))

end Spec
