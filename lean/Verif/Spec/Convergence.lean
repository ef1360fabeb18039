import Verif.Spec.Transient
import Mathlib.Analysis.Calculus.Deriv.Basic
import Mathlib.Analysis.Real.Sqrt
import Mathlib.Algebra.Module.Submodule.Defs

/-!
# Convergence of time stepping (independent of the model)
-/

noncomputable section

namespace Spec

variable {ι : Type} [Fintype ι]

/-- Root mean square with weights `w`. -/
def rms (w u : ι → ℝ) : ℝ := √(dot w u u)

/-- `u`, with derivative `u'`, solves the semi-discrete equations `∫ u' φ + a(t, u, φ) = 0` for all
`φ` of the space `S`, from `t0` to `t1`. -/
structure SolvesOn (S : Submodule ℝ (ι → ℝ)) (w : ι → ℝ) (a : ℚ → (ι → ℝ) → (ι → ℝ) → ℝ)
    (u u' : ℝ → ι → ℝ) (t0 t1 : ℝ) : Prop where
  deriv : ∀ t ∈ Set.Icc t0 t1, ∀ i, HasDerivWithinAt (fun s => u s i) (u' t i) (Set.Icc t0 t1) t
  space : ∀ t ∈ Set.Icc t0 t1, u t ∈ S
  eqn : ∀ t : ℚ, (t : ℝ) ∈ Set.Icc t0 t1 → ∀ φ ∈ S, dot w (u' t) φ + a t (u t) φ = 0

/-- `u'` is the derivative of `u` and bounded by `K` on an interval. -/
structure BoundedDeriv (u u' : ℝ → ι → ℝ) (t0 t1 K : ℝ) : Prop where
  deriv : ∀ t ∈ Set.Icc t0 t1, ∀ i, HasDerivWithinAt (fun s => u s i) (u' t i) (Set.Icc t0 t1) t
  bound : ∀ t ∈ Set.Icc t0 t1, ∀ i, |u' t i| ≤ K

/-- The times of `n` steps. -/
def stepTimes (t0 dt : ℚ) (n : ℕ) : List ℚ := (List.range n).map fun k : ℕ => t0 + (k + 1) * dt

end Spec
