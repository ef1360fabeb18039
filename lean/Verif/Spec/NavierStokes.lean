import Mathlib.Data.Matrix.Mul
import Mathlib.Data.Real.Basic
import Mathlib.Data.Fin.VecNotation
import Mathlib.LinearAlgebra.Matrix.Trace
import Mathlib.Analysis.Calculus.Deriv.Basic
import Mathlib.Analysis.SpecialFunctions.Pow.Real

/-!
# Specification: the viscous terms of the Navier-Stokes equations
-/

namespace Spec

open Matrix

/-- Viscous stress of a Newtonian fluid with shear viscosity `μ` and no bulk viscosity
(Stokes' hypothesis): `μ (∇u + ∇uᵀ - 2/3 (∇·u) I)`; `G i j` is `∂uᵢ/∂xⱼ`. -/
noncomputable def newtonianStress {n : ℕ} (μ : ℝ) (G : Matrix (Fin n) (Fin n) ℝ) :
    Matrix (Fin n) (Fin n) ℝ :=
  Matrix.of fun i j => μ * (G i j + G j i - if i = j then 2 / 3 * ∑ k, G k k else 0)

/-- Viscous flux through a face with normal `d`: no mass flux, the viscous force `τ d`, and the
work of that force plus the conducted heat `κ ∇T·d`. -/
noncomputable def viscousFlux {n : ℕ} (τ : Matrix (Fin n) (Fin n) ℝ) (κ : ℝ) (gT u d : Fin n → ℝ) :
    Fin (n + 2) → ℝ :=
  Fin.cons 0 (Fin.snoc (fun i : Fin n => ∑ j, τ i j * d j)
    (∑ i, (∑ j, τ i j * d j) * u i + κ * ∑ i, gT i * d i))

/-- `J` is the matrix of the partial derivatives of `f` at `x`. -/
def IsPartials {k l : ℕ} (f : (Fin k → ℝ) → Fin l → ℝ) (x : Fin k → ℝ)
    (J : Matrix (Fin l) (Fin k) ℝ) : Prop :=
  ∀ i j, HasDerivAt (fun t : ℝ => f (x + t • Pi.single j 1) i) (J i j) 0

/-- Sutherland's law relative to a reference temperature: `θ` is the temperature over the
reference temperature, `s` the Sutherland constant over the reference temperature. -/
noncomputable def sutherland (s θ : ℝ) : ℝ := θ ^ (3 / 2 : ℝ) * (1 + s) / (θ + s)

/-- Force per area of a fluid with pressure `p` and viscous stress `τ` on a body whose outward
normal (from the body into the fluid) is `ν`. -/
def bodyForce {n : ℕ} (p : ℝ) (τ : Matrix (Fin n) (Fin n) ℝ) (ν : Fin n → ℝ) : Fin n → ℝ :=
  -p • ν + τ *ᵥ ν

end Spec
