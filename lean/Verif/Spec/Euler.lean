import Mathlib.Data.Matrix.Mul
import Mathlib.Data.Real.Basic
import Mathlib.Data.Fin.VecNotation
import Mathlib.LinearAlgebra.Matrix.NonsingularInverse

/-!
# Specification: the Euler equations

The normal flux of the compressible Euler equations in conservative variables.
-/

namespace Spec

open Matrix

/-- Flux through a face with normal `d` of the state with density `ρ`, momentum `m`, total
energy `e` (per volume): mass `m·d`, momentum `m (m·d)/ρ + p d`, energy `(e + p)(m·d)/ρ`,
with `p = (γ-1)(e - |m|²/(2ρ))`. -/
noncomputable def eulerFlux {n : ℕ} (γ : ℝ) (d : Fin n → ℝ) (ρ : ℝ) (m : Fin n → ℝ) (e : ℝ) :
    Fin (n + 2) → ℝ :=
  let p := (γ - 1) * (e - (m ⬝ᵥ m) / (2 * ρ))
  Fin.cons (m ⬝ᵥ d) (Fin.snoc (fun i : Fin n => m i * (m ⬝ᵥ d) / ρ + p * d i)
    ((e + p) * (m ⬝ᵥ d) / ρ))

/-- The same flux in two dimensions as a function of the vector of conservative variables
`(ρ, ρu, ρv, ρE)`. -/
noncomputable def eulerFlux2 (γ : ℝ) (d : Fin 2 → ℝ) (w : Fin 4 → ℝ) : Fin 4 → ℝ :=
  eulerFlux γ d (w 0) ![w 1, w 2] (w 3)

/-- `B = f(A)` in the sense of functions of diagonalisable matrices: in some basis `A` is
diagonal and `B` is diagonal with `f` applied to the eigenvalues. -/
def IsFun {k : ℕ} (f : ℝ → ℝ) (A B : Matrix (Fin k) (Fin k) ℝ) : Prop :=
  ∃ (P : Matrix (Fin k) (Fin k) ℝ) (lam : Fin k → ℝ), IsUnit P ∧
    A * P = P * diagonal lam ∧ B * P = P * diagonal fun i => f (lam i)

/-- `τ` is an admissible stabilisation for the Jacobian `A`: in some basis both are diagonal
and every eigenvalue of `τ` is at least the positive part of the eigenvalue of `A`. -/
def Stabilises {k : ℕ} (τ A : Matrix (Fin k) (Fin k) ℝ) : Prop :=
  ∃ (P : Matrix (Fin k) (Fin k) ℝ) (lam σ : Fin k → ℝ), IsUnit P ∧
    A * P = P * diagonal lam ∧ τ * P = P * diagonal σ ∧ ∀ i, max (lam i) 0 ≤ σ i

open Classical in
/-- Indicator of the negative numbers. -/
noncomputable def negInd (x : ℝ) : ℝ := if x < 0 then 1 else 0

open Classical in
/-- Indicator of the positive numbers. -/
noncomputable def posInd (x : ℝ) : ℝ := if 0 < x then 1 else 0

end Spec
