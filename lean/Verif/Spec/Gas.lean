import Mathlib.Analysis.SpecialFunctions.Sqrt
import Mathlib.Analysis.Calculus.Deriv.Basic
import Mathlib.LinearAlgebra.Matrix.DotProduct
import Mathlib.Analysis.InnerProductSpace.PiL2

/-!
# Specification: the ideal gas

Independent of the model: what a consistent state of a (calorically perfect) ideal gas
is, in the non-dimensional form of the documentation, and what a gradient is.
-/

namespace Spec

open Matrix

/-- All quantities of one gas state in `n` space dimensions. -/
structure GasState (n : ℕ) where
  rho : ℝ
  u : Fin n → ℝ
  rho_u : Fin n → ℝ
  p : ℝ
  T : ℝ
  rho_E : ℝ
  E : ℝ
  rho_Ei : ℝ
  Ei : ℝ
  rho_Ek : ℝ
  Ek : ℝ
  rho_H : ℝ
  H : ℝ
  c : ℝ

/-- The laws of the ideal gas with heat capacity ratio `γ`: `p = (γ-1)/γ ρ T`,
`T = γ Eᵢ`, `c² = γ p / ρ`, kinetic, total energy and enthalpy, and the densities
`ρ·x` of the specific quantities `x`. -/
structure IdealGas {n : ℕ} (γ : ℝ) (S : GasState n) : Prop where
  gamma : 1 < γ
  rho_pos : 0 < S.rho
  T_pos : 0 < S.T
  gas_law : S.p = (γ - 1) / γ * (S.rho * S.T)
  caloric : S.T = γ * S.Ei
  sound_pos : 0 < S.c
  sound : S.c ^ 2 = γ * (S.p / S.rho)
  kinetic : S.Ek = (S.u ⬝ᵥ S.u) / 2
  total : S.E = S.Ei + S.Ek
  enthalpy : S.H = S.E + S.p / S.rho
  momentum : S.rho_u = S.rho • S.u
  rho_E : S.rho_E = S.rho * S.E
  rho_Ei : S.rho_Ei = S.rho * S.Ei
  rho_Ek : S.rho_Ek = S.rho * S.Ek
  rho_H : S.rho_H = S.rho * S.H

/-- The gas state determined by density, velocity and specific inner energy. -/
noncomputable def GasState.of {n : ℕ} (γ rho : ℝ) (u : Fin n → ℝ) (Ei : ℝ) : GasState n where
  rho := rho
  u := u
  rho_u := rho • u
  p := (γ - 1) * (rho * Ei)
  T := γ * Ei
  rho_E := rho * (Ei + (u ⬝ᵥ u) / 2)
  E := Ei + (u ⬝ᵥ u) / 2
  rho_Ei := rho * Ei
  Ei := Ei
  rho_Ek := rho * ((u ⬝ᵥ u) / 2)
  Ek := (u ⬝ᵥ u) / 2
  rho_H := rho * (γ * Ei + (u ⬝ᵥ u) / 2)
  H := γ * Ei + (u ⬝ᵥ u) / 2
  c := √(γ * (γ - 1) * Ei)

/-- `g` is the gradient of `f` at `x`: its components are the partial derivatives. -/
def IsGrad {n : ℕ} (f : (Fin n → ℝ) → ℝ) (x g : Fin n → ℝ) : Prop :=
  ∀ j, HasDerivAt (fun t : ℝ => f (x + t • Pi.single j 1)) (g j) 0

/-- `g` is the Jacobian of `f` at `x`: row `i` is the gradient of component `i`. -/
def IsJac {n : ℕ} (f : (Fin n → ℝ) → Fin n → ℝ) (x : Fin n → ℝ)
    (g : Matrix (Fin n) (Fin n) ℝ) : Prop :=
  ∀ i, IsGrad (fun y => f y i) x (g i)

/-- Names of the quantities a user can supply. -/
inductive Fld
  | rho | u | rho_u | p | T | rho_E | E | rho_Ei | Ei | rho_Ek | Ek | rho_H | H | c
  deriving DecidableEq, Repr

/-- Some combination in the list has all its fields present. -/
def Available (present : Fld → Prop) (combos : List (List Fld)) : Prop :=
  ∃ c ∈ combos, ∀ f ∈ c, present f

/-- All pairings of two lists of combinations. -/
def both (a b : List (List Fld)) : List (List Fld) := a.flatMap fun x => b.map fun y => x ++ y

section Combinations
open Fld

/-! The combinations of fields from which each quantity can be determined, in the
documentation of dream/compressible/eos.py and dream/compressible/solver.py. -/

def densityCombos : List (List Fld) := [[rho], [p, T], [rho_Ei, T], [p, c]]
def pressureCombos : List (List Fld) := [[p], [rho, T], [rho_Ei], [rho, c]]
def temperatureCombos : List (List Fld) := [[T], [p, rho], [Ei], [c]]
def innerEnergyCombos : List (List Fld) := [[rho_Ei], [p], [rho, T], [rho_E, rho_Ek]]
def specificInnerEnergyCombos : List (List Fld) := [[Ei], [T], [p, rho], [rho, rho_Ei], [E, Ek]]
def speedOfSoundCombos : List (List Fld) := [[c], [p, rho], [T], [Ei]]
def velocityCombos : List (List Fld) := [[u], [rho, rho_u]]
def momentumCombos : List (List Fld) := [[rho_u], [rho, u]]
def kineticEnergyCombos : List (List Fld) :=
  [[rho_Ek], [rho, u], [rho, rho_u], [rho_E, rho_Ei], [rho, Ek]]
def specificKineticEnergyCombos : List (List Fld) :=
  [[Ek], [u], [rho, rho_u], [rho, rho_Ek], [E, Ei]]
/-- The energy is known, or a product, or both of its parts can be determined. -/
def energyCombos : List (List Fld) :=
  [[rho_E], [rho, E]] ++ both innerEnergyCombos kineticEnergyCombos
def specificEnergyCombos : List (List Fld) := [[E], [rho, rho_E], [Ei, Ek]]
def enthalpyCombos : List (List Fld) := [[rho_H], [rho_E, p], [rho, H]]
def specificEnthalpyCombos : List (List Fld) := [[H], [rho, rho_H], [rho, rho_E, p]]

end Combinations

end Spec
