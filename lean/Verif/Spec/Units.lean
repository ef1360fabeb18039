import Verif.Spec.Gas
import Verif.Model.Hdg

/-!
# Specification: change of the unit of velocity

Velocities are measured in a unit `1/s` times as large: velocities and speeds are multiplied by
`s`, energies, pressures and temperatures by `s ^ 2`, times are divided by `s`; densities and
lengths stay the same.
-/

namespace Spec

open Matrix

/-- The gas state in the new units. -/
def GasState.scale {n : ℕ} (s : ℝ) (S : GasState n) : GasState n where
  rho := S.rho
  u := s • S.u
  rho_u := s • S.rho_u
  p := s ^ 2 * S.p
  T := s ^ 2 * S.T
  rho_E := s ^ 2 * S.rho_E
  E := s ^ 2 * S.E
  rho_Ei := s ^ 2 * S.rho_Ei
  Ei := s ^ 2 * S.Ei
  rho_Ek := s ^ 2 * S.rho_Ek
  Ek := s ^ 2 * S.Ek
  rho_H := s ^ 2 * S.rho_H
  H := s ^ 2 * S.H
  c := s * S.c

/-- Factors of density, momentum and energy (two dimensions). -/
def unitFactors (s : ℝ) : Fin 4 → ℝ := ![1, s, s, s ^ 2]

/-- The conservative variables in the new units. -/
def scaleVec (s : ℝ) (w : Fin 4 → ℝ) : Fin 4 → ℝ := fun i => unitFactors s i * w i

/-- A flux of the conservative variables in the new units: they are transported with `s` times
the velocity. -/
def scaleFlux (s : ℝ) (F : Matrix (Fin 4) (Fin 2) ℝ) : Matrix (Fin 4) (Fin 2) ℝ :=
  Matrix.of fun i j => s * (unitFactors s i * F i j)

/-- Factors of the rate of strain and of the temperature gradient. -/
def mixedFactors (s : ℝ) : Fin 5 → ℝ := ![s, s, s, s ^ 2, s ^ 2]

/-- Rate of strain and temperature gradient in the new units. -/
def scaleMixed (s : ℝ) (q : Fin 5 → ℝ) : Fin 5 → ℝ := fun i => mixedFactors s i * q i

/-- Two configurations of the same flow that differ in the scaling only; the speed of sound of the
free stream in the second is `s` times that in the first. -/
structure SameFlow (s : ℝ) (cfg cfg' : Dream.FlowCfg) : Prop where
  same : cfg' = { cfg with scaling := cfg'.scaling }
  sound : ∃ c c', cfg.scaling.speedOfSound cfg.Ma = .ok c ∧
    cfg'.scaling.speedOfSound cfg.Ma = .ok c' ∧ c' = s * c

variable {V B : Type}

/-- A state of the discretisation in the new units; the residual of the boundary condition at the
point `b` is multiplied by the positive number `κ b` in addition. -/
def scaleState (s : ℝ) (κ : B → ℝ) (x : Dream.HdgState 2 4 V B) : Dream.HdgState 2 4 V B where
  U := fun v => scaleVec s (x.U v)
  F := fun v => scaleFlux s (x.F v)
  G := fun v => scaleFlux s (x.G v)
  Fn := fun b => s • scaleVec s (x.Fn b)
  Gn := fun b => s • scaleVec s (x.Gn b)
  R := fun b => κ b • scaleVec s (x.R b)
  source := fun v => s • scaleVec s (x.source v)

/-- A test function with its components multiplied by `a`, and its facet values by `c` of the
boundary region of the facet in addition. -/
def scaleTest (M : Dream.HdgMesh 2 V B) (a : Fin 4 → ℝ) (c : Option Dream.Name → ℝ)
    (φ : Dream.HdgTest 2 4 V B) : Dream.HdgTest 2 4 V B where
  grad := fun v => Matrix.of fun i j => a i * φ.grad v i j
  val := fun v i => a i * φ.val v i
  trace := fun b i => a i * φ.trace b i
  hat := fun b i => c (M.region b) * (a i * φ.hat b i)

/-- The test space is a product of one space per component (`fes ** (dim + 2)`), and its facet
functions on different boundary regions are independent of each other (those on interior facets
and on the two sides of a periodic boundary are not). -/
def ComponentSpace (M : Dream.HdgMesh 2 V B) (bcs : Dream.Conditions)
    (T : Set (Dream.HdgTest 2 4 V B)) : Prop :=
  ∀ (a : Fin 4 → ℝ) (c : Option Dream.Name → ℝ), (∀ b, M.mask bcs b = 1 → c (M.region b) = 1) →
    ∀ φ ∈ T, scaleTest M a c φ ∈ T

/-- A mixed test function with its components multiplied by `a`. -/
def scaleMixedTest (a : Fin 5 → ℝ) (P : Dream.MixedTest V B) : Dream.MixedTest V B where
  val := fun v i => a i * P.val v i
  grad := fun v => Matrix.of fun i j => a i * P.grad v i j
  trace := fun b i => a i * P.trace b i

end Spec
