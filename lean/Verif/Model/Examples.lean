import Verif.Model.Boundary
import Mathlib.Analysis.SpecialFunctions.ExpDeriv
import Mathlib.Analysis.SpecialFunctions.Trigonometric.Deriv

/-!
# The initial states of the examples (examples/compressible)

Coefficient functions of the coordinates are functions of the point; `f.Diff(x)` is the partial
derivative. The derivative of `sqrt` that NGSolve evaluates at the centre itself (`0/0`) is not
modelled.
-/

noncomputable section

namespace Dream

/-- The Mach number `Mt` and the radius `R` of the vortex, the place of its centre and the direction
of the stream (examples/compressible/zero_circulation_vortex_2d.py:50, 54-56, where they are `0.01`,
`0.1`, `(0.2, 0)` and `(1, 0)`). -/
structure VortexSetup where
  Mt : ℝ
  R : ℝ
  centre : Fin 2 → ℝ
  direction : Fin 2 → ℝ

/-- `r` (examples/compressible/zero_circulation_vortex_2d.py:56). -/
def VortexSetup.r (v : VortexSetup) (x y : ℝ) : ℝ :=
  √((x - v.centre 0) ^ 2 + (y - v.centre 1) ^ 2)

/-- `vt` (examples/compressible/zero_circulation_vortex_2d.py:57). -/
def VortexSetup.vt (v : VortexSetup) (cfg : FlowCfg) : ℝ :=
  v.Mt / cfg.Ma * cfg.scaling.velocityMagnitude cfg.Ma

/-- `psi` (examples/compressible/zero_circulation_vortex_2d.py:59). -/
def VortexSetup.psi (v : VortexSetup) (cfg : FlowCfg) (x y : ℝ) : ℝ :=
  v.vt cfg * v.R * Real.exp ((v.R ^ 2 - v.r x y ^ 2) / (2 * v.R ^ 2))

/-- The fields of the initial condition
(examples/compressible/zero_circulation_vortex_2d.py:50-62, 74) at the point `(x, y)`. The missing
entries of `Uinf` cannot occur (C29). -/
def VortexSetup.fields (v : VortexSetup) (cfg : FlowCfg) (x y : ℝ) : Except PyErr (Flow 2) := do
  let Uinf ← getFarfieldState cfg 2 v.direction
  match Uinf.rho, Uinf.u, Uinf.p with
  | some rho, some u, some p =>
    let b := 1 - (cfg.γ - 1) / 2 * v.Mt ^ 2 * Real.exp ((v.R ^ 2 - v.r x y ^ 2) / v.R ^ 2)
    .ok { u := some (u + ![deriv (fun s => v.psi cfg x s) y, -deriv (fun s => v.psi cfg s y) x]),
          p := some (p * b ^ (cfg.γ / (cfg.γ - 1))),
          rho := some (rho * b ^ (1 / (cfg.γ - 1))) }
  | _, _, _ => .error .attributeError

/-- `p_00` (examples/compressible/zero_circulation_vortex_2d.py:63), for the pressure `p` of the
farfield. -/
def VortexSetup.p00 (v : VortexSetup) (cfg : FlowCfg) (p : ℝ) : ℝ :=
  p * (1 - (cfg.γ - 1) / 2 * v.Mt ^ 2 * Real.exp 1) ^ (cfg.γ / (cfg.γ - 1))

/-- `drawing['p*']` (examples/compressible/zero_circulation_vortex_2d.py:82) for the pressure `p` at
a point and the pressure `pinf` of the farfield. -/
def VortexSetup.normalised (v : VortexSetup) (cfg : FlowCfg) (pinf p : ℝ) : ℝ :=
  (p - pinf) / (v.p00 cfg pinf - pinf)

/-- The values that the sensor of the cylinder example records on the cylinder
(examples/compressible/low_mach_inviscid_cylinder.py:56, 65, 71): the pressure coefficient of the
fields `U` of the solution relative to the farfield. -/
def cylinderSensor (cfg : FlowCfg) (U : Flow 2) : Except PyErr ℝ := do
  pressureCoefficient cfg.γ U (← getFarfieldState cfg 2 ![1, 0])

/-- `cp`, what the example compares them with
(examples/compressible/low_mach_inviscid_cylinder.py:99). -/
def exactCp (phi : ℝ) : ℝ := 1 - 4 * Real.sin phi ^ 2

end Dream
