import Verif.Model.Boundary
import Mathlib.Analysis.SpecialFunctions.ExpDeriv

/-!
# The initial state of the pulse example (examples/compressible/pressure_pulse_2d.py)

Coefficient functions of the coordinates are functions of the point.
-/

noncomputable section

namespace Dream

/-- The strength `Gamma` and the radius `Rv` of the pulse and the direction of the stream
(examples/compressible/pressure_pulse_2d.py:83, 85-86, where they are `0.1`, `0.1` and `(1, 0)`). -/
structure PulseSetup where
  Gamma : ℝ
  Rv : ℝ
  direction : Fin 2 → ℝ

/-- `r` (examples/compressible/pressure_pulse_2d.py:87). -/
def pulseRadius (x y : ℝ) : ℝ := √(x ^ 2 + y ^ 2)

/-- The fields of the initial condition (examples/compressible/pressure_pulse_2d.py:83-90) at the
point `(x, y)`. The missing entries of `Uinf` cannot occur (C29). -/
def PulseSetup.fields (v : PulseSetup) (cfg : FlowCfg) (x y : ℝ) : Except PyErr (Flow 2) := do
  let Uinf ← getFarfieldState cfg 2 v.direction
  match Uinf.rho, Uinf.u, Uinf.p with
  | some rho, some u, some p =>
    .ok { rho := some (rho * (1 + v.Gamma * Real.exp (-pulseRadius x y ^ 2 / v.Rv ^ 2))),
          u := some u,
          p := some (p * (1 + v.Gamma * Real.exp (-pulseRadius x y ^ 2 / v.Rv ^ 2))) }
  | _, _, _ => .error .attributeError

/-- `drawing["p'"]` (examples/compressible/pressure_pulse_2d.py:104), for the fields `U` at a point. -/
def PulseSetup.drawn (v : PulseSetup) (cfg : FlowCfg) (U : Flow 2) : Except PyErr ℝ := do
  let Uinf ← getFarfieldState cfg 2 v.direction
  match Uinf.p with
  | some p => .ok ((← pressure cfg.γ U) - p)
  | none => .error .attributeError

end Dream
