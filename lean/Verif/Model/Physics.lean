import Verif.Model.Characteristic
import Mathlib.Analysis.SpecialFunctions.Pow.Real

/-!
# dream/compressible: scalings, farfield state, viscosity, viscous stress and diffusive flux

Coefficient functions are values at a point. `ngs.Parameter`s are their current values.
A division by a coefficient function that is zero is not an exception in NGSolve (the value
becomes infinite at evaluation); it is Lean's division here and the properties assume the
denominators to be non-zero.
-/

noncomputable section

namespace Dream

open Matrix

/-- The scalings a user can select (dream/compressible/scaling.py). -/
inductive Scaling
  | aerodynamic | acoustic | aeroacoustic
  deriving DecidableEq

/-- The viscosity laws a user can select (dream/compressible/viscosity.py). `Tm` is
`Sutherland.measurement_temperature`; `measurement_viscosity` is never read by the code. -/
inductive Viscosity
  | inviscid | constant | sutherland (Tm : ℝ)

/-- The part of the configuration of `CompressibleFlowSolver`
(dream/compressible/solver.py:25-138) used by the formulas: heat capacity ratio, Mach,
Reynolds and Prandtl number, scaling, viscosity and `scaling.dimensionful_values.T`. -/
structure FlowCfg where
  γ : ℝ
  Ma : ℝ
  Re : ℝ
  Pr : ℝ
  scaling : Scaling
  visc : Viscosity
  Tref : ℝ

/-- `is_inviscid` (dream/compressible/viscosity.py:15-17). -/
def FlowCfg.isInviscid (cfg : FlowCfg) : Prop := cfg.visc = .inviscid

/-- `velocity_magnitude` (dream/compressible/scaling.py:66-67, 87-88, 107-109). -/
def Scaling.velocityMagnitude : Scaling → ℝ → ℝ
  | .aerodynamic, _ => 1
  | .acoustic, Ma => Ma
  | .aeroacoustic, Ma => Ma / (1 + Ma)

open Classical in
/-- `speed_of_sound` (dream/compressible/scaling.py:58-64, 69-71, 90-91, 111-113). -/
def Scaling.speedOfSound : Scaling → ℝ → Except PyErr ℝ
  | .aerodynamic, Ma => if Ma ≤ 0 then .error .valueError else .ok (1 / Ma)
  | .acoustic, _ => .ok 1
  | .aeroacoustic, Ma => .ok (1 / (1 + Ma))

/-- `Scaling.density` (dream/compressible/scaling.py:29-30). -/
def Scaling.density (_ : Scaling) : ℝ := 1

/-- `Scaling.velocity` (dream/compressible/scaling.py:38-40). -/
def Scaling.velocity {n : ℕ} (s : Scaling) (direction : Fin n → ℝ) (Ma : ℝ) : Fin n → ℝ :=
  s.velocityMagnitude Ma • Bla.unitVector direction

/-- Getter of `reynolds_number` (dream/compressible/solver.py:69-73): not available for an
inviscid fluid. -/
def FlowCfg.reynolds (cfg : FlowCfg) : Except PyErr ℝ :=
  match cfg.visc with
  | .inviscid => .error .valueError
  | _ => .ok cfg.Re

/-- Getter of `prandtl_number` (dream/compressible/solver.py:89-93). -/
def FlowCfg.prandtl (cfg : FlowCfg) : Except PyErr ℝ :=
  match cfg.visc with
  | .inviscid => .error .valueError
  | _ => .ok cfg.Pr

/-- `reference_reynolds_number` (dream/compressible/scaling.py:50-56, 79-85, 99-105). -/
def FlowCfg.referenceReynolds (cfg : FlowCfg) : Except PyErr ℝ := do
  .ok ((← cfg.reynolds) / cfg.scaling.velocityMagnitude cfg.Ma)

/-- `get_farfield_state` (dream/compressible/solver.py:177-195). The direction has its own
length `m`, the mesh has dimension `n`. -/
def getFarfieldState (cfg : FlowCfg) (n : ℕ) {m : ℕ} (direction : Fin m → ℝ) :
    Except PyErr (Flow n) := do
  let INF : Flow n := { rho := some cfg.scaling.density }
  let INF := { INF with c := some (← cfg.scaling.speedOfSound cfg.Ma) }
  let INF := { INF with T := some (← temperature cfg.γ INF) }
  let INF := { INF with p := some (← pressure cfg.γ INF) }
  if h : m = n then
    let INF := { INF with
      u := some (cfg.scaling.velocity (fun i => direction (Fin.cast h.symm i)) cfg.Ma) }
    let INF := { INF with rho_Ei := some (← innerEnergy cfg.γ INF) }
    let INF := { INF with rho_Ek := some (← kineticEnergy INF) }
    let INF := { INF with rho_E := some (← energy cfg.γ INF) }
    .ok INF
  else .error .valueError

/-- `viscosity` with its `equation` wrapper (dream/compressible/solver.py:630-632,
viscosity.py:28-29, 36-37, 52-61). -/
def viscosity {n : ℕ} (cfg : FlowCfg) (U : Flow n) : Except PyErr ℝ :=
  match cfg.visc with
  | .inviscid => .error .typeError
  | .constant => .ok 1
  | .sutherland Tm =>
    match U.T with
    | none => .error .valueError
    | some T => do
      let c ← cfg.scaling.speedOfSound cfg.Ma
      let INF : Flow n := { rho := some cfg.scaling.density, c := some c }
      let Tinf ← temperature cfg.γ INF
      let T0 := Tm / cfg.Tref * Tinf
      .ok ((T / Tinf) ^ (3 / 2 : ℝ) * (Tinf + T0) / (T + T0))

/-- `get_local_reynolds_number` (dream/compressible/solver.py:263-275). -/
def localReynoldsNumber {n : ℕ} (cfg : FlowCfg) (U : Flow n) : Except PyErr ℝ := do
  let rho ← density cfg.γ U
  let u ← velocity U
  let mu ← viscosity cfg U
  .ok (rho * √(u ⬝ᵥ u) / mu)

/-- `strain_rate_tensor` (dream/compressible/solver.py:601-607). `bla.trace` of a square
matrix is its trace (C45). -/
def strainRateTensor {n : ℕ} (dU : Grads n) : Except PyErr (Matrix (Fin n) (Fin n) ℝ) :=
  equation (dU.eps
    <|> (do
      let gu ← dU.grad_u
      some ((0.5 : ℝ) • (gu + guᵀ) - (1 / 3 * gu.trace) • (1 : Matrix (Fin n) (Fin n) ℝ))))

/-- `deviatoric_stress_tensor` (dream/compressible/solver.py:609-628). -/
def deviatoricStressTensor {n : ℕ} (cfg : FlowCfg) (U : Flow n) (dU : Grads n) :
    Except PyErr (Matrix (Fin n) (Fin n) ℝ) := do
  let mu ← viscosity cfg U
  let Re ← cfg.referenceReynolds
  let eps ← strainRateTensor dU
  .ok ((2 * mu / Re) • eps)

/-- `heat_flux` (dream/compressible/solver.py:634-643). -/
def heatFlux {n : ℕ} (cfg : FlowCfg) (U : Flow n) (dU : Grads n) :
    Except PyErr (Fin n → ℝ) := do
  let k ← viscosity cfg U
  let Re ← cfg.referenceReynolds
  let Pr ← cfg.prandtl
  match dU.grad_T with
  | some gT => .ok ((-k / (Re * Pr)) • gT)
  | none => .error .valueError

/-- `get_diffusive_flux` (dream/compressible/solver.py:231-248). -/
def diffusiveFlux {n : ℕ} (cfg : FlowCfg) (U : Flow n) (dU : Grads n) :
    Except PyErr (Matrix (Fin (n + 2)) (Fin n) ℝ) := do
  let u ← velocity U
  let tau ← deviatoricStressTensor cfg U dU
  let q ← heatFlux cfg U dU
  .ok (Matrix.of (Fin.cons (fun _ => 0) (Fin.snoc (fun i => tau i) (tau *ᵥ u - q))))

/-- `MixedMethod.get_diffusive_stabilisation_matrix`
(dream/compressible/formulations/conservative.py:54-60). -/
def diffusiveStabilisation {n : ℕ} (cfg : FlowCfg) (U : Flow n) :
    Except PyErr (Matrix (Fin (n + 2)) (Fin (n + 2)) ℝ) := do
  let Re ← cfg.referenceReynolds
  let Pr ← cfg.prandtl
  let mu ← viscosity cfg U
  .ok ((mu / Re) • Bla.diagonalM (lamVec n 0 1 (1 / Pr)))

/-- `HDG.get_diffusive_numerical_flux`
(dream/compressible/formulations/conservative.py:749-766). -/
def diffusiveNumericalFlux {n : ℕ} (cfg : FlowCfg) (w wHat : Fin (n + 2) → ℝ) (UHat : Flow n)
    (Q : Grads n) (nrm : Fin n → ℝ) : Except PyErr (Fin (n + 2) → ℝ) := do
  let τd ← diffusiveStabilisation cfg UHat
  let G ← diffusiveFlux cfg UHat Q
  .ok (G *ᵥ nrm - τd *ᵥ (w - wHat))

/-- `StrainHeat.get_mixed_fields` in two dimensions
(dream/compressible/formulations/conservative.py:160-174). -/
def strainHeatFields (Q : Fin 5 → ℝ) : Grads 2 :=
  { eps := some !![Q 0, Q 1; Q 1, Q 2], grad_T := some ![Q 3, Q 4] }

/-- `Gradient.get_mixed_fields` (dream/compressible/formulations/conservative.py:305-318): the
mixed variables are the gradients of density, momentum and energy. -/
def gradientFields {n : ℕ} (grad_rho : Fin n → ℝ) (grad_rho_u : Matrix (Fin n) (Fin n) ℝ)
    (grad_rho_E : Fin n → ℝ) : Grads n :=
  { grad_rho := some grad_rho, grad_rho_u := some grad_rho_u, grad_rho_E := some grad_rho_E }

/-- `ux, uy = U.u`: the components of the stored velocity, `TypeError` for `None`. -/
def storedVelocity {n : ℕ} (U : Flow n) : Except PyErr (Fin n → ℝ) :=
  match U.u with
  | some u => .ok u
  | none => .error .typeError

/-- `StrainHeat.get_conservative_diffusive_jacobian_x` in two dimensions
(dream/compressible/formulations/conservative.py:176-193). -/
def conservativeDiffusiveJacobianX (cfg : FlowCfg) (U : Flow 2) (Q : Grads 2) :
    Except PyErr (Matrix (Fin 4) (Fin 4) ℝ) := do
  let rho ← density cfg.γ U
  let τ ← deviatoricStressTensor cfg U Q
  let u ← storedVelocity U
  .ok !![0, 0, 0, 0;
         0, 0, 0, 0;
         0, 0, 0, 0;
         -τ 0 0 * u 0 / rho - τ 0 1 * u 1 / rho, τ 0 0 / rho, τ 0 1 / rho, 0]

/-- `StrainHeat.get_conservative_diffusive_jacobian_y` in two dimensions
(dream/compressible/formulations/conservative.py:195-212). -/
def conservativeDiffusiveJacobianY (cfg : FlowCfg) (U : Flow 2) (Q : Grads 2) :
    Except PyErr (Matrix (Fin 4) (Fin 4) ℝ) := do
  let rho ← density cfg.γ U
  let τ ← deviatoricStressTensor cfg U Q
  let u ← storedVelocity U
  .ok !![0, 0, 0, 0;
         0, 0, 0, 0;
         0, 0, 0, 0;
         -τ 1 0 * u 0 / rho - τ 1 1 * u 1 / rho, τ 1 0 / rho, τ 1 1 / rho, 0]

/-- `StrainHeat.get_conservative_diffusive_jacobian` in two dimensions
(dream/compressible/formulations/conservative.py:214-223). -/
def conservativeDiffusiveJacobian (cfg : FlowCfg) (U : Flow 2) (Q : Grads 2) (d : Fin 2 → ℝ) :
    Except PyErr (Matrix (Fin 4) (Fin 4) ℝ) := do
  let A ← conservativeDiffusiveJacobianX cfg U Q
  let B ← conservativeDiffusiveJacobianY cfg U Q
  .ok (d 0 • A + d 1 • B)

/-- `StrainHeat.get_mixed_diffusive_jacobian_x` in two dimensions
(dream/compressible/formulations/conservative.py:225-243). -/
def mixedDiffusiveJacobianX (cfg : FlowCfg) (U : Flow 2) :
    Except PyErr (Matrix (Fin 4) (Fin 5) ℝ) := do
  let Re ← cfg.referenceReynolds
  let Pr ← cfg.prandtl
  let mu ← viscosity cfg U
  let u ← storedVelocity U
  .ok ((mu / Re) • !![0, 0, 0, 0, 0;
                      2, 0, 0, 0, 0;
                      0, 2, 0, 0, 0;
                      2 * u 0, 2 * u 1, 0, 1 / Pr, 0])

/-- `StrainHeat.get_mixed_diffusive_jacobian_y` in two dimensions
(dream/compressible/formulations/conservative.py:245-263). -/
def mixedDiffusiveJacobianY (cfg : FlowCfg) (U : Flow 2) :
    Except PyErr (Matrix (Fin 4) (Fin 5) ℝ) := do
  let Re ← cfg.referenceReynolds
  let Pr ← cfg.prandtl
  let mu ← viscosity cfg U
  let u ← storedVelocity U
  .ok ((mu / Re) • !![0, 0, 0, 0, 0;
                      0, 2, 0, 0, 0;
                      0, 0, 2, 0, 0;
                      0, 2 * u 0, 2 * u 1, 0, 1 / Pr])

/-- `StrainHeat.get_mixed_diffusive_jacobian` in two dimensions
(dream/compressible/formulations/conservative.py:265-273). -/
def mixedDiffusiveJacobian (cfg : FlowCfg) (U : Flow 2) (d : Fin 2 → ℝ) :
    Except PyErr (Matrix (Fin 4) (Fin 5) ℝ) := do
  let A ← mixedDiffusiveJacobianX cfg U
  let B ← mixedDiffusiveJacobianY cfg U
  .ok (d 0 • A + d 1 • B)

/-- `isentropic_density` with its `equation` wrapper (dream/compressible/eos.py:744-759,
solver.py:699-701). -/
def isentropicDensity {n : ℕ} (γ : ℝ) (U Uref : Flow n) : Except PyErr ℝ :=
  equation ((do
      let p ← U.p; let rho ← Uref.rho; let pref ← Uref.p
      some (rho * (p / pref) ^ (1 / γ)))
    <|> (do
      let T ← U.T; let rho ← Uref.rho; let Tref ← Uref.T
      some (rho * (T / Tref) ^ (1 / (γ - 1)))))

/-- `pressure_coefficient` (dream/compressible/solver.py:703-705). -/
def pressureCoefficient {n : ℕ} (γ : ℝ) (U Uref : Flow n) : Except PyErr ℝ := do
  .ok (((← pressure γ U) - (← pressure γ Uref)) / (← kineticEnergy Uref))

/-- `stress_tensor` (dream/compressible/solver.py:707-714). -/
def stressTensor {n : ℕ} (cfg : FlowCfg) (U : Flow n) (dU : Grads n) :
    Except PyErr (Matrix (Fin n) (Fin n) ℝ) := do
  let p ← pressure cfg.γ U
  match cfg.visc with
  | .inviscid => .ok (-p • (1 : Matrix (Fin n) (Fin n) ℝ))
  | _ => .ok (-p • (1 : Matrix (Fin n) (Fin n) ℝ) + (← deviatoricStressTensor cfg U dU))

/-- The integrand returned by `drag_coefficient` and `lift_coefficient`
(dream/compressible/solver.py:716-726); `nrm` is `mesh.normal`, the outward normal of the
fluid domain. -/
def forceCoefficient {n : ℕ} (cfg : FlowCfg) (U : Flow n) (dU : Grads n) (Uref : Flow n)
    (nrm direction : Fin n → ℝ) : Except PyErr ℝ := do
  let σ ← stressTensor cfg U dU
  .ok (((σ *ᵥ nrm) ⬝ᵥ Bla.unitVector direction) / (← kineticEnergy Uref))

/-- `dimensionfulfields` (dream/compressible/config.py:72-79). -/
structure DimFields where
  L : Option ℝ := none
  rho : Option ℝ := none
  rho_u : Option ℝ := none
  u : Option ℝ := none
  c : Option ℝ := none
  T : Option ℝ := none
  p : Option ℝ := none

/-- `Scaling.dimensionful_values` (dream/compressible/scaling.py:17-27): the defaults updated
by the values of the user. -/
def dimensionfulValues (fields : DimFields) : DimFields where
  L := fields.L <|> some 1
  rho := fields.rho <|> some 1.293
  rho_u := fields.rho_u
  u := fields.u <|> some 1
  c := fields.c <|> some 343
  T := fields.T <|> some 293.15
  p := fields.p <|> some 101325

/-- `get_dimensionful_state` (dream/compressible/solver.py:197-210): entries of `U` whose name
is a name of a reference value are multiplied by it, all others are dropped. -/
def getDimensionfulState {n : ℕ} (REF : DimFields) (U : Flow n) : Flow n where
  rho := do let x ← U.rho; let r ← REF.rho; some (x * r)
  rho_u := do let x ← U.rho_u; let r ← REF.rho_u; some (r • x)
  u := do let x ← U.u; let r ← REF.u; some (r • x)
  c := do let x ← U.c; let r ← REF.c; some (x * r)
  T := do let x ← U.T; let r ← REF.T; some (x * r)
  p := do let x ← U.p; let r ← REF.p; some (x * r)

end Dream
