import Verif.Model.Basic
import Mathlib.Analysis.SpecialFunctions.Sqrt
import Mathlib.Data.Matrix.Mul
import Mathlib.LinearAlgebra.Matrix.DotProduct
import Mathlib.LinearAlgebra.Matrix.Trace

/-!
# dream/compressible: field dictionaries, equation of state and derived quantities

A coefficient function is modelled by its value at one point: scalars are reals,
vectors are `Fin n → ℝ`, matrices are `Matrix (Fin n) (Fin n) ℝ`, with `n` the
dimension of the mesh (arbitrary). A coefficient function is truthy and `None` is
falsy, so a Python branch `elif all((U.p, U.T)): return e` is the partial
expression `do let p ← U.p; let T ← U.T; some e`, and a chain of `elif` is a chain
of `<|>` (first branch whose fields are all present).
-/

noncomputable section

namespace Dream

open Matrix

/-- The non-gradient quantities of `flowfields` (dream/compressible/config.py:45-58).
An absent key is `none` (dream/config.py:57-80, `quantity.__get__`). -/
structure Flow (n : ℕ) where
  rho : Option ℝ := none
  u : Option (Fin n → ℝ) := none
  rho_u : Option (Fin n → ℝ) := none
  p : Option ℝ := none
  T : Option ℝ := none
  rho_E : Option ℝ := none
  E : Option ℝ := none
  rho_Ei : Option ℝ := none
  Ei : Option ℝ := none
  rho_Ek : Option ℝ := none
  Ek : Option ℝ := none
  rho_H : Option ℝ := none
  H : Option ℝ := none
  c : Option ℝ := none

/-- The gradient quantities of `flowfields` (dream/compressible/config.py:59-73).
`grad_u i j` is the derivative of component `i` in direction `j`. -/
structure Grads (n : ℕ) where
  grad_rho : Option (Fin n → ℝ) := none
  grad_u : Option (Matrix (Fin n) (Fin n) ℝ) := none
  grad_rho_u : Option (Matrix (Fin n) (Fin n) ℝ) := none
  grad_p : Option (Fin n → ℝ) := none
  grad_T : Option (Fin n → ℝ) := none
  grad_rho_E : Option (Fin n → ℝ) := none
  grad_E : Option (Fin n → ℝ) := none
  grad_rho_Ei : Option (Fin n → ℝ) := none
  grad_Ei : Option (Fin n → ℝ) := none
  grad_rho_Ek : Option (Fin n → ℝ) := none
  grad_Ek : Option (Fin n → ℝ) := none
  grad_rho_H : Option (Fin n → ℝ) := none
  grad_H : Option (Fin n → ℝ) := none
  eps : Option (Matrix (Fin n) (Fin n) ℝ) := none

/-- The `equation` decorator (dream/config.py:29-46): a `None` result raises
`ValueError`, exceptions of the wrapped function propagate. -/
def equationE {α} : Except PyErr (Option α) → Except PyErr α
  | .error e => .error e
  | .ok none => .error .valueError
  | .ok (some a) => .ok a

/-- `equation` around a function that does not raise itself. -/
def equation {α} (r : Option α) : Except PyErr α := equationE (.ok r)

variable {n : ℕ} (γ : ℝ)

namespace EOS

/-- `IdealGas.density` (dream/compressible/eos.py:99-125). -/
def density (U : Flow n) : Option ℝ :=
  U.rho
  <|> (do let p ← U.p; let T ← U.T; some (γ / (γ - 1) * p / T))
  <|> (do let p ← U.p; let c ← U.c; some (γ * p / c ^ 2))
  <|> (do let rho_Ei ← U.rho_Ei; let T ← U.T; some (γ * rho_Ei / T))

/-- `IdealGas.pressure` (dream/compressible/eos.py:127-153). -/
def pressure (U : Flow n) : Option ℝ :=
  U.p
  <|> (do let rho ← U.rho; let T ← U.T; some ((γ - 1) / γ * rho * T))
  <|> (do let rho_Ei ← U.rho_Ei; some ((γ - 1) * rho_Ei))
  <|> (do let rho ← U.rho; let c ← U.c; some (rho * c ^ 2 / γ))

/-- `IdealGas.temperature` (dream/compressible/eos.py:155-182). -/
def temperature (U : Flow n) : Option ℝ :=
  U.T
  <|> (do let p ← U.p; let rho ← U.rho; some (γ / (γ - 1) * p / rho))
  <|> (do let Ei ← U.Ei; some (γ * Ei))
  <|> (do let c ← U.c; some (c ^ 2 / (γ - 1)))

/-- `IdealGas.inner_energy` (dream/compressible/eos.py:184-206). -/
def innerEnergy (U : Flow n) : Option ℝ :=
  U.rho_Ei
  <|> (do let p ← U.p; some (p / (γ - 1)))
  <|> (do let rho ← U.rho; let T ← U.T; some (rho * T / γ))

/-- `IdealGas.specific_inner_energy` (dream/compressible/eos.py:208-230). -/
def specificInnerEnergy (U : Flow n) : Option ℝ :=
  U.Ei
  <|> (do let T ← U.T; some (T / γ))
  <|> (do let rho ← U.rho; let p ← U.p; some (p / (γ - 1) / rho))

/-- `IdealGas.speed_of_sound` (dream/compressible/eos.py:232-258). The last branch is
transcribed as written: `sqrt((gamma - 1) * Ei/gamma)`. -/
def speedOfSound (U : Flow n) : Option ℝ :=
  U.c
  <|> (do let rho ← U.rho; let p ← U.p; some (√(γ * p / rho)))
  <|> (do let T ← U.T; some (√((γ - 1) * T)))
  <|> (do let Ei ← U.Ei; some (√((γ - 1) * Ei / γ)))

/-- `IdealGas.density_gradient` (dream/compressible/eos.py:260-281). -/
def densityGradient (U : Flow n) (dU : Grads n) : Option (Fin n → ℝ) :=
  dU.grad_rho
  <|> (do
    let p ← U.p; let T ← U.T; let gp ← dU.grad_p; let gT ← dU.grad_T
    some ((γ / (γ - 1)) • ((1 / T) • gp - (1 / T ^ 2) • (p • gT))))
  <|> (do
    let T ← U.T; let rho_Ei ← U.rho_Ei; let gT ← dU.grad_T; let gEi ← dU.grad_rho_Ei
    some (γ • ((1 / T) • gEi - (1 / T ^ 2) • (rho_Ei • gT))))

/-- `IdealGas.pressure_gradient` (dream/compressible/eos.py:283-304). -/
def pressureGradient (U : Flow n) (dU : Grads n) : Option (Fin n → ℝ) :=
  dU.grad_p
  <|> (do
    let rho ← U.rho; let T ← U.T; let gr ← dU.grad_rho; let gT ← dU.grad_T
    some (((γ - 1) / γ) • (T • gr + rho • gT)))
  <|> (do let gEi ← dU.grad_rho_Ei; some ((γ - 1) • gEi))

/-- `IdealGas.temperature_gradient` (dream/compressible/eos.py:306-327). -/
def temperatureGradient (U : Flow n) (dU : Grads n) : Option (Fin n → ℝ) :=
  dU.grad_T
  <|> (do
    let rho ← U.rho; let p ← U.p; let gp ← dU.grad_p; let gr ← dU.grad_rho
    some ((γ / (γ - 1)) • ((1 / rho) • gp - (1 / rho ^ 2) • (p • gr))))
  <|> (do let gEi ← dU.grad_Ei; some (γ • gEi))

end EOS

/-- `density` (dream/compressible/solver.py:323-325). -/
def density (U : Flow n) : Except PyErr ℝ := equation (EOS.density γ U)

/-- `velocity` (dream/compressible/solver.py:327-338). The special case of two
symbolically zero coefficient functions returns zeros; on values it is covered by
Lean's `0 * 0⁻¹ = 0`, other zero densities are outside the properties. -/
def velocity (U : Flow n) : Except PyErr (Fin n → ℝ) :=
  equation (U.u <|> (do let rho ← U.rho; let rho_u ← U.rho_u; some (rho⁻¹ • rho_u)))

/-- `momentum` (dream/compressible/solver.py:340-347). -/
def momentum (U : Flow n) : Except PyErr (Fin n → ℝ) :=
  equation (U.rho_u <|> (do let rho ← U.rho; let u ← U.u; some (rho • u)))

/-- `pressure` (dream/compressible/solver.py:349-351). -/
def pressure (U : Flow n) : Except PyErr ℝ := equation (EOS.pressure γ U)

/-- `temperature` (dream/compressible/solver.py:353-355). -/
def temperature (U : Flow n) : Except PyErr ℝ := equation (EOS.temperature γ U)

/-- `inner_energy` (dream/compressible/solver.py:357-367). -/
def innerEnergy (U : Flow n) : Except PyErr ℝ :=
  equation (EOS.innerEnergy γ U
    <|> (do let rho_E ← U.rho_E; let rho_Ek ← U.rho_Ek; some (rho_E - rho_Ek)))

/-- `specific_inner_energy` (dream/compressible/solver.py:369-384). -/
def specificInnerEnergy (U : Flow n) : Except PyErr ℝ :=
  equation (EOS.specificInnerEnergy γ U
    <|> (do let rho ← U.rho; let rho_Ei ← U.rho_Ei; some (rho_Ei / rho))
    <|> (do let E ← U.E; let Ek ← U.Ek; some (E - Ek)))

/-- `kinetic_energy` (dream/compressible/solver.py:386-407). -/
def kineticEnergy (U : Flow n) : Except PyErr ℝ :=
  equation (U.rho_Ek
    <|> (do let rho ← U.rho; let u ← U.u; some (1 / 2 * rho * (u ⬝ᵥ u)))
    <|> (do let rho ← U.rho; let rho_u ← U.rho_u; some (1 / 2 * (rho_u ⬝ᵥ rho_u) / rho))
    <|> (do let rho_E ← U.rho_E; let rho_Ei ← U.rho_Ei; some (rho_E - rho_Ei))
    <|> (do let rho ← U.rho; let Ek ← U.Ek; some (rho * Ek)))

/-- `specific_kinetic_energy` (dream/compressible/solver.py:409-430). -/
def specificKineticEnergy (U : Flow n) : Except PyErr ℝ :=
  equation (U.Ek
    <|> (do let u ← U.u; some (1 / 2 * (u ⬝ᵥ u)))
    <|> (do let rho ← U.rho; let rho_u ← U.rho_u; some (1 / 2 * (rho_u ⬝ᵥ rho_u) / rho ^ 2))
    <|> (do let rho ← U.rho; let rho_Ek ← U.rho_Ek; some (rho_Ek / rho))
    <|> (do let E ← U.E; let Ei ← U.Ei; some (E - Ei)))

/-- `energy` (dream/compressible/solver.py:432-447). The last branch calls the
decorated methods `inner_energy` and `kinetic_energy`, whose exceptions propagate. -/
def energy (U : Flow n) : Except PyErr ℝ :=
  equationE <|
    match U.rho_E
      <|> (do let rho ← U.rho; let E ← U.E; some (rho * E))
      <|> (do let rho_Ei ← U.rho_Ei; let rho_Ek ← U.rho_Ek; some (rho_Ei + rho_Ek)) with
    | some e => .ok (some e)
    | none => do
      let rho_Ei ← innerEnergy γ U
      let rho_Ek ← kineticEnergy U
      .ok (some (rho_Ei + rho_Ek))

/-- `specific_energy` (dream/compressible/solver.py:449-462). -/
def specificEnergy (U : Flow n) : Except PyErr ℝ :=
  equation (U.E
    <|> (do let rho ← U.rho; let rho_E ← U.rho_E; some (rho_E / rho))
    <|> (do let Ei ← U.Ei; let Ek ← U.Ek; some (Ei + Ek)))

/-- `enthalpy` (dream/compressible/solver.py:464-477). -/
def enthalpy (U : Flow n) : Except PyErr ℝ :=
  equation (U.rho_H
    <|> (do let rho_E ← U.rho_E; let p ← U.p; some (rho_E + p))
    <|> (do let rho ← U.rho; let H ← U.H; some (rho * H)))

/-- `specific_enthalpy` (dream/compressible/solver.py:479-492). The last branch tests
`rho`, `rho_E`, `p` but evaluates `U.E + U.p/U.rho`; adding to a missing `U.E`
(`None`) raises `TypeError`. -/
def specificEnthalpy (U : Flow n) : Except PyErr ℝ :=
  equationE <|
    match U.H <|> (do let rho ← U.rho; let rho_H ← U.rho_H; some (rho_H / rho)) with
    | some h => .ok (some h)
    | none =>
      match U.rho, U.rho_E, U.p with
      | some rho, some _, some p =>
        match U.E with
        | some E => .ok (some (E + p / rho))
        | none => .error .typeError
      | _, _, _ => .ok none

/-- `speed_of_sound` (dream/compressible/solver.py:494-496). -/
def speedOfSound (U : Flow n) : Except PyErr ℝ := equation (EOS.speedOfSound γ U)

/-- `get_local_mach_number` (dream/compressible/solver.py:250-261). -/
def localMachNumber (U : Flow n) : Except PyErr ℝ := do
  let u ← velocity U
  let c ← speedOfSound γ U
  .ok (√(u ⬝ᵥ u) / c)

/-- `density_gradient` (dream/compressible/solver.py:498-500). -/
def densityGradient (U : Flow n) (dU : Grads n) : Except PyErr (Fin n → ℝ) :=
  equation (EOS.densityGradient γ U dU)

/-- `velocity_gradient` (dream/compressible/solver.py:502-508). -/
def velocityGradient (U : Flow n) (dU : Grads n) : Except PyErr (Matrix (Fin n) (Fin n) ℝ) :=
  equation (dU.grad_u
    <|> (do
      let rho ← U.rho; let rho_u ← U.rho_u; let gr ← dU.grad_rho; let gru ← dU.grad_rho_u
      some ((1 / rho) • gru - (1 / rho ^ 2) • vecMulVec rho_u gr)))

/-- `momentum_gradient` (dream/compressible/solver.py:510-516). -/
def momentumGradient (U : Flow n) (dU : Grads n) : Except PyErr (Matrix (Fin n) (Fin n) ℝ) :=
  equation (dU.grad_rho_u
    <|> (do
      let rho ← U.rho; let u ← U.u; let gr ← dU.grad_rho; let gu ← dU.grad_u
      some (rho • gu + vecMulVec u gr)))

/-- `pressure_gradient` (dream/compressible/solver.py:518-520). -/
def pressureGradient (U : Flow n) (dU : Grads n) : Except PyErr (Fin n → ℝ) :=
  equation (EOS.pressureGradient γ U dU)

/-- `temperature_gradient` (dream/compressible/solver.py:522-524). -/
def temperatureGradient (U : Flow n) (dU : Grads n) : Except PyErr (Fin n → ℝ) :=
  equation (EOS.temperatureGradient γ U dU)

/-- `energy_gradient` (dream/compressible/solver.py:526-532). -/
def energyGradient (dU : Grads n) : Except PyErr (Fin n → ℝ) :=
  equation (dU.grad_rho_E
    <|> (do let a ← dU.grad_rho_Ei; let b ← dU.grad_rho_Ek; some (a + b)))

/-- `specific_energy_gradient` (dream/compressible/solver.py:534-541). -/
def specificEnergyGradient (dU : Grads n) : Except PyErr (Fin n → ℝ) :=
  equation (dU.grad_E
    <|> (do let a ← dU.grad_Ei; let b ← dU.grad_Ek; some (a + b)))

/-- `inner_energy_gradient` (dream/compressible/solver.py:543-549). -/
def innerEnergyGradient (dU : Grads n) : Except PyErr (Fin n → ℝ) :=
  equation (dU.grad_rho_Ei
    <|> (do let a ← dU.grad_rho_E; let b ← dU.grad_rho_Ek; some (a - b)))

/-- `specific_inner_energy_gradient` (dream/compressible/solver.py:551-558). -/
def specificInnerEnergyGradient (dU : Grads n) : Except PyErr (Fin n → ℝ) :=
  equation (dU.grad_Ei
    <|> (do let a ← dU.grad_E; let b ← dU.grad_Ek; some (a - b)))

/-- `kinetic_energy_gradient` (dream/compressible/solver.py:560-574). -/
def kineticEnergyGradient (U : Flow n) (dU : Grads n) : Except PyErr (Fin n → ℝ) :=
  equation (dU.grad_rho_Ek
    <|> (do let a ← dU.grad_rho_E; let b ← dU.grad_rho_Ei; some (a - b))
    <|> (do
      let rho ← U.rho; let u ← U.u; let gr ← dU.grad_rho; let gu ← dU.grad_u
      some (rho • (guᵀ *ᵥ u) + (1 / 2 * (u ⬝ᵥ u)) • gr))
    <|> (do
      let rho ← U.rho; let rho_u ← U.rho_u; let gr ← dU.grad_rho; let gru ← dU.grad_rho_u
      some ((1 / rho) • (gruᵀ *ᵥ rho_u) - (1 / 2 * (rho_u ⬝ᵥ rho_u) / rho ^ 2) • gr)))

/-- `specific_kinetic_energy_gradient` (dream/compressible/solver.py:576-591). -/
def specificKineticEnergyGradient (U : Flow n) (dU : Grads n) : Except PyErr (Fin n → ℝ) :=
  equation (dU.grad_Ek
    <|> (do let a ← dU.grad_E; let b ← dU.grad_Ei; some (a - b))
    <|> (do let u ← U.u; let gu ← dU.grad_u; some (guᵀ *ᵥ u))
    <|> (do
      let rho ← U.rho; let rho_u ← U.rho_u; let gr ← dU.grad_rho; let gru ← dU.grad_rho_u
      some ((1 / rho ^ 2) • (gruᵀ *ᵥ rho_u) - ((rho_u ⬝ᵥ rho_u) / rho ^ 3) • gr)))

/-- `enthalpy_gradient` (dream/compressible/solver.py:593-599). -/
def enthalpyGradient (dU : Grads n) : Except PyErr (Fin n → ℝ) :=
  equation (dU.grad_rho_H
    <|> (do let a ← dU.grad_rho_E; let b ← dU.grad_p; some (a + b)))

/-- `ConservativeMethod.get_conservative_fields`
(dream/compressible/formulations/conservative.py:341-361) applied to the conservative
vector split into density, momentum and energy components. -/
def getConservativeFields (rho : ℝ) (rho_u : Fin n → ℝ) (rho_E : ℝ) : Except PyErr (Flow n) := do
  let U : Flow n := { rho := some rho, rho_u := some rho_u, rho_E := some rho_E }
  let U := { U with u := some (← velocity U) }
  let U := { U with rho_Ek := some (← kineticEnergy U) }
  let U := { U with rho_Ei := some (← innerEnergy γ U) }
  let U := { U with p := some (← pressure γ U) }
  let U := { U with T := some (← temperature γ U) }
  let U := { U with c := some (← speedOfSound γ U) }
  .ok U

/-- `ConservativeMethod.get_conservative_gradient_fields`, the gradient part
(dream/compressible/formulations/conservative.py:363-380): gradients of the
conservative variables in, derived gradients out. -/
def getConservativeGradientFields (U : Flow n) (grad_rho : Fin n → ℝ)
    (grad_rho_u : Matrix (Fin n) (Fin n) ℝ) (grad_rho_E : Fin n → ℝ) :
    Except PyErr (Grads n) := do
  let D : Grads n :=
    { grad_rho := some grad_rho, grad_rho_u := some grad_rho_u, grad_rho_E := some grad_rho_E }
  let D := { D with grad_u := some (← velocityGradient U D) }
  let D := { D with grad_rho_Ek := some (← kineticEnergyGradient U D) }
  let D := { D with grad_rho_Ei := some (← innerEnergyGradient D) }
  let D := { D with grad_p := some (← pressureGradient γ U D) }
  let D := { D with grad_T := some (← temperatureGradient γ U D) }
  .ok D

/-- `ConservativeMethod.set_initial_conditions`
(dream/compressible/formulations/conservative.py:382-390): the conservative vector of a
user supplied state. -/
def conservativeVector (U : Flow n) : Except PyErr (ℝ × (Fin n → ℝ) × ℝ) := do
  .ok (← density γ U, ← momentum U, ← energy γ U)

end Dream
