import Verif.Model.Physics

/-!
# dream/compressible/formulations/conservative.py: boundary and domain formulations

Each `add_…_formulation` adds `⟨R, Vhat⟩` over a boundary (or `⟨R, V⟩` over a domain) to the
bilinear form. The model is the residual vector `R` at a point. The conservative vector
`(ρ, ρu, ρE)` is modelled by its three parts, `consVec` puts them into one vector.
-/

noncomputable section

namespace Dream

open Matrix

variable {n : ℕ}

/-- `ngs.CF((rho, rho_u, rho_E))`, e.g. dream/compressible/formulations/conservative.py:532-535. -/
def consVec (rho : ℝ) (rho_u : Fin n → ℝ) (rho_E : ℝ) : Fin (n + 2) → ℝ :=
  Fin.cons rho (Fin.snoc rho_u rho_E)

/-- `ngs.CF((density(U), momentum(U), energy(U)))`
(dream/compressible/formulations/conservative.py:532-535, 561, 583-586, 698-701). -/
def stateVec (γ : ℝ) (U : Flow n) : Except PyErr (Fin (n + 2) → ℝ) := do
  .ok (consVec (← density γ U) (← momentum U) (← energy γ U))

/-- Passing an absent field (`None`) to the constructor of `flowfields`: the value is converted
with `ngs.CF(None)` (dream/config.py:104-106), which is taken to fail. -/
def given {α} : Option α → Except PyErr α
  | some a => .ok a
  | none => .error .typeError

/-- `add_farfield_formulation` (dream/compressible/formulations/conservative.py:520-546). -/
def farfieldResidual (γ : ℝ) (identityJacobian : Bool) (bc : Flow n) (nrm : Fin n → ℝ)
    (U UHat : Fin (n + 2) → ℝ) (UHatFields : Flow n) : Except PyErr (Fin (n + 2) → ℝ) := do
  let Uinf ← stateVec γ bc
  if identityJacobian then
    let Qin ← conservativeConvectiveIdentity γ UHatFields nrm (some "incoming")
    let Qout ← conservativeConvectiveIdentity γ UHatFields nrm (some "outgoing")
    .ok (UHat - Qout *ᵥ U - Qin *ᵥ Uinf)
  else
    let Ain ← conservativeConvectiveJacobian γ UHatFields nrm (some "incoming")
    let Aout ← conservativeConvectiveJacobian γ UHatFields nrm (some "outgoing")
    .ok (Aout *ᵥ (UHat - U) - Ain *ᵥ (UHat - Uinf))

/-- The state `U_bc` of the outflow (dream/compressible/formulations/conservative.py:559-561,
589-590). -/
def outflowState (γ : ℝ) (bc U : Flow n) : Except PyErr (Fin (n + 2) → ℝ) := do
  let rho ← given U.rho
  let rho_u ← given U.rho_u
  let rho_Ek ← given U.rho_Ek
  let p ← given bc.p
  stateVec γ { rho := some rho, rho_u := some rho_u, rho_Ek := some rho_Ek, p := some p }

/-- `add_outflow_formulation` (dream/compressible/formulations/conservative.py:548-564). -/
def outflowResidual (γ : ℝ) (bc U : Flow n) (UHat : Fin (n + 2) → ℝ) :
    Except PyErr (Fin (n + 2) → ℝ) := do
  .ok (UHat - (← outflowState γ bc U))

/-- `add_inviscid_wall_formulation` (dream/compressible/formulations/conservative.py:622-641),
also used for `Symmetry`. -/
def inviscidWallResidual (γ : ℝ) (nrm : Fin n → ℝ) (U : Flow n) (UHat : Fin (n + 2) → ℝ) :
    Except PyErr (Fin (n + 2) → ℝ) := do
  let rho ← density γ U
  let rho_u ← momentum U
  let rho_E ← energy γ U
  .ok (UHat - consVec rho (rho_u - (rho_u ⬝ᵥ nrm) • nrm) rho_E)

/-- `add_isothermal_wall_formulation`
(dream/compressible/formulations/conservative.py:643-659). -/
def isothermalWallResidual (γ : ℝ) (bc U : Flow n) (UHat : Fin (n + 2) → ℝ) :
    Except PyErr (Fin (n + 2) → ℝ) := do
  let rho ← given U.rho
  let T ← given bc.T
  let Ubc : Flow n := { rho := some rho, rho_u := some fun _ => 0, rho_Ek := some 0, T := some T }
  .ok (UHat - consVec (← density γ Ubc) (← momentum Ubc) (← innerEnergy γ Ubc))

/-- Number of components of the two vectors that `add_adiabatic_wall_formulation` subtracts
(dream/compressible/formulations/conservative.py:682-687): `Uhat.U` has `n + 2`;
`U_bc` is the tuple of a scalar, a vector of length `n` and `tau * (scalar)`, where `tau` is the
`(n+2)×(n+2)` stabilisation matrix. -/
def adiabaticDims (n : ℕ) : ℕ × ℕ := (n + 2, 1 + n + (n + 2) * (n + 2))

/-- The mixed methods a user can select (dream/compressible/formulations/conservative.py:63-318). -/
inductive MixedMethod
  | inactive | strainHeat | gradient
  deriving DecidableEq

/-- The checks of `add_adiabatic_wall_formulation`
(dream/compressible/formulations/conservative.py:661-688): the mixed method, and NGSolve's
check that both operands of a subtraction have the same dimension. The value is the residual's
dimension when the formulation can be built. -/
def adiabaticWall (n : ℕ) (m : MixedMethod) : Except PyErr ℕ :=
  if m ≠ .strainHeat then .error .notImplemented
  else if (adiabaticDims n).1 = (adiabaticDims n).2 then .ok (adiabaticDims n).1
  else .error .runtime

/-- `add_mixed_finite_element_spaces` (dream/compressible/formulations/conservative.py:67-70,
77-88, 280-291): which mixed methods accept which fluids. -/
def mixedMethodCheck (m : MixedMethod) (cfg : FlowCfg) : Except PyErr Unit :=
  match m, cfg.visc with
  | .inactive, .inviscid => .ok ()
  | .inactive, _ => .error .typeError
  | _, .inviscid => .error .typeError
  | _, _ => .ok ()

/-- Target of a characteristic boundary condition (dream/compressible/config.py:140-149). -/
inductive CbcTarget
  | farfield | outflow | massInflow | temperatureInflow
  deriving DecidableEq

/-- The state `U_bc` of `add_cbc_formulation`
(dream/compressible/formulations/conservative.py:582-600). -/
def cbcState (γ : ℝ) (target : CbcTarget) (bc U : Flow n) : Except PyErr (Fin (n + 2) → ℝ) :=
  match target with
  | .farfield => stateVec γ bc
  | .outflow => outflowState γ bc U
  | .massInflow => do
    let rho ← given bc.rho
    let rho_u ← given bc.rho_u
    let rho_Ek ← given bc.rho_Ek
    let p ← given U.p
    stateVec γ { rho := some rho, rho_u := some rho_u, rho_Ek := some rho_Ek, p := some p }
  | .temperatureInflow => do
    let rho ← isentropicDensity γ U bc
    let u ← given bc.u
    let T ← given U.T
    let Ubc : Flow n := { rho := some rho, u := some u, T := some T }
    let Ubc := { Ubc with Ek := some (← specificKineticEnergy Ubc) }
    stateVec γ Ubc

/-- `add_cbc_formulation` without viscous terms
(dream/compressible/formulations/conservative.py:566-617). `D` is the
relaxation matrix (C48) before the transformation, `dt` and `UHatN` come from the time scheme,
`tng` is the tangential vector and `gradT` the tangential derivative of `Uhat`. -/
def cbcResidual (γ : ℝ) (target : CbcTarget) (bc U : Flow n) (UHatFields : Flow n)
    (D : Matrix (Fin (n + 2)) (Fin (n + 2)) ℝ) (β dt : ℝ) (nrm tng : Fin n → ℝ)
    (w wHat wHatN gradT : Fin (n + 2) → ℝ) : Except PyErr (Fin (n + 2) → ℝ) := do
  let Ubc ← cbcState γ target bc U
  let D ← transformCharacteristicToConservative γ D UHatFields nrm
  let Qin ← conservativeConvectiveIdentity γ UHatFields nrm (some "incoming")
  let Qout ← conservativeConvectiveIdentity γ UHatFields nrm (some "outgoing")
  let B ← conservativeConvectiveJacobian γ UHatFields tng none
  .ok (wHat - Qout *ᵥ w - Qin *ᵥ wHatN - dt • (Qin *ᵥ (D *ᵥ (Ubc - wHat)))
    + (dt * β) • (Qin *ᵥ (B *ᵥ gradT)))

/-- `add_sponge_layer_formulation` (dream/compressible/formulations/conservative.py:690-703):
`σ` is the value of `dc.function`. -/
def spongeResidual (γ σ : ℝ) (target : Flow n) (w : Fin (n + 2) → ℝ) :
    Except PyErr (Fin (n + 2) → ℝ) := do
  .ok (σ • (w - (← stateVec γ target)))

/-- A specification of relaxation factors by the user: a scalar, a list or a dictionary
(dream/compressible/config.py:151-160). -/
inductive Factors
  | scalar (x : ℝ)
  | list (xs : List ℝ)
  | dict (d : List (String × ℝ))

/-- Names of the characteristics (dream/compressible/config.py:153). -/
def characteristicNames : List String :=
  ["acoustic_in", "entropy", "vorticity_0", "vorticity_1", "acoustic_out"]

/-- `CBC.relaxation_factor` (dream/compressible/config.py:151-160); a dictionary is modelled by
its items in insertion order. -/
def relaxationFactor : Factors → List (String × ℝ)
  | .scalar x => characteristicNames.map fun k => (k, x)
  | .list xs => characteristicNames.zip xs
  | .dict d => characteristicNames.zip (d.map Prod.snd)

/-- `CBC.get_relaxation_matrix` (dream/compressible/config.py:170-176) for a mesh of dimension
`dim`; `dict.pop` of a missing key raises `KeyError`. -/
def cbcFactors (dim : ℕ) (f : Factors) : Except PyErr (List (String × ℝ)) :=
  let factors := relaxationFactor f
  if dim = 2 then
    if factors.any fun kv => kv.1 == "vorticity_1" then
      .ok (factors.filter fun kv => kv.1 != "vorticity_1")
    else .error .keyError
  else .ok factors

/-- Diagonal of `GRCBC.get_relaxation_matrix` (dream/compressible/config.py:189-195). -/
def grcbcDiagonal (dim : ℕ) (f : Factors) (dt : Option ℝ) : Except PyErr (List ℝ) :=
  match dt with
  | none => .error .valueError
  | some dt => do .ok ((← cbcFactors dim f).map fun kv => kv.2 / dt)

/-- Diagonal of `NSCBC.get_relaxation_matrix` (dream/compressible/config.py:206-215). -/
def nscbcDiagonal (dim : ℕ) (f : Factors) (length : ℝ) (c M : Option ℝ) :
    Except PyErr (List ℝ) :=
  match c, M with
  | some c, some M => do
    let sigmas ← cbcFactors dim f
    let eig := [c * (1 - M ^ 2)] ++ List.replicate dim c ++ [c * (1 - M ^ 2)]
    .ok ((sigmas.map Prod.snd).zipWith (fun s e => s * e / length) eig)
  | _, _ => .error .valueError

end Dream
