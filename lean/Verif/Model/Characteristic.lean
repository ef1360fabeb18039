import Verif.Model.Bla

/-!
# dream/compressible: characteristic velocities, transformation matrices, fluxes, Jacobians
-/

noncomputable section

namespace Dream

open Matrix

variable {n : ℕ}

/-- The vector `[a] + n*[b] + [c]` (dream/compressible/eos.py:363). -/
def lamVec (n : ℕ) (a b c : ℝ) : Fin (n + 2) → ℝ := Fin.cons a (Fin.snoc (fun _ : Fin n => b) c)

/-- `IdealGas.characteristic_velocities` with its `equation` wrapper
(dream/compressible/eos.py:329-363, solver.py:645-647). -/
def characteristicVelocities (U : Flow n) (nrm : Fin n → ℝ) (type : Option String) :
    Except PyErr (Fin (n + 2) → ℝ) :=
  match U.u, U.c with
  | some u, some c =>
    let un := u ⬝ᵥ nrm
    match type with
    | none => .ok (lamVec n (un - c) un (un + c))
    | some "absolute" => .ok (lamVec n (Bla.abs (un - c)) (Bla.abs un) (Bla.abs (un + c)))
    | some "incoming" => .ok (lamVec n (Bla.min (un - c) 0) (Bla.min un 0) (Bla.min (un + c) 0))
    | some "outgoing" => .ok (lamVec n (Bla.max (un - c) 0) (Bla.max un 0) (Bla.max (un + c) 0))
    | some _ => .error .valueError
  | _, _ => .error .valueError

/-- The matrix `M` (dream/compressible/eos.py:427-434). -/
def matM (γ rho : ℝ) (u : Fin 2 → ℝ) : Matrix (Fin 4) (Fin 4) ℝ :=
  !![1, 0, 0, 0;
     u 0, rho, 0, 0;
     u 1, 0, rho, 0;
     1 / 2 * (u ⬝ᵥ u), rho * u 0, rho * u 1, 1 / (γ - 1)]

/-- The matrix `Minv` (dream/compressible/eos.py:466-472). -/
def matMinv (γ rho : ℝ) (u : Fin 2 → ℝ) : Matrix (Fin 4) (Fin 4) ℝ :=
  !![1, 0, 0, 0;
     -u 0 / rho, 1 / rho, 0, 0;
     -u 1 / rho, 0, 1 / rho, 0;
     (γ - 1) / 2 * (u ⬝ᵥ u), -(γ - 1) * u 0, -(γ - 1) * u 1, γ - 1]

/-- The matrix `L` (dream/compressible/eos.py:501-507). -/
def matL (rho c : ℝ) (d : Fin 2 → ℝ) : Matrix (Fin 4) (Fin 4) ℝ :=
  !![0.5 / c ^ 2, 1 / c ^ 2, 0, 0.5 / c ^ 2;
     -d 0 / (2 * c * rho), 0, d 1, d 0 / (2 * c * rho);
     -d 1 / (2 * c * rho), 0, -d 0, d 1 / (2 * c * rho);
     0.5, 0, 0, 0.5]

/-- The matrix `Linv` (dream/compressible/eos.py:535-541). -/
def matLinv (rho c : ℝ) (d : Fin 2 → ℝ) : Matrix (Fin 4) (Fin 4) ℝ :=
  !![0, -rho * c * d 0, -rho * c * d 1, 1;
     c ^ 2, 0, 0, -1;
     0, d 1, -d 0, 0;
     0, rho * c * d 0, rho * c * d 1, 1]

/-- The matrix `P` (dream/compressible/eos.py:606-622). -/
def matP (γ rho c : ℝ) (u d : Fin 2 → ℝ) : Matrix (Fin 4) (Fin 4) ℝ :=
  !![1 / (2 * c ^ 2), 1 / c ^ 2, 0, 1 / (2 * c ^ 2);
     -d 0 / (2 * c) + u 0 / (2 * c ^ 2), u 0 / c ^ 2, d 1 * rho, d 0 / (2 * c) + u 0 / (2 * c ^ 2);
     -d 1 / (2 * c) + u 1 / (2 * c ^ 2), u 1 / c ^ 2, -d 0 * rho, d 1 / (2 * c) + u 1 / (2 * c ^ 2);
     0.5 / (γ - 1) - d 0 * u 0 / (2 * c) - d 1 * u 1 / (2 * c) + (u ⬝ᵥ u) / (4 * c ^ 2),
     (u ⬝ᵥ u) / (2 * c ^ 2),
     -d 0 * rho * u 1 + d 1 * rho * u 0,
     0.5 / (γ - 1) + d 0 * u 0 / (2 * c) + d 1 * u 1 / (2 * c) + (u ⬝ᵥ u) / (4 * c ^ 2)]

/-- The matrix `Pinv` (dream/compressible/eos.py:649-658). -/
def matPinv (γ rho c : ℝ) (u d : Fin 2 → ℝ) : Matrix (Fin 4) (Fin 4) ℝ :=
  !![c * d 0 * u 0 + c * d 1 * u 1 + (γ - 1) * (u ⬝ᵥ u) / 2, -c * d 0 + u 0 * (1 - γ),
     -c * d 1 + u 1 * (1 - γ), γ - 1;
     c ^ 2 - (γ - 1) * (u ⬝ᵥ u) / 2, -u 0 * (1 - γ), -u 1 * (1 - γ), 1 - γ;
     d 0 * u 1 / rho - d 1 * u 0 / rho, d 1 / rho, -d 0 / rho, 0;
     -c * d 0 * u 0 - c * d 1 * u 1 + (γ - 1) * (u ⬝ᵥ u) / 2, c * d 0 + u 0 * (1 - γ),
     c * d 1 + u 1 * (1 - γ), γ - 1]

/-- Primitive Jacobian in x-direction (dream/compressible/eos.py:552-558). -/
def matPrimX (rho c : ℝ) (u : Fin 2 → ℝ) : Matrix (Fin 4) (Fin 4) ℝ :=
  !![u 0, rho, 0, 0;
     0, u 0, 0, 1 / rho;
     0, 0, u 0, 0;
     0, rho * c ^ 2, 0, u 0]

/-- Primitive Jacobian in y-direction (dream/compressible/eos.py:570-576). -/
def matPrimY (rho c : ℝ) (u : Fin 2 → ℝ) : Matrix (Fin 4) (Fin 4) ℝ :=
  !![u 1, 0, rho, 0;
     0, u 1, 0, 0;
     0, 0, u 1, 1 / rho;
     0, 0, rho * c ^ 2, u 1]

/-- Conservative Jacobian in x-direction (dream/compressible/eos.py:685-692). -/
def matA (γ E : ℝ) (u : Fin 2 → ℝ) : Matrix (Fin 4) (Fin 4) ℝ :=
  !![0, 1, 0, 0;
     (γ - 3) / 2 * u 0 ^ 2 + (γ - 1) / 2 * u 1 ^ 2, (3 - γ) * u 0, -(γ - 1) * u 1, γ - 1;
     -u 0 * u 1, u 1, u 0, 0;
     -γ * u 0 * E + (γ - 1) * u 0 * (u ⬝ᵥ u), γ * E - (γ - 1) / 2 * (u 1 ^ 2 + 3 * u 0 ^ 2),
     -(γ - 1) * u 0 * u 1, γ * u 0]

/-- Conservative Jacobian in y-direction (dream/compressible/eos.py:724-732). -/
def matB (γ E : ℝ) (u : Fin 2 → ℝ) : Matrix (Fin 4) (Fin 4) ℝ :=
  !![0, 0, 1, 0;
     -u 0 * u 1, u 1, u 0, 0;
     (γ - 3) / 2 * u 1 ^ 2 + (γ - 1) / 2 * u 0 ^ 2, -(γ - 1) * u 0, (3 - γ) * u 1, γ - 1;
     -γ * u 1 * E + (γ - 1) * u 1 * (u ⬝ᵥ u), -(γ - 1) * u 0 * u 1,
     γ * E - (γ - 1) / 2 * (u 0 ^ 2 + 3 * u 1 ^ 2), γ * u 1]

/-- `conservative_from_primitive` (dream/compressible/eos.py:406-441). Only two space
dimensions are implemented. -/
def conservativeFromPrimitive (γ : ℝ) :
    {n : ℕ} → Flow n → Except PyErr (Matrix (Fin (n + 2)) (Fin (n + 2)) ℝ)
  | 2, U => equation (do let rho ← U.rho; let u ← U.u; some (matM γ rho u))
  | _, U => if U.rho.isSome ∧ U.u.isSome then .error .notImplemented else .error .valueError

/-- `primitive_from_conservative` (dream/compressible/eos.py:443-480). -/
def primitiveFromConservative (γ : ℝ) :
    {n : ℕ} → Flow n → Except PyErr (Matrix (Fin (n + 2)) (Fin (n + 2)) ℝ)
  | 2, U => equation (do let rho ← U.rho; let u ← U.u; some (matMinv γ rho u))
  | _, U => if U.rho.isSome ∧ U.u.isSome then .error .notImplemented else .error .valueError

/-- `primitive_from_characteristic` (dream/compressible/eos.py:482-513). In other dimensions
the code returns (instead of raises) a `NotImplementedError`, which fails as soon as it is
multiplied; modelled as an error. -/
def primitiveFromCharacteristic :
    {n : ℕ} → Flow n → (Fin n → ℝ) → Except PyErr (Matrix (Fin (n + 2)) (Fin (n + 2)) ℝ)
  | 2, U, d => equation (do let rho ← U.rho; let c ← U.c; some (matL rho c d))
  | _, U, _ => if U.rho.isSome ∧ U.c.isSome then .error .notImplemented else .error .valueError

/-- `characteristic_from_primitive` (dream/compressible/eos.py:515-546). -/
def characteristicFromPrimitive :
    {n : ℕ} → Flow n → (Fin n → ℝ) → Except PyErr (Matrix (Fin (n + 2)) (Fin (n + 2)) ℝ)
  | 2, U, d => equation (do let rho ← U.rho; let c ← U.c; some (matLinv rho c d))
  | _, U, _ => if U.rho.isSome ∧ U.c.isSome then .error .notImplemented else .error .valueError

/-- `conservative_from_characteristic` (dream/compressible/eos.py:584-625). -/
def conservativeFromCharacteristic (γ : ℝ) :
    {n : ℕ} → Flow n → (Fin n → ℝ) → Except PyErr (Matrix (Fin (n + 2)) (Fin (n + 2)) ℝ)
  | 2, U, d => equation (do let rho ← U.rho; let c ← U.c; let u ← U.u; some (matP γ rho c u d))
  | _, U, _ =>
    if U.rho.isSome ∧ U.c.isSome ∧ U.u.isSome then .error .notImplemented else .error .valueError

/-- `characteristic_from_conservative` (dream/compressible/eos.py:627-661). -/
def characteristicFromConservative (γ : ℝ) :
    {n : ℕ} → Flow n → (Fin n → ℝ) → Except PyErr (Matrix (Fin (n + 2)) (Fin (n + 2)) ℝ)
  | 2, U, d => equation (do let rho ← U.rho; let c ← U.c; let u ← U.u; some (matPinv γ rho c u d))
  | _, U, _ =>
    if U.rho.isSome ∧ U.c.isSome ∧ U.u.isSome then .error .notImplemented else .error .valueError

/-- `primitive_convective_jacobian_x` (dream/compressible/eos.py:548-564). -/
def primitiveConvectiveJacobianX :
    {n : ℕ} → Flow n → Except PyErr (Matrix (Fin (n + 2)) (Fin (n + 2)) ℝ)
  | 2, U => equation (do let u ← U.u; let rho ← U.rho; let c ← U.c; some (matPrimX rho c u))
  | _, U =>
    if U.u.isSome ∧ U.rho.isSome ∧ U.c.isSome then .error .notImplemented else .error .valueError

/-- `primitive_convective_jacobian_y` (dream/compressible/eos.py:566-582). -/
def primitiveConvectiveJacobianY :
    {n : ℕ} → Flow n → Except PyErr (Matrix (Fin (n + 2)) (Fin (n + 2)) ℝ)
  | 2, U => equation (do let u ← U.u; let rho ← U.rho; let c ← U.c; some (matPrimY rho c u))
  | _, U =>
    if U.u.isSome ∧ U.rho.isSome ∧ U.c.isSome then .error .notImplemented else .error .valueError

/-- `conservative_convective_jacobian_x` (dream/compressible/eos.py:663-698). -/
def conservativeConvectiveJacobianX (γ : ℝ) :
    {n : ℕ} → Flow n → Except PyErr (Matrix (Fin (n + 2)) (Fin (n + 2)) ℝ)
  | 2, U => equation (do let u ← U.u; let E ← U.E; some (matA γ E u))
  | _, U => if U.u.isSome ∧ U.E.isSome then .error .notImplemented else .error .valueError

/-- `conservative_convective_jacobian_y` (dream/compressible/eos.py:700-738). -/
def conservativeConvectiveJacobianY (γ : ℝ) :
    {n : ℕ} → Flow n → Except PyErr (Matrix (Fin (n + 2)) (Fin (n + 2)) ℝ)
  | 2, U => equation (do let u ← U.u; let E ← U.E; some (matB γ E u))
  | _, U => if U.u.isSome ∧ U.E.isSome then .error .notImplemented else .error .valueError

/-- `transform_primitive_to_conservative` (dream/compressible/solver.py:308-311). -/
def transformPrimitiveToConservative (γ : ℝ) (A : Matrix (Fin (n + 2)) (Fin (n + 2)) ℝ)
    (U : Flow n) : Except PyErr (Matrix (Fin (n + 2)) (Fin (n + 2)) ℝ) := do
  let M ← conservativeFromPrimitive γ U
  let Minv ← primitiveFromConservative γ U
  .ok (M * A * Minv)

/-- `transform_characteristic_to_primitive` (dream/compressible/solver.py:313-316). -/
def transformCharacteristicToPrimitive (A : Matrix (Fin (n + 2)) (Fin (n + 2)) ℝ) (U : Flow n)
    (nrm : Fin n → ℝ) : Except PyErr (Matrix (Fin (n + 2)) (Fin (n + 2)) ℝ) := do
  let L ← primitiveFromCharacteristic U nrm
  let Linv ← characteristicFromPrimitive U nrm
  .ok (L * A * Linv)

/-- `transform_characteristic_to_conservative` (dream/compressible/solver.py:318-321). -/
def transformCharacteristicToConservative (γ : ℝ) (A : Matrix (Fin (n + 2)) (Fin (n + 2)) ℝ)
    (U : Flow n) (nrm : Fin n → ℝ) : Except PyErr (Matrix (Fin (n + 2)) (Fin (n + 2)) ℝ) := do
  let P ← conservativeFromCharacteristic γ U nrm
  let Pinv ← characteristicFromConservative γ U nrm
  .ok (P * A * Pinv)

/-- `get_primitive_convective_jacobian` (dream/compressible/solver.py:277-280). -/
def primitiveConvectiveJacobian (U : Flow n) (nrm : Fin n → ℝ) (type : Option String) :
    Except PyErr (Matrix (Fin (n + 2)) (Fin (n + 2)) ℝ) := do
  let lam ← characteristicVelocities U nrm type
  transformCharacteristicToPrimitive (Bla.diagonalM lam) U nrm

/-- `get_conservative_convective_jacobian` (dream/compressible/solver.py:286-289). -/
def conservativeConvectiveJacobian (γ : ℝ) (U : Flow n) (nrm : Fin n → ℝ) (type : Option String) :
    Except PyErr (Matrix (Fin (n + 2)) (Fin (n + 2)) ℝ) := do
  let lam ← characteristicVelocities U nrm type
  transformCharacteristicToConservative γ (Bla.diagonalM lam) U nrm

/-- `get_characteristic_identity` (dream/compressible/solver.py:295-306). The characteristic
velocities are evaluated with `type` first, so an unknown type raises there. -/
def characteristicIdentity (U : Flow n) (nrm : Fin n → ℝ) (type : Option String) :
    Except PyErr (Matrix (Fin (n + 2)) (Fin (n + 2)) ℝ) := do
  let lam ← characteristicVelocities U nrm type
  match type with
  | some "incoming" => .ok (Bla.diagonalM fun i => Bla.ifPos (-lam i) 1 0)
  | some "outgoing" => .ok (Bla.diagonalM fun i => Bla.ifPos (lam i) 1 0)
  | _ => .error .valueError

/-- `get_primitive_convective_identity` (dream/compressible/solver.py:282-284). -/
def primitiveConvectiveIdentity (U : Flow n) (nrm : Fin n → ℝ) (type : Option String) :
    Except PyErr (Matrix (Fin (n + 2)) (Fin (n + 2)) ℝ) := do
  let lam ← characteristicIdentity U nrm type
  transformCharacteristicToPrimitive lam U nrm

/-- `get_conservative_convective_identity` (dream/compressible/solver.py:291-293). -/
def conservativeConvectiveIdentity (γ : ℝ) (U : Flow n) (nrm : Fin n → ℝ) (type : Option String) :
    Except PyErr (Matrix (Fin (n + 2)) (Fin (n + 2)) ℝ) := do
  let lam ← characteristicIdentity U nrm type
  transformCharacteristicToConservative γ lam U nrm

/-- `get_convective_flux` (dream/compressible/solver.py:212-228): rows are continuity,
momentum components and energy. -/
def convectiveFlux (γ : ℝ) (U : Flow n) : Except PyErr (Matrix (Fin (n + 2)) (Fin n) ℝ) := do
  let rho ← density γ U
  let rho_u ← momentum U
  let rho_H ← enthalpy U
  let u ← velocity U
  let p ← pressure γ U
  .ok (Matrix.of (Fin.cons rho_u (Fin.snoc
    (fun i => ((1 / rho) • vecMulVec rho_u rho_u + p • (1 : Matrix (Fin n) (Fin n) ℝ)) i)
    (rho_H • u))))

/-- `IdealGas.characteristic_variables` with its `equation` wrapper
(dream/compressible/eos.py:365-388, solver.py:649-652). -/
def characteristicVariables :
    {n : ℕ} → Flow n → Grads n → (Fin n → ℝ) → Except PyErr (Fin (n + 2) → ℝ)
  | 2, U, dU, d => equation (do
      let rho ← U.rho; let c ← U.c
      let gr ← dU.grad_rho; let gp ← dU.grad_p; let gu ← dU.grad_u
      let grad_rho_n := gr ⬝ᵥ d
      let grad_p_n := gp ⬝ᵥ d
      let grad_u_n := gu *ᵥ d
      some ![grad_p_n - (grad_u_n ⬝ᵥ d) * c * rho,
        grad_rho_n * c ^ 2 - grad_p_n,
        grad_u_n 0 * d 1 - grad_u_n 1 * d 0,
        grad_p_n + (grad_u_n ⬝ᵥ d) * c * rho])
  | _, U, dU, _ =>
    if U.rho.isSome ∧ U.c.isSome ∧ dU.grad_rho.isSome ∧ dU.grad_p.isSome ∧ dU.grad_u.isSome
    then .error .notImplemented else .error .valueError

/-- `characteristic_amplitudes` (dream/compressible/eos.py:390-404, solver.py:654-657). The
inner calls are not wrapped by `equation`: without velocity or speed of sound the velocities are
`None`, the variables are still evaluated (and may raise), and `ValueError` follows. -/
def characteristicAmplitudes (U : Flow n) (dU : Grads n) (nrm : Fin n → ℝ) (type : Option String) :
    Except PyErr (Fin (n + 2) → ℝ) :=
  if U.u.isSome ∧ U.c.isSome then do
    let vel ← characteristicVelocities U nrm type
    let var ← characteristicVariables U dU nrm
    .ok fun i => vel i * var i
  else do
    let _ ← characteristicVariables U dU nrm
    .error .valueError

/-- `Upwind.get_convective_stabilisation_matrix` (dream/compressible/riemann_solver.py:25-32). -/
def tauUpwind (γ : ℝ) (U : Flow n) (nrm : Fin n → ℝ) :
    Except PyErr (Matrix (Fin (n + 2)) (Fin (n + 2)) ℝ) :=
  conservativeConvectiveJacobian γ U nrm (some "outgoing")

/-- `LaxFriedrich.get_convective_stabilisation_matrix`
(dream/compressible/riemann_solver.py:40-56). -/
def tauLaxFriedrich (γ : ℝ) (U : Flow n) (nrm : Fin n → ℝ) :
    Except PyErr (Matrix (Fin (n + 2)) (Fin (n + 2)) ℝ) := do
  let u ← velocity U
  let c ← speedOfSound γ U
  .ok ((Bla.abs (u ⬝ᵥ nrm) + c) • (1 : Matrix (Fin (n + 2)) (Fin (n + 2)) ℝ))

/-- `Roe.get_convective_stabilisation_matrix` (dream/compressible/riemann_solver.py:63-76). -/
def tauRoe (γ : ℝ) (U : Flow n) (nrm : Fin n → ℝ) :
    Except PyErr (Matrix (Fin (n + 2)) (Fin (n + 2)) ℝ) := do
  let lam ← characteristicVelocities U nrm (some "absolute")
  transformCharacteristicToConservative γ (Bla.diagonalM lam) U nrm

/-- `HLL.get_convective_stabilisation_matrix` (dream/compressible/riemann_solver.py:83-101). -/
def tauHLL (γ : ℝ) (U : Flow n) (nrm : Fin n → ℝ) :
    Except PyErr (Matrix (Fin (n + 2)) (Fin (n + 2)) ℝ) := do
  let u ← velocity U
  let c ← speedOfSound γ U
  .ok (Bla.max ((u ⬝ᵥ nrm) + c) • (1 : Matrix (Fin (n + 2)) (Fin (n + 2)) ℝ))

/-- `HLLEM.get_convective_stabilisation_matrix`
(dream/compressible/riemann_solver.py:124-151). -/
def tauHLLEM (γ θ₀ : ℝ) (U : Flow n) (nrm : Fin n → ℝ) :
    Except PyErr (Matrix (Fin (n + 2)) (Fin (n + 2)) ℝ) := do
  let u ← velocity U
  let c ← speedOfSound γ U
  let un := u ⬝ᵥ nrm
  let unAbs := Bla.abs un
  let sPlus := Bla.max (un + c)
  let θ := Bla.max (unAbs / (unAbs + c)) θ₀
  let Θ ← transformCharacteristicToConservative γ (Bla.diagonalM (lamVec n 1 θ 1)) U nrm
  .ok (sPlus • Θ)

/-- The Riemann solvers a user can select (dream/compressible/riemann_solver.py). -/
inductive Riemann
  | upwind | laxFriedrich | roe | hll | hllem (θ₀ : ℝ)

/-- `riemann_solver.get_convective_stabilisation_matrix`. -/
def Riemann.tau : Riemann → ℝ → Flow n → (Fin n → ℝ) →
    Except PyErr (Matrix (Fin (n + 2)) (Fin (n + 2)) ℝ)
  | .upwind, γ, U, d => tauUpwind γ U d
  | .laxFriedrich, γ, U, d => tauLaxFriedrich γ U d
  | .roe, γ, U, d => tauRoe γ U d
  | .hll, γ, U, d => tauHLL γ U d
  | .hllem θ₀, γ, U, d => tauHLLEM γ θ₀ U d

/-- `HDG.get_convective_numerical_flux`
(dream/compressible/formulations/conservative.py:731-747). `w` and `wHat` are the conservative
vectors `U.U` and `Uhat.U`, `UHat` the fields of the trace. -/
def convectiveNumericalFlux (γ : ℝ) (rs : Riemann) (w wHat : Fin (n + 2) → ℝ) (UHat : Flow n)
    (nrm : Fin n → ℝ) : Except PyErr (Fin (n + 2) → ℝ) := do
  let τ ← rs.tau γ UHat nrm
  let F ← convectiveFlux γ UHat
  .ok (F *ᵥ nrm + τ *ᵥ (w - wHat))

end Dream
