import Verif.Model.Forms
import Verif.Model.Hdg

/-!
# dream/compressible: the discrete equations in any space dimension
-/

noncomputable section

namespace Dream

open Matrix

variable {n : ℕ} {V B : Type}

/-- `get_conservative_fields` (dream/compressible/formulations/conservative.py:341-361) of the
vector of all conservative variables: `U[0]`, `U[slice(1, mesh.dim + 1)]`, `U[mesh.dim + 1]`. -/
def conservativeFields (γ : ℝ) (w : Fin (n + 2) → ℝ) : Except PyErr (Flow n) :=
  getConservativeFields γ (w 0) (fun i => w i.castSucc.succ) (w (Fin.last (n + 1)))

/-- The fluxes of `add_convection_form` (dream/compressible/formulations/conservative.py:428-435)
without viscosity: `tr` are the traces of the element values, `hat` the facet values. -/
structure HdgState.IsEulerIn (γ : ℝ) (rs : Riemann) (M : HdgMesh n V B)
    (x : HdgState n (n + 2) V B) (tr hat : B → Fin (n + 2) → ℝ) : Prop where
  flux : ∀ v, ∃ U, conservativeFields γ (x.U v) = .ok U ∧ convectiveFlux γ U = .ok (x.F v)
  numerical : ∀ b, ∃ UHat, conservativeFields γ (hat b) = .ok UHat ∧
    convectiveNumericalFlux γ rs (tr b) (hat b) UHat (M.normal b) = .ok (x.Fn b)
  inviscid : x.G = 0 ∧ x.Gn = 0

/-- What the user configured for the terms of the equations: heat capacity ratio, Riemann solver,
mixed method, and for each condition its fields, the option `identity_jacobian` of a farfield and
target, relaxation matrix and tangential relaxation of a characteristic condition. -/
structure Setup (n : ℕ) where
  flow : FlowCfg
  rs : Riemann
  mixed : MixedMethod
  fields : Cond → Flow n
  identityJacobian : Cond → Bool
  target : Cond → CbcTarget
  relaxation : Cond → Matrix (Fin (n + 2)) (Fin (n + 2)) ℝ
  tangential : Cond → ℝ

/-- The mixed variables as fields for the viscous flux: the strain-heat method
(dream/compressible/formulations/conservative.py:160-171) provides strain rate and temperature
gradient, the gradient method (305-318) the gradients of the conservative variables; the inactive
method has none (55-56). `g` are arbitrary values. -/
def Setup.mixedFields (s : Setup n) (g : Matrix (Fin n) (Fin n) ℝ × (Fin n → ℝ) × (Fin n → ℝ)) :
    Grads n :=
  match s.mixed with
  | .strainHeat => { eps := some g.1, grad_T := some g.2.1 }
  | .gradient => gradientFields g.2.1 g.1 g.2.2
  | .inactive => {}

/-- Writing down the expressions of one term of the equations
(dream/compressible/formulations/conservative.py:420-462, 520-703), at a point with conservative
variables `w`, normal `d` and mixed variables `g`: the value is whether an exception is raised,
which in the code is independent of the point because the expressions are symbolic. The terms of
the mixed methods, of the p-sponge layers and of the time derivative contain nothing that depends
on the dimension beyond the check in `FormCfg.addMixedForm`. Viscous terms of characteristic
conditions are left out. -/
def Setup.build (s : Setup n) (w : Fin (n + 2) → ℝ) (d : Fin n → ℝ)
    (g : Matrix (Fin n) (Fin n) ℝ × (Fin n → ℝ) × (Fin n → ℝ)) : FormTerm → Except PyErr Unit
  | .convection => do
    let U ← conservativeFields s.flow.γ w
    let _ ← convectiveFlux s.flow.γ U
    let _ ← convectiveNumericalFlux s.flow.γ s.rs w w U d
    .ok ()
  | .diffusion => do
    let U ← conservativeFields s.flow.γ w
    let _ ← diffusiveFlux s.flow U (s.mixedFields g)
    let _ ← diffusiveNumericalFlux s.flow w w U (s.mixedFields g) d
    .ok ()
  | .condition .farfield _ c => do
    let U ← conservativeFields s.flow.γ w
    let _ ← farfieldResidual s.flow.γ (s.identityJacobian c) (s.fields c) d w w U
    .ok ()
  | .condition .cbc _ c => do
    let U ← conservativeFields s.flow.γ w
    let _ ← cbcResidual s.flow.γ (s.target c) (s.fields c) U U (s.relaxation c) (s.tangential c) 1
      d d w w w 0
    .ok ()
  | .condition .outflow _ c => do
    let U ← conservativeFields s.flow.γ w
    let _ ← outflowResidual s.flow.γ (s.fields c) U w
    .ok ()
  | .condition .inviscidWall _ _ => do
    let U ← conservativeFields s.flow.γ w
    let _ ← inviscidWallResidual s.flow.γ d U w
    .ok ()
  | .condition .isothermalWall _ c => do
    let U ← conservativeFields s.flow.γ w
    let _ ← isothermalWallResidual s.flow.γ (s.fields c) U w
    .ok ()
  | .condition .adiabaticWall _ _ => do
    let _ ← adiabaticWall n s.mixed
    .ok ()
  | .condition .sponge _ c => do
    let _ ← spongeResidual s.flow.γ 1 (s.fields c) w
    .ok ()
  | .condition .psponge _ _ | .mixed | .time => .ok ()

open Classical in
/-- The settings of a computation in `n` dimensions that decide which terms there are. -/
def Setup.forms (s : Setup n) (stationary : Bool) (w : Fin (n + 2) → ℝ) (d : Fin n → ℝ)
    (g : Matrix (Fin n) (Fin n) ℝ × (Fin n → ℝ) × (Fin n → ℝ)) : FormCfg where
  dim := n
  inviscid := decide s.flow.isInviscid
  mixed := s.mixed
  stationary := stationary
  nameOf := fun c => c.cls.label
  build := s.build w d g

end Dream
