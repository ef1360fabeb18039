import Verif.Spec.Symmetric

/-!
# Symmetric problems with viscosity (for C115)

The strain-heat method: besides element and facet functions the unknowns hold the mixed variables, strain
rates and temperature gradients.
-/

noncomputable section

namespace Dream

open Matrix Filter Topology

variable {V B : Type}

/-- The functions of the space of the mixed variables (dream/compressible/formulations/conservative.py:69-88) as test
functions. -/
def mixedTests (W : Submodule ℝ (ElementFn 2 5 V B)) : Set (MixedTest V B) :=
  {P | ((fun v i j => P.grad v i j, P.val, P.trace) : ElementFn 2 5 V B) ∈ W}

/-- The mixed variables moved with their values: strain rates are turned as tensors, temperature gradients as
vectors. -/
def Motion.mixed (g : Motion V B) (m : ElementFn 2 5 V B) : ElementFn 2 5 V B :=
  (fun v => Spec.rotMixedGrad g.Q (Matrix.of (m.1 (g.onV.symm v))),
    fun v => Spec.rotMixed g.Q (m.2.1 (g.onV.symm v)), fun b => Spec.rotMixed g.Q (m.2.2 (g.onB.symm b)))

/-- The motion and the motion back map the mixed variables of the space to such. -/
structure Motion.KeepsMixed (g : Motion V B) (W : Submodule ℝ (ElementFn 2 5 V B)) : Prop where
  mixed : ∀ m ∈ W, g.mixed m ∈ W
  mixedBack : ∀ m ∈ W, g.inv.mixed m ∈ W

/-- `x` is what the integrals of the equations with viscosity see of the element function `a`, the facet function
`ζ` and the mixed variables `m`. -/
structure HdgState.IsViscousFlow (cfg : FlowCfg) (rs : Riemann) (M : HdgMesh 2 V B) (mask : B → ℝ)
    (cond : B → OuterCond) (σ : V → ℝ) (target : Spec.GasState 2) (x : HdgState 2 4 V B)
    (a : ElementFn 2 4 V B) (ζ : B → Fin 4 → ℝ) (m : ElementFn 2 5 V B) : Prop where
  values : x.U = a.2.1
  stokes : x.IsNavierStokes cfg rs M a.2.2 ζ m.2.1 m.2.2
  inside : ∀ b, mask b = 1 → x.R b = 0
  conditions : ∀ b, mask b = 0 → (cond b).residual cfg.γ (M.normal b) (a.2.2 b) (ζ b) = .ok (x.R b)
  sponge : ∀ v, spongeResidual cfg.γ (σ v) (conservativeDict target) (x.U v) = .ok (x.source v)

/-- `y` is what `blf['mixed']` sees of them (dream/compressible/formulations/conservative.py:97-105): velocity and
temperature of the elements and of the facets, and the mixed variables. -/
structure MixedState.IsFlow (γ : ℝ) (y : MixedState V B) (a : ElementFn 2 4 V B) (ζ : B → Fin 4 → ℝ)
    (m : ElementFn 2 5 V B) : Prop where
  values : y.Q = m.2.1
  element : ∀ v, ∃ U, conservativeFields (n := 2) γ (a.2.1 v) = .ok U ∧ U.u = some (y.u v) ∧ U.T = some (y.T v)
  facet : ∀ b, ∃ U, conservativeFields (n := 2) γ (ζ b) = .ok U ∧ U.u = some (y.uHat b) ∧
    U.T = some (y.THat b)

/-- All unknowns of a problem with viscosity. -/
abbrev ViscousUnknowns (P : HdgSpaces 2 4 V B) (W : Submodule ℝ (ElementFn 2 5 V B)) : Type :=
  (P.element × P.facet) × W

/-- The state is the same after the motion. -/
def Motion.FixesViscous (g : Motion V B) {P : HdgSpaces 2 4 V B} {W : Submodule ℝ (ElementFn 2 5 V B)}
    (x : ViscousUnknowns P W) : Prop :=
  g.Fixes x.1 ∧ g.mixed x.2.1 = x.2.1

end Dream

end
