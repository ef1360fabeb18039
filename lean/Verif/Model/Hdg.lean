import Verif.Model.Conditions
import Verif.Model.Transient
import Verif.Model.Boundary
import Verif.Model.Mixed
import Verif.Model.Characteristic
import Mathlib.Data.Matrix.Mul
import Mathlib.Algebra.BigOperators.Group.Finset.Basic
import Mathlib.Data.Real.Basic

/-!
# dream/compressible/formulations/conservative.py: the integrals of the HDG method

Integrals are sums over quadrature points with weights. `V` are the quadrature points of the
elements; `B` the quadrature points of the element boundaries (`element_boundary=True`): a point
of an interior facet occurs once for each of the two elements. `k` is the number of equations
(`dim + 2`), `n` the space dimension.
-/

noncomputable section

namespace Dream

open Matrix

/-- Quadrature points, weights, outer normals, and the name of the boundary region to which the
facet of a point belongs (`none` in the interior). NGSolve's meshes and integration rules enter
only through these data. -/
structure HdgMesh (n : ℕ) (V B : Type) where
  wV : V → ℝ
  wB : B → ℝ
  normal : B → Fin n → ℝ
  region : B → Option Name

variable {n k : ℕ} {V B : Type} [Fintype V] [Fintype B]

/-- `get_domain_boundary_mask` (dream/compressible/formulations/conservative.py:774-786): 0 on the
facets of `get_domain_boundaries`, 1 on all others. -/
def HdgMesh.mask (M : HdgMesh n V B) (bcs : Conditions) (b : B) : ℝ :=
  match M.region b with
  | none => 1
  | some r => if r ∈ bcs.getDomainBoundaries then 0 else 1

/-- A test function: values and gradients in the elements, traces, and the values of the facet
test function. -/
structure HdgTest (n k : ℕ) (V B : Type) where
  grad : V → Matrix (Fin k) (Fin n) ℝ
  val : V → Fin k → ℝ
  trace : B → Fin k → ℝ
  hat : B → Fin k → ℝ

/-- `bla.inner` of two matrices, the sum of the products of the entries. -/
def frobenius (A C : Matrix (Fin k) (Fin n) ℝ) : ℝ := ∑ i, ∑ j, A i j * C i j

/-- `blf['convection']` (dream/compressible/formulations/conservative.py:437-439); `F` is the
convective flux of the state in the elements, `Fn` the numerical flux. -/
def convectionForm (M : HdgMesh n V B) (mask : B → ℝ) (F : V → Matrix (Fin k) (Fin n) ℝ)
    (Fn : B → Fin k → ℝ) (φ : HdgTest n k V B) : ℝ :=
  (∑ v, M.wV v * -frobenius (F v) (φ.grad v)) + (∑ b, M.wB b * (Fn b ⬝ᵥ φ.trace b))
    + (∑ b, M.wB b * (-mask b * (Fn b ⬝ᵥ φ.hat b)))

/-- `blf['diffusion']` (dream/compressible/formulations/conservative.py:460-462). -/
def diffusionForm (M : HdgMesh n V B) (mask : B → ℝ) (G : V → Matrix (Fin k) (Fin n) ℝ)
    (Gn : B → Fin k → ℝ) (φ : HdgTest n k V B) : ℝ :=
  (∑ v, M.wV v * frobenius (G v) (φ.grad v)) - (∑ b, M.wB b * (Gn b ⬝ᵥ φ.trace b))
    + (∑ b, M.wB b * (mask b * (Gn b ⬝ᵥ φ.hat b)))

/-- `blf['time']` (dream/time.py:144-153) for the difference quotient `dU`. -/
def timeForm (M : HdgMesh n V B) (dU : V → Fin k → ℝ) (φ : HdgTest n k V B) : ℝ :=
  ∑ v, M.wV v * (dU v ⬝ᵥ φ.val v)

/-- The terms of the boundary conditions (dream/compressible/formulations/conservative.py:546,
564, 641, 659): `⟨R, Vhat⟩` over the boundary facets, where `R` is the residual of the condition
of that facet (0 where there is none). `ds(skeleton=True, definedon=…)` visits every boundary
facet once, as do the points of `B` on boundary facets. -/
def boundaryForm (M : HdgMesh n V B) (R : B → Fin k → ℝ) (φ : HdgTest n k V B) : ℝ :=
  ∑ b, M.wB b * (R b ⬝ᵥ φ.hat b)

/-- What the integrals see of a state: its values in the elements, the fluxes, the residuals of
the boundary conditions and the source terms of the sponge layers. How the fluxes depend on the
unknowns (dream/compressible/formulations/conservative.py:392-462) is left open here. -/
structure HdgState (n k : ℕ) (V B : Type) where
  U : V → Fin k → ℝ
  F : V → Matrix (Fin k) (Fin n) ℝ
  G : V → Matrix (Fin k) (Fin n) ℝ
  Fn : B → Fin k → ℝ
  Gn : B → Fin k → ℝ
  R : B → Fin k → ℝ
  source : V → Fin k → ℝ

/-- The discrete equations of one time step (the form `self.blf` of dream/solver.py:400-409, zero
for every test function; the sponge source is dream/compressible/formulations/conservative.py:
694-697), for all test functions of the space `T`. -/
def hdgStep (M : HdgMesh n V B) (mask : B → ℝ) (T : Set (HdgTest n k V B))
    (q : ℝ → ℝ → ℝ → ℝ) (_t : ℚ) (x cur prev : HdgState n k V B) : Prop :=
  ∀ φ ∈ T, timeForm M (fun v i => q (x.U v i) (cur.U v i) (prev.U v i)) φ
    + convectionForm M mask x.F x.Fn φ + diffusionForm M mask x.G x.Gn φ
    + boundaryForm M x.R φ + timeForm M x.source φ = 0

/-- The whole discretisation as a problem for the solution routines (dream/solver.py:377-409):
unknowns `X` (all degrees of freedom), of which `st t x` is what the integrals see; residuals are
tested with the functions of `T`; the variable differentiated in time is the conservative state
in the elements. -/
def hdgProblem {X : Type} (M : HdgMesh n V B) (mask : B → ℝ) (T : Set (HdgTest n k V B))
    (st : ℚ → X → HdgState n k V B) (U : X → V → Fin k → ℝ) : Problem (V × Fin k) X (T → ℝ) where
  spatial := fun t x φ => convectionForm M mask (st t x).F (st t x).Fn φ.1
    + diffusionForm M mask (st t x).G (st t x).Gn φ.1
    + boundaryForm M (st t x).R φ.1 + timeForm M (st t x).source φ.1
  mass := fun d φ => timeForm M (fun v i => d (v, i)) φ.1
  comp := fun x p => U x p.1 p.2

/-- The fluxes of `add_convection_form` (dream/compressible/formulations/conservative.py:428-435)
in two dimensions without viscosity: `tr` are the traces of the element values, `hat` the facet
values. -/
structure HdgState.IsEuler (γ : ℝ) (rs : Riemann) (M : HdgMesh 2 V B) (x : HdgState 2 4 V B)
    (tr hat : B → Fin 4 → ℝ) : Prop where
  flux : ∀ v, ∃ U, getConservativeFields γ (x.U v 0) ![x.U v 1, x.U v 2] (x.U v 3) = .ok U ∧
    convectiveFlux γ U = .ok (x.F v)
  numerical : ∀ b, ∃ UHat,
    getConservativeFields γ (hat b 0) ![hat b 1, hat b 2] (hat b 3) = .ok UHat ∧
    convectiveNumericalFlux γ rs (tr b) (hat b) UHat (M.normal b) = .ok (x.Fn b)
  inviscid : x.G = 0 ∧ x.Gn = 0

/-- A test function of the mixed space (two dimensions, strain and heat): values and gradients in
the elements, traces on the element boundaries. -/
structure MixedTest (V B : Type) where
  val : V → Fin 5 → ℝ
  grad : V → Matrix (Fin 5) (Fin 2) ℝ
  trace : B → Fin 5 → ℝ

/-- `blf['mixed']` of `StrainHeat.add_mixed_form`
(dream/compressible/formulations/conservative.py:97-122): `u`, `T` are velocity and temperature in
the elements, `uHat`, `THat` those of the facet values. -/
def mixedForm (M : HdgMesh 2 V B) (Q : V → Fin 5 → ℝ) (u : V → Fin 2 → ℝ) (T : V → ℝ)
    (uHat : B → Fin 2 → ℝ) (THat : B → ℝ) (P : MixedTest V B) : ℝ :=
  (∑ v, M.wV v * (mixedStrainVolume (Q v) (P.val v) (P.grad v) (u v)
      + mixedHeatVolume (Q v) (P.val v) (P.grad v) (T v)))
    - ∑ b, M.wB b * (mixedStrainFacet (P.trace b) (uHat b) (M.normal b)
      + mixedHeatFacet (P.trace b) (THat b) (M.normal b))

/-- What the mixed form sees of the unknowns: mixed variables, velocity and temperature in the
elements, and those of the facet values. -/
structure MixedState (V B : Type) where
  Q : V → Fin 5 → ℝ
  u : V → Fin 2 → ℝ
  T : V → ℝ
  uHat : B → Fin 2 → ℝ
  THat : B → ℝ

/-- The discretisation with the strain-heat method as a problem for the solution routines: the
equations of `hdgProblem` together with `blf['mixed']`, which has no time derivative. -/
def hdgMixedProblem {X : Type} (M : HdgMesh 2 V B) (mask : B → ℝ) (T : Set (HdgTest 2 4 V B))
    (T' : Set (MixedTest V B)) (st : ℚ → X → HdgState 2 4 V B) (ms : X → MixedState V B)
    (U : X → V → Fin 4 → ℝ) : Problem (V × Fin 4) X ((T → ℝ) × (T' → ℝ)) where
  spatial := fun t x => ((hdgProblem M mask T st U).spatial t x,
    fun P => mixedForm M (ms x).Q (ms x).u (ms x).T (ms x).uHat (ms x).THat P.1)
  mass := fun d => ((hdgProblem M mask T st U).mass d, 0)
  comp := (hdgProblem M mask T st U).comp

/-- The fluxes of `add_convection_form` and `add_diffusion_form`
(dream/compressible/formulations/conservative.py:428-462) in two dimensions with the strain-heat
method: `Q` are the mixed variables in the elements, `Qtr` their traces. -/
structure HdgState.IsNavierStokes (cfg : FlowCfg) (rs : Riemann) (M : HdgMesh 2 V B)
    (x : HdgState 2 4 V B) (tr hat : B → Fin 4 → ℝ) (Q : V → Fin 5 → ℝ) (Qtr : B → Fin 5 → ℝ) :
    Prop where
  flux : ∀ v, ∃ U, getConservativeFields cfg.γ (x.U v 0) ![x.U v 1, x.U v 2] (x.U v 3) = .ok U ∧
    convectiveFlux cfg.γ U = .ok (x.F v) ∧
    diffusiveFlux cfg U (strainHeatFields (Q v)) = .ok (x.G v)
  numerical : ∀ b, ∃ UHat,
    getConservativeFields cfg.γ (hat b 0) ![hat b 1, hat b 2] (hat b 3) = .ok UHat ∧
    convectiveNumericalFlux cfg.γ rs (tr b) (hat b) UHat (M.normal b) = .ok (x.Fn b) ∧
    diffusiveNumericalFlux cfg (tr b) (hat b) UHat (strainHeatFields (Qtr b)) (M.normal b)
      = .ok (x.Gn b)

/-- `add_cbc_formulation` with viscous terms
(dream/compressible/formulations/conservative.py:602-620): `gU`, `gQ` are the gradients of the
conservative and mixed variables in the element. -/
def cbcResidualViscous (cfg : FlowCfg) (target : CbcTarget) (bc U UHatFields : Flow 2)
    (Q : Fin 5 → ℝ) (D : Matrix (Fin 4) (Fin 4) ℝ) (β dt : ℝ) (nrm tng : Fin 2 → ℝ)
    (w wHat wHatN gradT : Fin 4 → ℝ) (gU : Matrix (Fin 4) (Fin 2) ℝ)
    (gQ : Matrix (Fin 5) (Fin 2) ℝ) : Except PyErr (Fin 4 → ℝ) := do
  let R ← cbcResidual cfg.γ target bc U UHatFields D β dt nrm tng w wHat wHatN gradT
  let Qin ← conservativeConvectiveIdentity cfg.γ UHatFields nrm (some "incoming")
  let v ← cbcViscousTerms cfg target U (strainHeatFields Q) gU gQ nrm tng
  .ok (R - dt • (Qin *ᵥ v))

end Dream
