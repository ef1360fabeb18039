import Verif.Spec.Rotation
import Verif.Spec.NewtonFlow
import Verif.Props.Freestream
import Verif.Props.Transient
import Verif.Model.Forces

/-!
# Symmetric problems (for C115)
-/

noncomputable section

namespace Dream

open Matrix Filter Topology

variable {V B : Type}

/-- A motion of the plane, a rotation or a reflection with the matrix `Q`, that takes the points of the mesh
to points of the mesh. -/
structure Motion (V B : Type) where
  Q : Matrix (Fin 2) (Fin 2) ℝ
  onV : V ≃ V
  onB : B ≃ B

namespace Motion

variable (g : Motion V B)

/-- The motion back. -/
def inv : Motion V B := ⟨g.Qᵀ, g.onV.symm, g.onB.symm⟩

/-- The element function moved with its values: scalars are carried along, vectors also turned. -/
def element (a : ElementFn 2 4 V B) : ElementFn 2 4 V B :=
  (fun v => Spec.rotFlux g.Q (Matrix.of (a.1 (g.onV.symm v))),
    fun v => Spec.rotVec g.Q (a.2.1 (g.onV.symm v)), fun b => Spec.rotVec g.Q (a.2.2 (g.onB.symm b)))

/-- The facet function moved. -/
def facet (ζ : B → Fin 4 → ℝ) : B → Fin 4 → ℝ := fun b => Spec.rotVec g.Q (ζ (g.onB.symm b))

/-- The motion maps the mesh to itself, and the boundary facets (`mask` zero) to boundary facets. -/
structure Keeps (M : HdgMesh 2 V B) (mask : B → ℝ) : Prop where
  orthogonal : Spec.Orthogonal g.Q
  volume : ∀ v, M.wV (g.onV v) = M.wV v
  boundary : ∀ b, M.wB (g.onB b) = M.wB b
  normal : ∀ b, M.normal (g.onB b) = g.Q *ᵥ M.normal b
  mask : ∀ b, mask (g.onB b) = mask b

/-- The motion and the motion back map the functions of the spaces to functions of the spaces. -/
structure KeepsSpaces (P : HdgSpaces 2 4 V B) : Prop where
  element : ∀ a ∈ P.element, g.element a ∈ P.element
  facet : ∀ ζ ∈ P.facet, g.facet ζ ∈ P.facet
  elementBack : ∀ a ∈ P.element, g.inv.element a ∈ P.element
  facetBack : ∀ ζ ∈ P.facet, g.inv.facet ζ ∈ P.facet

end Motion

/-- The conditions of `FacetCond` and the farfield with one of its two options. -/
inductive OuterCond
  | plain (c : FacetCond 2)
  | farfield (identity : Bool) (S : Spec.GasState 2)

/-- Its residual (dream/compressible/formulations/conservative.py:523-564, 622-659) for the element value `w` and
the facet value `wHat`. -/
def OuterCond.residual (γ : ℝ) (d : Fin 2 → ℝ) (w wHat : Fin 4 → ℝ) : OuterCond →
    Except PyErr (Fin 4 → ℝ)
  | .plain c => do c.residual γ d (← conservativeFields (n := 2) γ w) wHat
  | .farfield identity S => do
    farfieldResidual γ identity (conservativeDict S) d w wHat (← conservativeFields (n := 2) γ wHat)

/-- The same condition after turning the plane: the velocity of the farfield is turned. -/
def OuterCond.turned (Q : Matrix (Fin 2) (Fin 2) ℝ) : OuterCond → OuterCond
  | .plain c => .plain c
  | .farfield identity S => .farfield identity (S.rotate Q)

/-- The user has given the temperature of the isothermal wall and the pressure of the outflow. -/
def OuterCond.Given : OuterCond → Prop
  | .plain .wall => True
  | .plain (.isothermal bc) => ∃ T, bc.T = some T
  | .plain (.outflow bc) => ∃ p, bc.p = some p
  | .farfield _ _ => True

/-- `x` is what the integrals of the equations without viscosity see of the element function `a` and the
facet function `ζ` (as `HdgState.IsFlow`, with farfields). -/
structure HdgState.IsOuterFlow (γ : ℝ) (rs : Riemann) (M : HdgMesh 2 V B) (mask : B → ℝ)
    (cond : B → OuterCond) (σ : V → ℝ) (target : Spec.GasState 2) (x : HdgState 2 4 V B)
    (a : ElementFn 2 4 V B) (ζ : B → Fin 4 → ℝ) : Prop where
  values : x.U = a.2.1
  euler : x.IsEuler γ rs M a.2.2 ζ
  inside : ∀ b, mask b = 1 → x.R b = 0
  conditions : ∀ b, mask b = 0 → (cond b).residual γ (M.normal b) (a.2.2 b) (ζ b) = .ok (x.R b)
  sponge : ∀ v, spongeResidual γ (σ v) (conservativeDict target) (x.U v) = .ok (x.source v)

/-- Conditions and sponge layers are the same after the motion. -/
structure Motion.KeepsConditions (g : Motion V B) (mask : B → ℝ) (cond : B → OuterCond) (σ : V → ℝ)
    (target : Spec.GasState 2) : Prop where
  mask01 : ∀ b, mask b = 0 ∨ mask b = 1
  given : ∀ b, mask b = 0 → (cond b).Given
  cond : ∀ b, mask b = 0 → cond (g.onB b) = (cond b).turned g.Q
  profile : ∀ v, σ (g.onV v) = σ v
  target : target.rotate g.Q = target

/-- All values are those of a gas. -/
def AreGas (γ : ℝ) {P : HdgSpaces 2 4 V B} (x : P.element × P.facet) : Prop :=
  (∀ v, IsGas (n := 2) γ (x.1.1.2.1 v)) ∧ (∀ b, IsGas (n := 2) γ (x.1.1.2.2 b)) ∧
    ∀ b, IsGas (n := 2) γ (x.2.1 b)

/-- The state is the same after the motion. -/
def Motion.Fixes (g : Motion V B) {P : HdgSpaces 2 4 V B} (x : P.element × P.facet) : Prop :=
  g.element x.1.1 = x.1.1 ∧ g.facet x.2.1 = x.2.1

/-- A rule to differentiate functions at zero that looks at the function near zero only. The derivative
is one; one-sided derivatives, for the corners of the absolute values in the fluxes, are others. -/
def LocalRule (D : (ℝ → ℝ) → ℝ → Prop) : Prop :=
  ∀ f h d, f =ᶠ[𝓝 0] h → D f d → D h d

/-- `δ` solves the linearisation at `x` of the equations `F = 0`: in each equation the derivative in the
direction `δ` is the residual. -/
def SolvesByRule {X Y κ : Type} [AddCommGroup X] [Module ℝ X] (D : (ℝ → ℝ) → ℝ → Prop) (ev : κ → Y → ℝ)
    (F : X → Y) (x δ : X) : Prop :=
  ∀ j, D (fun r : ℝ => ev j (F (x + r • δ))) (ev j (F x))

/-- Whenever an increment is used at all (the error is not NaN), it was computed at a state with the property
`good` and is the only solution of the linearised equations there. Nothing is said about damping, iteration
limits, convergence or the error reported. -/
def Newton.SolvesOnly {ι X Y κ : Type} [AddCommGroup X] [Module ℝ X] [AddCommGroup Y] (N : Newton X Y)
    (P : Problem ι X Y) (s : Scheme) (ev : κ → Y → ℝ) (D : (ℝ → ℝ) → ℝ → Prop) (good : X → Prop) : Prop :=
  ∀ (dt : ℝ) (t : ℚ) (cur prev : X) (it : ℕ) (x δ : X) (e : ℝ),
    N.lin (P.stepEquation (s.quotient dt) t cur prev) it x = (δ, some e) →
    good x ∧ SolvesByRule D ev (P.stepEquation (s.quotient dt) t cur prev) x δ ∧
      ∀ δ', SolvesByRule D ev (P.stepEquation (s.quotient dt) t cur prev) x δ' → δ' = δ

end Dream

end
