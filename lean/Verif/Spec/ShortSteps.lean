import Verif.Model.Dimensions
import Verif.Spec.Gas

/-!
# Finite element spaces and conditions for the computation of short steps
-/

noncomputable section

namespace Dream
open Matrix

variable {n k : ℕ} {V B : Type} [Fintype V] [Fintype B]

/-- What the integrals see of an element function: gradients, values and traces. -/
abbrev ElementFn (n k : ℕ) (V B : Type) : Type :=
  (V → Fin k → Fin n → ℝ) × (V → Fin k → ℝ) × (B → Fin k → ℝ)

/-- The linear spaces `U**dim` and `Uhat**dim`
(dream/compressible/formulations/conservative.py:401-418), seen at the quadrature points. -/
structure HdgSpaces (n k : ℕ) (V B : Type) where
  element : Submodule ℝ (ElementFn n k V B)
  facet : Submodule ℝ (B → Fin k → ℝ)

/-- The test functions of the two spaces. -/
def HdgSpaces.tests (P : HdgSpaces n k V B) : Set (HdgTest n k V B) :=
  {φ | ((fun v i j => φ.grad v i j, φ.val, φ.trace) : ElementFn n k V B) ∈ P.element ∧
    φ.hat ∈ P.facet}

/-- Spaces and quadrature rules fit together: the weights are positive; the values at the points
determine an element function; constants belong to both spaces; the divergence theorem holds; and
the points on both sides of an interior facet (where no condition acts, `mask` one) coincide, where
facet functions have one value. -/
structure HdgSpaces.Fits (P : HdgSpaces n k V B) (M : HdgMesh n V B) (mask : B → ℝ) : Prop where
  volume : ∀ v, 0 < M.wV v
  boundary : ∀ b, 0 < M.wB b
  unit : ∀ b, M.normal b ⬝ᵥ M.normal b = 1
  mask01 : ∀ b, mask b = 0 ∨ mask b = 1
  determined : ∀ a ∈ P.element, a.2.1 = 0 → a = 0
  constant : ∀ w : Fin k → ℝ, ((0, fun _ => w, fun _ => w) : ElementFn n k V B) ∈ P.element
  constantHat : ∀ w : Fin k → ℝ, (fun _ => w) ∈ P.facet
  divergence : ∀ a ∈ P.element, ∀ i j,
    ∑ v, M.wV v * a.1 v i j = ∑ b, M.wB b * (a.2.2 b i * M.normal b j)
  partner : ∃ σ : B → B, ∀ b, mask b = 1 → mask (σ b) = 1 ∧ σ (σ b) = b ∧ M.wB (σ b) = M.wB b ∧
    M.normal (σ b) = -M.normal b ∧ ∀ ζ ∈ P.facet, ζ (σ b) = ζ b

/-- The conditions on the boundary that exist in every dimension. -/
inductive FacetCond (n : ℕ)
  | wall
  | isothermal (bc : Flow n)
  | outflow (bc : Flow n)

/-- The residual of the condition (dream/compressible/formulations/conservative.py:548-564,
622-659). -/
def FacetCond.residual (γ : ℝ) (d : Fin n → ℝ) (U : Flow n) (wHat : Fin (n + 2) → ℝ) :
    FacetCond n → Except PyErr (Fin (n + 2) → ℝ)
  | .wall => inviscidWallResidual γ d U wHat
  | .isothermal bc => isothermalWallResidual γ bc U wHat
  | .outflow bc => outflowResidual γ bc U wHat

/-- The condition admits the uniform flow `S`: it flows along the wall, is at rest at an isothermal
wall of its temperature, or leaves at the pressure prescribed. -/
def FacetCond.Admits (S : Spec.GasState n) (d : Fin n → ℝ) : FacetCond n → Prop
  | .wall => S.u ⬝ᵥ d = 0
  | .isothermal bc => S.u = 0 ∧ bc.T = some S.T
  | .outflow bc => bc.p = some S.p

/-- `x` is what the integrals see of the element function `a` and the facet function `ζ`: fluxes,
conditions (where `mask` is zero) and the sources of sponge layers with the profile `σ` and the
target `target` are those of the code. -/
structure HdgState.IsFlow (γ : ℝ) (rs : Riemann) (M : HdgMesh n V B) (mask : B → ℝ)
    (cond : B → FacetCond n) (σ : V → ℝ) (target : Flow n) (x : HdgState n (n + 2) V B)
    (a : ElementFn n (n + 2) V B) (ζ : B → Fin (n + 2) → ℝ) : Prop where
  values : x.U = a.2.1
  euler : x.IsEulerIn γ rs M a.2.2 ζ
  inside : ∀ b, mask b = 1 → x.R b = 0
  conditions : ∀ b, mask b = 0 → ∃ U, conservativeFields γ (a.2.2 b) = .ok U ∧
    (cond b).residual γ (M.normal b) U (ζ b) = .ok (x.R b)
  sponge : ∀ v, spongeResidual γ (σ v) target (x.U v) = .ok (x.source v)

/-- `x` is a discrete flow whose values in the elements and on the facets differ from the vector `w`
by at most `η`. -/
def HdgState.NearFlow (γ : ℝ) (rs : Riemann) (P : HdgSpaces n (n + 2) V B) (M : HdgMesh n V B)
    (mask : B → ℝ) (cond : B → FacetCond n) (σ : V → ℝ) (target : Flow n) (w : Fin (n + 2) → ℝ)
    (η : ℝ) (x : HdgState n (n + 2) V B) : Prop :=
  ∃ a ∈ P.element, ∃ ζ ∈ P.facet, x.IsFlow γ rs M mask cond σ target a ζ ∧
    (∀ v i, |x.U v i - w i| ≤ η) ∧ ∀ b i, |ζ b i - w i| ≤ η

end Dream
