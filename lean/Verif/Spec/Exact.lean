import Verif.Model.Hdg
import Verif.Spec.Gas
import Verif.Spec.Euler
import Verif.Spec.NavierStokes

/-!
# Exact solutions of the equations of motion

Fields in the plane, depending on time; partial derivatives in the sense of analysis.
-/

noncomputable section

namespace Spec

open Matrix

/-- `δ` is the divergence of the matrix field `Φ` (row by row) at the point `x`. -/
def IsDivergence (Φ : (Fin 2 → ℝ) → Matrix (Fin 4) (Fin 2) ℝ) (x : Fin 2 → ℝ) (δ : Fin 4 → ℝ) :
    Prop :=
  ∃ D : Matrix (Fin 4) (Fin 2) ℝ,
    (∀ i j, HasDerivAt (fun s : ℝ => Φ (x + s • Pi.single j 1) i j) (D i j) 0) ∧
    ∀ i, δ i = D i 0 + D i 1

/-- Mass, momentum and energy per volume. -/
def conserved (S : GasState 2) : Fin 4 → ℝ := ![S.rho, S.rho_u 0, S.rho_u 1, S.rho_E]

/-- The flux of the Euler equations: column `j` is the flux in the direction of the `j`-th axis. -/
def eulerTensor (γ : ℝ) (S : GasState 2) : Matrix (Fin 4) (Fin 2) ℝ :=
  Matrix.of fun i j => eulerFlux γ (Pi.single j 1) S.rho S.rho_u S.rho_E i

/-- The flux of the Navier-Stokes equations for viscosity `μ`, heat conductivity `κ`, velocity
gradient `G` and temperature gradient `g`. -/
def navierStokesTensor (γ μ κ : ℝ) (S : GasState 2) (G : Matrix (Fin 2) (Fin 2) ℝ)
    (g : Fin 2 → ℝ) : Matrix (Fin 4) (Fin 2) ℝ :=
  Matrix.of fun i j => eulerFlux γ (Pi.single j 1) S.rho S.rho_u S.rho_E i
    - viscousFlux (newtonianStress μ G) κ g S.u (Pi.single j 1) i

/-- `U` solves the conservation law `∂w/∂t + div Φ = 0` at the points of `Ω t`, at every time `t`;
`dw` is the time derivative. -/
def Balance (Ω : ℝ → Set (Fin 2 → ℝ)) (U : ℝ → (Fin 2 → ℝ) → GasState 2)
    (Φ : ℝ → (Fin 2 → ℝ) → Matrix (Fin 4) (Fin 2) ℝ) (dw : ℝ → (Fin 2 → ℝ) → Fin 4 → ℝ) : Prop :=
  ∀ t, ∀ x ∈ Ω t, (∀ i, HasDerivAt (fun s => conserved (U s x) i) (dw t x i) t) ∧
    IsDivergence (Φ t) x (-dw t x)

/-- The flow `U` is a solution of the Euler equations in `Ω`. -/
structure SolvesEuler (γ : ℝ) (Ω : ℝ → Set (Fin 2 → ℝ)) (U : ℝ → (Fin 2 → ℝ) → GasState 2)
    (dw : ℝ → (Fin 2 → ℝ) → Fin 4 → ℝ) : Prop where
  gas : ∀ t, ∀ x ∈ Ω t, IdealGas γ (U t x)
  balance : Balance Ω U (fun t x => eulerTensor γ (U t x)) dw

/-- The flow `U` is a solution of the Navier-Stokes equations in `Ω` for the viscosity `μ` and the
heat conductivity `κ` (functions of the temperature). -/
structure SolvesNavierStokes (γ : ℝ) (μ κ : ℝ → ℝ) (Ω : ℝ → Set (Fin 2 → ℝ))
    (U : ℝ → (Fin 2 → ℝ) → GasState 2) (G : ℝ → (Fin 2 → ℝ) → Matrix (Fin 2) (Fin 2) ℝ)
    (g : ℝ → (Fin 2 → ℝ) → Fin 2 → ℝ) (dw : ℝ → (Fin 2 → ℝ) → Fin 4 → ℝ) : Prop where
  gas : ∀ t, ∀ x ∈ Ω t, IdealGas γ (U t x)
  velocity : ∀ t, ∀ x ∈ Ω t, IsJac (fun y => (U t y).u) x (G t x)
  temperature : ∀ t, ∀ x ∈ Ω t, IsGrad (fun y => (U t y).T) x (g t x)
  balance : Balance Ω U
    (fun t x => navierStokesTensor γ (μ (U t x).T) (κ (U t x).T) (U t x) (G t x) (g t x)) dw

variable {V B : Type} [Fintype V] [Fintype B]

/-- By how much the quadrature violates the divergence theorem for the field `Φ` with divergence
`δ`, tested with `φ`: `∫ Φ n · φ - ∫ Φ : ∇φ - ∫ δ · φ`, and the part of the flux that does not
cancel between neighbouring elements. Zero for exact integration of a continuous field. -/
def quadratureDefect (M : Dream.HdgMesh 2 V B) (mask : B → ℝ) (pos : V → Fin 2 → ℝ)
    (posB : B → Fin 2 → ℝ) (Φ : (Fin 2 → ℝ) → Matrix (Fin 4) (Fin 2) ℝ)
    (δ : (Fin 2 → ℝ) → Fin 4 → ℝ) (φ : Dream.HdgTest 2 4 V B) : ℝ :=
  (∑ b, M.wB b * ∑ i, (∑ j, Φ (posB b) i j * M.normal b j) * φ.trace b i)
    - (∑ v, M.wV v * ∑ i, ∑ j, Φ (pos v) i j * φ.grad v i j)
    - (∑ v, M.wV v * ∑ i, δ (pos v) i * φ.val v i)
    - ∑ b, M.wB b * (mask b * ∑ i, (∑ j, Φ (posB b) i j * M.normal b j) * φ.hat b i)

/-- The quadrature integrates by parts exactly against the scalar field `f` with gradient `g`. -/
def IntegratesByParts (M : Dream.HdgMesh 2 V B) (pos : V → Fin 2 → ℝ) (posB : B → Fin 2 → ℝ)
    (T : Set (Dream.MixedTest V B)) (f : (Fin 2 → ℝ) → ℝ) (g : (Fin 2 → ℝ) → Fin 2 → ℝ) : Prop :=
  ∀ P ∈ T, ∀ i j, ∑ v, M.wV v * (f (pos v) * P.grad v i j + g (pos v) j * P.val v i)
    = ∑ b, M.wB b * (f (posB b) * (P.trace b i * M.normal b j))

/-- Deviatoric strain rate and temperature gradient, as stored by the mixed method. -/
def strainHeat (G : Matrix (Fin 2) (Fin 2) ℝ) (g : Fin 2 → ℝ) : Fin 5 → ℝ :=
  ![G 0 0 - (G 0 0 + G 1 1) / 3, (G 0 1 + G 1 0) / 2, G 1 1 - (G 0 0 + G 1 1) / 3, g 0, g 1]

end Spec
