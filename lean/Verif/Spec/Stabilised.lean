import Verif.Model.Characteristic
import Verif.Spec.ShortSteps

/-!
# When a Riemann solver acts on all waves
-/

noncomputable section

namespace Dream
open Matrix

variable {n k : ℕ} {V B : Type} [Fintype V] [Fintype B]

/-- The Riemann solver acts on all waves that cross a facet, if the gas moves across it with the
velocity `un` and has the speed of sound `c`: Lax-Friedrichs and HLL always do; HLLEM does not act on
the waves that move with the gas, if these do not cross the facet and the threshold `θ₀` is zero; Roe
and Upwind act only on waves that do cross the facet. -/
def Riemann.Damps (un c : ℝ) : Riemann → Prop
  | .laxFriedrich => True
  | .hll => True
  | .hllem θ₀ => un ≠ 0 ∨ 0 < θ₀
  | .roe => un ≠ 0 ∧ |un| ≠ c
  | .upwind => un ≠ 0 ∧ |un| ≠ c

/-- The solver does not act on waves that move with the gas, where the gas moves along the facet: Roe,
Upwind, and HLLEM without threshold. -/
def Riemann.Keeps (rs : Riemann) : Prop := rs = .roe ∨ rs = .upwind ∨ ∃ θ₀ ≤ 0, rs = .hllem θ₀

/-- The facets are straight and the facet functions of different facets are independent: if the
components of a facet function are combined by matrices, which may differ from facet to facet and
depend on the line in which the normal lies, the result is a facet function. -/
def HdgSpaces.Straight (P : HdgSpaces n k V B) (M : HdgMesh n V B) (mask : B → ℝ) : Prop :=
  ∀ A : (Fin n → ℝ) → ℝ → Matrix (Fin k) (Fin k) ℝ, (∀ d m, A (-d) m = A d m) →
    ∀ ζ ∈ P.facet, (fun b => A (M.normal b) (mask b) *ᵥ ζ b) ∈ P.facet

end Dream
