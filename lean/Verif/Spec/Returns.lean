import Verif.Spec.ShortSteps
import Verif.Spec.Stabilised

/-!
# What energy estimates need of finite element spaces
-/

noncomputable section

namespace Dream
open Matrix

variable {n k : ℕ} {V B : Type} [Fintype V] [Fintype B]

/-- The conditions of a closed domain: nothing flows through the boundary. -/
def FacetCond.Closed : FacetCond n → Prop
  | .wall => True
  | .isothermal _ => True
  | .outflow _ => False

/-- The Riemann solver acts on the sound waves that a wall reflects in the same way in both directions
(all but Upwind do), and at an isothermal wall on all waves. -/
def FacetCond.Dissipates (rs : Riemann) : FacetCond n → Prop
  | .wall => rs ≠ .upwind
  | .isothermal _ => rs = .laxFriedrich ∨ rs = .hll ∨ ∃ θ₀ > 0, rs = .hllem θ₀
  | .outflow _ => False

/-- Partial integration holds for products of element functions; their components may be combined by
matrices; facets are straight; and on the boundary (`mask` zero) the facet functions contain the
traces of the element functions, also if their components are combined by a matrix that depends on the
condition and on the normal. -/
structure HdgSpaces.Rich (P : HdgSpaces n k V B) (M : HdgMesh n V B) (mask : B → ℝ)
    (cond : B → FacetCond n) : Prop where
  parts : ∀ a ∈ P.element, ∀ b ∈ P.element, ∀ i l j,
    ∑ v, M.wV v * (a.2.1 v i * b.1 v l j + b.2.1 v l * a.1 v i j)
      = ∑ x, M.wB x * (a.2.2 x i * b.2.2 x l * M.normal x j)
  combine : ∀ A : Matrix (Fin k) (Fin k) ℝ, ∀ a ∈ P.element,
    ((fun v i j => ∑ l, A i l * a.1 v l j, fun v => A *ᵥ a.2.1 v, fun b => A *ᵥ a.2.2 b) :
      ElementFn n k V B) ∈ P.element
  straight : P.Straight M mask
  traces : ∀ A : FacetCond n → (Fin n → ℝ) → Matrix (Fin k) (Fin k) ℝ, ∀ a ∈ P.element,
    (fun b => (1 - mask b) • A (cond b) (M.normal b) *ᵥ a.2.2 b) ∈ P.facet

end Dream
