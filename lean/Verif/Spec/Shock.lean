import Verif.Model.Triangulation
import Verif.Spec.Gas

/-! # Standing shocks -/

noncomputable section

namespace Spec

open Matrix Dream

/-- A shock at rest in the plane with unit normal `d`: the gas `A` ahead of it comes faster than
sound, `P` lies behind it, and as much mass, momentum and energy leave as arrive (the conditions
of Rankine and Hugoniot). The flow may be oblique to the shock. -/
structure StandingShock (γ : ℝ) (d : Fin 2 → ℝ) (A P : GasState 2) : Prop where
  ahead : IdealGas γ A
  behind : IdealGas γ P
  supersonic : A.c < A.u ⬝ᵥ d
  mass : A.rho * (A.u ⬝ᵥ d) = P.rho * (P.u ⬝ᵥ d)
  momentum : ∀ i, A.rho * (A.u ⬝ᵥ d) * A.u i + A.p * d i
    = P.rho * (P.u ⬝ᵥ d) * P.u i + P.p * d i
  energy : A.rho * (A.u ⬝ᵥ d) * A.H = P.rho * (P.u ⬝ᵥ d) * P.H

/-- A flow with shocks on a triangulation: in every triangle the gas `G e` is uniform; two
neighbouring triangles have the same gas or their common side is a shock. On a side the gas
`hat x` is that of the triangle from which the gas comes. -/
structure ShockFlow {E : Type} (γ : ℝ) (K : Triangulation E) (G : E → GasState 2)
    (hat : E × Fin 3 → GasState 2) : Prop where
  gas : ∀ e, IdealGas γ (G e)
  boundary : ∀ x, K.across x = none → hat x = G x.1
  interior : ∀ x y, K.across x = some y →
    G x.1 = G y.1 ∧ hat x = G x.1 ∨
    StandingShock γ (K.normal x) (G x.1) (G y.1) ∧ hat x = G x.1 ∨
    StandingShock γ (K.normal y) (G y.1) (G x.1) ∧ hat x = G y.1

end Spec
