import Verif.Model.Forces
import Verif.Spec.Conservation
import Verif.Spec.Gas

/-!
# Momentum of a gas in the plane and what becomes of it

Specification for C114. Of the four conserved quantities the second and third are the components of
the momentum; `Fn - Gn` is the flux through a boundary point, convective minus viscous.
-/

noncomputable section

namespace Dream

variable {V B : Type} [Fintype V] [Fintype B]

/-- The momentum of the gas in the domain, times a direction `e`. -/
def HdgState.momentumAlong (M : HdgMesh 2 V B) (e : Fin 2 → ℝ) (x : HdgState 2 4 V B) : ℝ :=
  (∑ v, M.wV v * x.U v 1) * e 0 + (∑ v, M.wV v * x.U v 2) * e 1

/-- The momentum in direction `e` that passes a point of the boundary per time and length. -/
def HdgState.passing (e : Fin 2 → ℝ) (x : HdgState 2 4 V B) (b : B) : ℝ :=
  (x.Fn b 1 - x.Gn b 1) * e 0 + (x.Fn b 2 - x.Gn b 2) * e 1

/-- The momentum in direction `e` that the gas hands over to the body per time. -/
def HdgState.handedOver (M : HdgMesh 2 V B) (body : Name) (e : Fin 2 → ℝ) (x : HdgState 2 4 V B) : ℝ :=
  ∑ b, if M.onRegion body b then M.wB b * x.passing e b else 0

/-- The momentum in direction `e` that the gas loses elsewhere per time: through the other boundaries with a
condition and in sponge layers. -/
def HdgState.lostElsewhere (M : HdgMesh 2 V B) (mask : B → ℝ) (body : Name) (e : Fin 2 → ℝ)
    (x : HdgState 2 4 V B) : ℝ :=
  (∑ b, if mask b = 0 ∧ M.onRegion body b = false then M.wB b * x.passing e b else 0)
    + ∑ v, M.wV v * (x.source v 1 * e 0 + x.source v 2 * e 1)

end Dream

end
