import Verif.Model.Boundary
import Verif.Spec.Gas

/-!
# States of a gas
-/

namespace Dream

variable {n : ℕ}

/-- The conservative variables `w` are those of an ideal gas: density, temperature, pressure and
speed of sound are positive. -/
def IsGasState (γ : ℝ) (w : Fin (n + 2) → ℝ) : Prop :=
  ∃ S : _root_.Spec.GasState n, _root_.Spec.IdealGas γ S ∧ w = consVec S.rho S.rho_u S.rho_E

end Dream
