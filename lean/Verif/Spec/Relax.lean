import Verif.Spec.Sound

/-!
# Waves at a boundary

Independent of the model: the four waves into which a small disturbance of a uniform plane flow splits at
a boundary, and their speeds along its normal.
-/

namespace Spec
open Matrix

/-- Speeds along the normal `d` of sound running against it, of hot spots, of eddies and of sound running
along it. -/
noncomputable def waveSpeed (S : GasState 2) (d : Fin 2 → ℝ) : Fin 4 → ℝ :=
  ![S.u ⬝ᵥ d - S.c, S.u ⬝ᵥ d, S.u ⬝ᵥ d, S.u ⬝ᵥ d + S.c]

/-- Amplitudes of these waves in a disturbance. -/
noncomputable def Disturbance.waves (S : GasState 2) (d : Fin 2 → ℝ) (D : Disturbance 2) : Fin 4 → ℝ :=
  ![D.p - S.rho * S.c * (D.u ⬝ᵥ d), S.c ^ 2 * D.rho - D.p, D.u ⬝ᵥ ![d 1, -d 0],
    D.p + S.rho * S.c * (D.u ⬝ᵥ d)]

end Spec
