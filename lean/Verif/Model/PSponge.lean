import Verif.Model.Layers
import Mathlib.Data.Matrix.Mul

/-!
# The formulation of p-sponge layers
-/

namespace Dream
open Matrix

/-- The integrand of `add_psponge_layer_formulation`
(dream/compressible/formulations/conservative.py:705-729) at a point: `f` is the value of the sponge
function, `Ulow` the interpolation of the unknowns in the space of the low order, `Utarget` the vector
of the target state. That the dispatch never gets here is part of `dispatchDomain`. -/
noncomputable def pspongeTerm {ι : Type} [Fintype ι] (s : PSponge) (f : ℝ)
    (U Ulow Utarget V : ι → ℝ) : ℝ :=
  f * ((U - if s.isEqualOrder then Utarget else Ulow) ⬝ᵥ V)

end Dream
