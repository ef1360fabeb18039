import Verif.Model.Boundary
import Verif.Model.Transient

/-!
# Characteristic boundary conditions over the time steps

`add_cbc_formulation` (dream/compressible/formulations/conservative.py:566-617) with its relaxation
matrix and with the step and levels of the time scheme, in two dimensions, without viscous terms.
-/

namespace Dream
open Matrix

noncomputable section

/-- The two characteristic conditions with their relaxation factors (dream/compressible/config.py:151-160)
and the length of `NSCBC` (dream/compressible/config.py:202-204). -/
inductive CbcKind
  | grcbc (f : Factors)
  | nscbc (f : Factors) (length : ℝ)

/-- `get_relaxation_matrix` as it is called (dream/compressible/formulations/conservative.py:602-604):
with the time step of the timer, the speed of sound of the trace and the Mach number. -/
def CbcKind.rates (k : CbcKind) (dt M c : ℝ) : Except PyErr (List ℝ) :=
  match k with
  | .grcbc f => grcbcDiagonal 2 f (some dt)
  | .nscbc f L => nscbcDiagonal 2 f L (some c) (some M)

/-- `get_time_step(True)` (dream/time.py:178-204). -/
def Scheme.stepOf (s : Scheme) (dt : ℝ) : ℝ :=
  match s with
  | .implicitEuler => ieStep true dt
  | .bdf2 => bdf2Step true dt

/-- `get_current_level('Uhat', True)` (dream/time.py:178-204) from the levels `n` and `n-1`. -/
def Scheme.levelOf (s : Scheme) (un unm1 : ℝ) : ℝ :=
  match s with
  | .implicitEuler => ieLevel true un
  | .bdf2 => bdf2Level true un unm1

/-- `add_cbc_formulation` (dream/compressible/formulations/conservative.py:566-617) without viscous
terms. `w`, `wHat` are the unknowns in the element and on the facet, `wN`, `wNm1` the values of the facet
at the levels `n` and `n-1`. A relaxation matrix of another size than that of the unknowns cannot be
multiplied with them. The speed of sound is the one of the fields of the trace
(dream/compressible/eos.py:234-258). -/
def cbcCondition (γ M : ℝ) (k : CbcKind) (s : Scheme) (target : CbcTarget) (bc U UHat : Flow 2)
    (β dt : ℝ) (nrm tng : Fin 2 → ℝ) (w wHat wN wNm1 gradT : Fin 4 → ℝ) :
    Except PyErr (Fin 4 → ℝ) := do
  let c ← speedOfSound γ UHat
  let l ← k.rates dt M c
  if l.length ≠ 4 then .error .runtime
  cbcResidual γ target bc U UHat (diagonal fun i : Fin 4 => l.getD i 0) β (s.stepOf dt) nrm tng w wHat
    (fun i => s.levelOf (wN i) (wNm1 i)) gradT

end

end Dream
