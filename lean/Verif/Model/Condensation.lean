import Mathlib.Data.Matrix.Block
import Mathlib.Data.Real.Basic
import Mathlib.LinearAlgebra.Matrix.NonsingularInverse

/-!
# dream/solver.py: the update step with and without static condensation

The unknowns are split into inner ones (`I`, coupled only inside an element) and coupling ones
(`C`). The operators that NGSolve's `BilinearForm(condense=True)` provides are modelled by their
documented block form. All unknowns are free (the boundary conditions are weak,
dream/compressible/config.py:24-26).
-/

noncomputable section

namespace Dream

open Matrix

variable {I C : Type} [Fintype I] [Fintype C] [DecidableEq I] [DecidableEq C]

/-- The linearised form, `A.fromBlocks` in block form. -/
structure Linearised (I C : Type) where
  ii : Matrix I I ℝ
  ic : Matrix I C ℝ
  ci : Matrix C I ℝ
  cc : Matrix C C ℝ

/-- The whole matrix. -/
def Linearised.full (A : Linearised I C) : Matrix (I ⊕ C) (I ⊕ C) ℝ :=
  fromBlocks A.ii A.ic A.ci A.cc

/-- `blf.mat` with `condense=True`: the Schur complement. -/
def Linearised.schur (A : Linearised I C) : Matrix C C ℝ := A.cc - A.ci * A.ii⁻¹ * A.ic

/-- `blf.harmonic_extension_trans`. -/
def Linearised.harmonicExtensionTrans (A : Linearised I C) : Matrix (I ⊕ C) (I ⊕ C) ℝ :=
  fromBlocks 0 0 (-(A.ci * A.ii⁻¹)) 0

/-- `blf.harmonic_extension`. -/
def Linearised.harmonicExtension (A : Linearised I C) : Matrix (I ⊕ C) (I ⊕ C) ℝ :=
  fromBlocks 0 (-(A.ii⁻¹ * A.ic)) 0 0

/-- `blf.inner_solve`. -/
def Linearised.innerSolve (A : Linearised I C) : Matrix (I ⊕ C) (I ⊕ C) ℝ :=
  fromBlocks A.ii⁻¹ 0 0 0

/-- `blf.mat.Inverse(freedofs=fes.FreeDofs(condense))` (dream/solver.py:244): with condensation
the inverse of the Schur complement on the coupling unknowns, else the inverse of the matrix. -/
def Linearised.inv (A : Linearised I C) (condense : Bool) : Matrix (I ⊕ C) (I ⊕ C) ℝ :=
  if condense then fromBlocks 0 0 0 A.schur⁻¹ else A.full⁻¹

/-- `DirectNonlinearSolver.solve_update_step` (dream/solver.py:238-253) after the residual has
been computed: the vectors `temporary` (the increment) and `residual` passed to
`set_iteration_error`. Note that the residual is overwritten in the condensed case. -/
def updateStep (A : Linearised I C) (condense : Bool) (residual : I ⊕ C → ℝ) :
    (I ⊕ C → ℝ) × (I ⊕ C → ℝ) :=
  let inv := A.inv condense
  if condense then
    let residual := residual + A.harmonicExtensionTrans *ᵥ residual
    let temporary := inv *ᵥ residual
    let temporary := temporary + A.harmonicExtension *ᵥ temporary
    let temporary := temporary + A.innerSolve *ᵥ residual
    (temporary, residual)
  else (inv *ᵥ residual, residual)

/-- The error of `set_iteration_error` (dream/solver.py:185-187):
`sqrt(InnerProduct(du, residual)**2)`. -/
def iterationError (p : (I ⊕ C → ℝ) × (I ⊕ C → ℝ)) : ℝ := |p.1 ⬝ᵥ p.2|

end Dream
