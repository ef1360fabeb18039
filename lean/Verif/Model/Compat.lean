import Verif.Model.Conditions
import Verif.Model.Boundary

/-!
# dream/solver.py: checks made by `initialize`
-/

namespace Dream

/-- `SolverConfiguration.set_boundary_conditions` (dream/solver.py:415-419); the finite
element method of compressible flows does nothing there (dream/compressible/config.py:24-26). -/
def setBoundaryConditions (meshPeriodic : Bool) (bcs : Conditions) : Except PyErr Unit :=
  if meshPeriodic && !bcs.hasCondition .periodic then .error .valueError else .ok ()

/-- The checks of `SolverConfiguration.initialize` in order (dream/solver.py:358-363, 371-372;
conservative.py:828-830): the mixed method is checked when the finite element spaces are added,
the periodic boundaries afterwards. The construction of the spaces themselves
(NGSolve) is not modelled. -/
def initializeChecks (m : MixedMethod) (cfg : FlowCfg) (meshPeriodic : Bool) (bcs : Conditions) :
    Except PyErr Unit := do
  mixedMethodCheck m cfg
  setBoundaryConditions meshPeriodic bcs

/-- The number of components of the mixed variable of the strain-heat method
(conservative.py:82). -/
def strainHeatDim (dim : ℕ) : ℤ := 4 * dim - 3

end Dream
