import Verif.Model.Time
import Verif.Model.Nonlinear
import Mathlib.Algebra.Module.LinearMap.Defs

/-!
# dream/time.py: the solution routines as a whole

The parts modelled in `Model/Time.lean` (timer, levels, difference quotients) and
`Model/Nonlinear.lean` (Newton iteration) put together: what is computed between two yields.
The io calls of the routines are modelled in `Model/Output.lean`.

`X` is the space of all unknowns (`cfg.gfu.vec`), `Y` the space of residual vectors,
`ι → ℝ` the values of one variable (its coefficients).
-/

noncomputable section

namespace Dream

/-- The two schemes (dream/time.py:169-204). -/
inductive Scheme
  | implicitEuler
  | bdf2
  deriving DecidableEq

/-- `time_levels` (dream/time.py:173, 190). -/
def Scheme.levelNames : Scheme → List String
  | .implicitEuler => implicitEulerLevels
  | .bdf2 => bdf2Levels

variable {ι X Y : Type}

/-- `gfus[key]`. -/
def Levels.getE {V : Type} (l : Levels V) (k : String) : Except PyErr V :=
  match l.get? k with
  | some v => .ok v
  | none => .error .keyError

/-- `get_time_derivative` of the schemes (dream/time.py:175-176, 192-193) applied to a level
dictionary. -/
def Scheme.timeDerivative (s : Scheme) (dt : ℝ) (gfus : Levels (ι → ℝ)) :
    Except PyErr (ι → ℝ) :=
  match s with
  | .implicitEuler => do
    let new ← gfus.getE "n+1"
    let n ← gfus.getE "n"
    .ok fun i => ieDerivative dt (new i) (n i)
  | .bdf2 => do
    let new ← gfus.getE "n+1"
    let n ← gfus.getE "n"
    let nm1 ← gfus.getE "n-1"
    .ok fun i => bdf2Derivative dt (new i) (n i) (nm1 i)

/-- `ImplicitSchemes.add_symbolic_temporal_forms` (dream/time.py:144-153): the level dictionary
is copied, `'n+1'` is replaced by the trial function and the difference quotient is formed. -/
def Scheme.temporal (s : Scheme) (dt : ℝ) (gfus : Levels (ι → ℝ)) (trial : ι → ℝ) :
    Except PyErr (ι → ℝ) :=
  s.timeDerivative dt (gfus.set "n+1" trial)

/-- The discretised problem: `spatial t` are all forms but `'time'` applied to the unknowns
(`blf.Apply`) at time `t`, `mass` is `InnerProduct(·, v) * dx`, `comp` is the component of the
variable that is differentiated in time. -/
structure Problem (ι X Y : Type) where
  spatial : ℚ → X → Y
  mass : (ι → ℝ) → Y
  comp : X → ι → ℝ

/-- The residual `blf.Apply(gfu.vec)` (dream/solver.py:240) when the time form is built with the
level dictionary `gfus`; `lf` is empty (no formulation adds to it). -/
def Problem.residual [Add Y] (P : Problem ι X Y) (s : Scheme) (dt : ℝ) (gfus : Levels (ι → ℝ))
    (t : ℚ) (x : X) : Except PyErr Y := do
  let d ← s.temporal dt gfus (P.comp x)
  .ok (P.spatial t x + P.mass d)

/-- The value of a computation that does not raise. -/
def valueOr {α : Type} (d : α) : Except PyErr α → α
  | .ok a => a
  | .error _ => d

/-- Newton's method with its options, and the linear solver as a functional: from the residual
function (whose linearisation NGSolve assembles) to `solve_update_step`
(dream/solver.py:238-253). -/
structure Newton (X Y : Type) where
  lin : (X → Y) → LinOracle X
  damping : ℝ
  crit : ℝ
  maxIter : ℤ

/-- `nonlinear_solver.solve` run to its end (dream/solver.py:195-211) for the residual `F`,
starting from the present solution `x`. -/
def Newton.solve [AddCommGroup X] [Module ℝ X] (N : Newton X Y) (F : X → Y) (x : X) : NLState X :=
  nlSolve (N.lin F) (newtonUpdate N.damping) N.crit N.maxIter x

/-- The state carried by the time loop: `cfg.gfu` and the level dictionary of the variable. -/
structure RunState (ι X : Type) where
  x : X
  levels : Levels (ι → ℝ)

/-- `TransientConfig.initialize` and `set_initial_conditions` (dream/time.py:295-301) for an
initial state `x0`: the level dictionary is created (a missing level raises when the form is
built) and filled. -/
def transientInit (P : Problem ι X Y) (s : Scheme) (x0 : X) : Except PyErr (RunState ι X) := do
  let l ← setInitialConditions (initLevels s.levelNames (fun _ => 0) (P.comp x0))
  .ok ⟨x0, l⟩

/-- One round of the time loop (dream/time.py:313-318) up to the yield: nonlinear solve, then
`update_gridfunctions`. The level `'n+1'` is the component of the solution itself. -/
def transientRound [AddCommGroup X] [Module ℝ X] [Add Y] [Zero Y] (P : Problem ι X Y)
    (s : Scheme) (dt : ℝ) (N : Newton X Y) (st : RunState ι X) (t : ℚ) :
    Except PyErr (RunState ι X) := do
  let _ ← P.residual s dt st.levels t st.x
  let x := (N.solve (fun x => valueOr 0 (P.residual s dt st.levels t x)) st.x).u
  .ok ⟨x, ← timeStep s.levelNames st.levels (P.comp x)⟩

/-- The time loop (dream/time.py:313-318) over the values `t` and labels produced by the timer:
the yielded labels together with the solution visible at the yield. -/
def transientLoop [AddCommGroup X] [Module ℝ X] [Add Y] [Zero Y] (P : Problem ι X Y)
    (s : Scheme) (dt : ℝ) (N : Newton X Y) :
    List (ℚ × ℚ) → RunState ι X → Except PyErr (List (ℚ × X))
  | [], _ => .ok []
  | (t, label) :: ts, st => do
    let st ← transientRound P s dt N st t
    let rest ← transientLoop P s dt N ts st
    .ok ((label, st.x) :: rest)

/-- `TransientConfig.start_solution_routine` (dream/time.py:303-326) from the initial state `x0`
with the timer `tm`. -/
def transientRun [AddCommGroup X] [Module ℝ X] [Add Y] [Zero Y] (P : Problem ι X Y)
    (s : Scheme) (N : Newton X Y) (tm : Timer) (x0 : X) : Except PyErr (List (ℚ × X)) := do
  let st ← transientInit P s x0
  let ts ← tm.run false 1
  transientLoop P s (tm.step : ℝ) N ts st

/-! ## Pseudo time stepping -/

/-- What one iteration of pseudo time stepping leaves behind: unknowns, levels, time step, and
the two flags of the nonlinear solver. `trace` lists the states at which the residual was
evaluated, with its values. -/
structure PseudoState (ι X Y : Type) where
  x : X
  levels : Levels (ι → ℝ)
  dt : ℚ
  isNan : Bool := false
  isConverged : Bool := false
  trace : List (X × Y) := []

/-- The loop `for it in self.scheme.solve_current_time_level()` of
`PseudoTimeSteppingConfig.start_solution_routine` (dream/time.py:377-380) interleaved with the
generator `NonlinearSolver.solve` (dream/solver.py:199-211), from iteration `it` with `n`
iterations left: at each yield the levels are shifted and the time step is adapted, then the
update step is computed. The time stays at its initial value `t`. -/
def pseudoLoop [AddCommGroup X] [Module ℝ X] [Add Y] [Zero Y] (P : Problem ι X Y) (s : Scheme)
    (ps : Pseudo) (N : Newton X Y) (t : ℚ) :
    (n : ℕ) → (it : ℕ) → PseudoState ι X Y → Except PyErr (PseudoState ι X Y)
  | 0, _, st => .ok st
  | n + 1, it, st => do
    -- the consumer's part
    let levels ← timeStep s.levelNames st.levels (P.comp st.x)
    let dt ← ps.update st.dt it
    -- solve_update_step
    let r ← P.residual s (dt : ℝ) levels t st.x
    let step := N.lin (fun x => valueOr 0 (P.residual s (dt : ℝ) levels t x)) it st.x
    let nan := step.2.isNone
    let conv := match step.2 with
      | some e => open Classical in decide (e < N.crit)
      | none => false
    let st := { st with levels := levels, dt := dt, isNan := nan, isConverged := conv,
                        trace := st.trace ++ [(st.x, r)] }
    if nan then .ok st
    else
      let st := { st with x := newtonUpdate N.damping st.x step.1 }
      if conv then .ok st
      else pseudoLoop P s ps N t n (it + 1) st

/-- `PseudoTimeSteppingConfig.start_solution_routine` (dream/time.py:369-389) without the io
calls. -/
def pseudoRun [AddCommGroup X] [Module ℝ X] [Add Y] [Zero Y] (P : Problem ι X Y) (s : Scheme)
    (ps : Pseudo) (N : Newton X Y) (t dt : ℚ) (x0 : X) : Except PyErr (PseudoState ι X Y) := do
  let st ← transientInit P s x0
  pseudoLoop P s ps N t N.maxIter.toNat 0 { x := x0, levels := st.levels, dt := dt }

end Dream
