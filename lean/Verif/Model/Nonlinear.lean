import Verif.Model.Basic
import Mathlib.Data.Real.Basic
import Mathlib.Algebra.Module.Defs

/-!
# dream/solver.py: the nonlinear iteration
-/

noncomputable section

namespace Dream

/-- Observable state of a `NonlinearSolver` while `solve` runs
(dream/solver.py:155-211). `yields` are the iteration numbers handed to the
consumer, `solves` counts the linear solves, `error` is `none` for NaN. -/
structure NLState (V : Type) where
  u : V
  yields : List ℕ
  solves : ℕ
  isNan : Bool
  isConverged : Bool

/-- `solve_update_step` (dream/solver.py:238-253) as an arbitrary oracle: iteration
number and current solution give the increment and the value of
`sqrt(InnerProduct(du,residual)**2)`, `none` standing for NaN. The assembly and the
linear algebra of NGSolve are not modelled. -/
abbrev LinOracle (V : Type) := ℕ → V → V × Option ℝ

/-- `NonlinearSolver.set_iteration_error` (dream/solver.py:185-193). A comparison
with NaN is false. -/
def setIterationError {V} (crit : ℝ) (st : NLState V) (err : Option ℝ) : NLState V :=
  open Classical in
  { st with
    isConverged := match err with
      | some e => decide (e < crit)
      | none => false
    isNan := match err with
      | some _ => st.isNan
      | none => true }

/-- The loop body of `NonlinearSolver.solve` (dream/solver.py:199-211) from
iteration `it` with `n` iterations left. `upd u du` is `method.update_solution`. -/
def nlLoop {V} (lin : LinOracle V) (upd : V → V → V) (crit : ℝ) :
    (n : ℕ) → (it : ℕ) → NLState V → NLState V
  | 0, _, st => st
  | n + 1, it, st =>
    let st := { st with yields := st.yields ++ [it] }
    let r := lin it st.u
    let st := setIterationError crit { st with solves := st.solves + 1 } r.2
    if st.isNan then st
    else
      let st := { st with u := upd st.u r.1 }
      if st.isConverged then st
      else nlLoop lin upd crit n (it + 1) st

/-- `NonlinearSolver.solve` (dream/solver.py:195-211): reset the status, then at most
`max_iterations` iterations (`range` of a negative number is empty). -/
def nlSolve {V} (lin : LinOracle V) (upd : V → V → V) (crit : ℝ) (maxIter : ℤ) (u : V) :
    NLState V :=
  nlLoop lin upd crit maxIter.toNat 0
    { u := u, yields := [], solves := 0, isNan := false, isConverged := false }

/-- `NewtonsMethod.update_solution` (dream/solver.py:149-150). -/
def newtonUpdate {V} [AddCommGroup V] [Module ℝ V] (damping : ℝ) (u du : V) : V :=
  u - damping • du

end Dream
