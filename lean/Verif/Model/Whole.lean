import Verif.Model.Options

/-!
# Options that are converted to whole numbers
-/

namespace Dream

/-- The options with a setter `return int(value)`: `fem.order` (dream/solver.py:272-274),
`nonlinear_solver.max_iterations` (dream/solver.py:163-165), `increment_at` and `increment_factor` of
pseudo time stepping (dream/time.py:349-355) and `optimizations.bonus_int_order` (dream/solver.py:18-32). -/
inductive WholeName
  | order | maxIterations | incrementAt | incrementFactor | bonusVol | bonusBnd | bonusBbnd | bonusBbbnd
  deriving DecidableEq

/-- The setter: `int(value)`, without a check. Strings are not modelled, see `PyVal`. -/
def setWhole (v : PyVal) : Except PyErr ℤ := do
  let x ← v.number
  x.toInt

/-- The defaults (the `default=` arguments of the setters, same lines). -/
def wholeDefault : WholeName → ℤ
  | .order => 2
  | .maxIterations => 10
  | .incrementAt => 10
  | .incrementFactor => 10
  | _ => 0

/-- `cfg.<option> = v`: outcome and options afterwards; the setter runs before anything is stored
(`configuration.__set__`, dream/config.py:167-171). -/
def assignWhole (o : WholeName) (v : PyVal) (σ : WholeName → ℤ) :
    Except PyErr Unit × (WholeName → ℤ) :=
  match setWhole v with
  | .ok i => (.ok (), fun o' => if o' = o then i else σ o')
  | .error e => (.error e, σ)

/-- A history of assignments, each possibly rejected. -/
def assignWholes (h : List (WholeName × PyVal)) (σ : WholeName → ℤ) : WholeName → ℤ :=
  h.foldl (fun σ e => (assignWhole e.1 e.2 σ).2) σ

end Dream
