import Verif.Model.Basic

/-!
# dream/time.py: timer, time levels, schemes, pseudo time stepping
-/

namespace Dream

/-! ## Timer -/

/-- The data of a `Timer` (dream/time.py:17-65): the interval, the step, the
number of label digits and the current value of the parameter `t`. -/
structure Timer where
  start : ℚ
  stop : ℚ
  step : ℚ
  digit : ℕ
  t : ℚ
  deriving DecidableEq

/-- `Timer._set_digit` (dream/time.py:59-61): number of decimals of
`f"{step:.16f}"` after stripping trailing zeros.  The 16 decimals of the formatted
number are the decimal digits of `|round(step*10^16)|` (most significant first). -/
def setDigit (step : ℚ) : ℕ :=
  let m := (pyRound (step * 10 ^ 16)).natAbs
  let digits := (List.range 16).map fun k => (m / 10 ^ (15 - k)) % 10
  (digits.reverse.dropWhile (· = 0)).length

/-- `Timer.interval` setter (dream/time.py:19-29). -/
def Timer.setInterval (tm : Timer) (s e : ℚ) : Except PyErr Timer :=
  if s < 0 ∨ e < 0 then .error .valueError
  else if s ≥ e then .error .valueError
  else .ok { tm with start := s, stop := e }

/-- `Timer.step` setter (dream/time.py:31-34). -/
def Timer.setStep (tm : Timer) (dt : ℚ) : Timer :=
  { tm with step := dt, digit := setDigit dt }

/-- The freshly constructed `Timer` (defaults, dream/time.py:19, 31, 36). -/
def Timer.default : Timer :=
  { start := 0, stop := 1, step := 1 / 10000, digit := setDigit (1 / 10000), t := 0 }

/-- What a user assigns to a timer. -/
inductive TimerOp
  | interval (s e : ℚ)
  | step (dt : ℚ)

/-- One assignment to a timer (dream/time.py:19-34); a rejected one raises and is passed over. -/
def Timer.assign (tm : Timer) : TimerOp → Timer
  | .interval s e => match tm.setInterval s e with
    | .ok tm' => tm'
    | .error _ => tm
  | .step dt => tm.setStep dt

/-- `range(a, b)` of Python for natural `a`, integer `b`. -/
def pyRange (a : ℕ) (b : ℤ) : List ℕ := List.range' a (b - a).toNat

/-- `Timer.start` (dream/time.py:40-49): the list of pairs (value given to the
parameter `t`, yielded label).  The generator is modelled by the list of
everything it yields. Division by a zero `stride*step` raises. -/
def Timer.run (tm : Timer) (includeStart : Bool) (stride : ℕ) :
    Except PyErr (List (ℚ × ℚ)) :=
  if stride * tm.step = 0 then .error .zeroDivision
  else
    let N := pyRound ((tm.stop - tm.start) / (stride * tm.step)) + 1
    .ok ((pyRange (1 - includeStart.toNat) N).map fun (i : ℕ) =>
      let t := tm.start + stride * (i : ℚ) * tm.step
      (t, pyRoundDigits t tm.digit))

/-! ## Time levels -/

/-- The level dictionary of one variable, `gfus[variable]`, in insertion order
(dream/time.py:98-100). -/
abbrev Levels (V : Type) := List (String × V)

/-- `dict[key]` -/
def Levels.get? {V} (l : Levels V) (k : String) : Option V := List.lookup k l

/-- `gfu[old].vec.data = v`: overwrite the vector stored under an existing key. -/
def Levels.set {V} (l : Levels V) (k : String) (v : V) : Levels V :=
  l.map fun kv => if kv.1 = k then (kv.1, v) else kv

/-- `TimeSchemes.initialize_level_gridfunctions` (dream/time.py:98-100): fresh
grid functions (value `zero`) for all levels but the last, which is the solution
itself. -/
def initLevels {V} (names : List String) (zero gfu : V) : Levels V :=
  names.zip (names.dropLast.map (fun _ => zero) ++ [gfu])

/-- `TimeSchemes.set_initial_conditions` for one variable (dream/time.py:102-105):
all but the last value are overwritten by the value stored under `'n+1'`.
Raises `KeyError` if there is no such level. -/
def setInitialConditions {V} (l : Levels V) : Except PyErr (Levels V) :=
  match l.get? "n+1" with
  | none => if l.dropLast.isEmpty then .ok l else .error .keyError
  | some v => .ok (l.dropLast.map (fun kv => (kv.1, v)) ++ l.drop (l.length - 1))

/-- `TimeSchemes.update_gridfunctions` for one variable (dream/time.py:110-113):
the sequential loop over `zip(levels[:-1], levels[1:])`. -/
def updateLevels {V} (names : List String) (l : Levels V) : Except PyErr (Levels V) :=
  (names.dropLast.zip names.tail).foldlM (init := l) fun l on =>
    match l.get? on.2 with
    | none => .error .keyError
    | some v => .ok (l.set on.1 v)

/-- `TimeSchemes.update_gridfunctions` (dream/time.py:110-113) for all variables. -/
def updateGridfunctions {V} (names : List String) (gfus : List (String × Levels V)) :
    Except PyErr (List (String × Levels V)) :=
  gfus.mapM fun kv => do return (kv.1, ← updateLevels names kv.2)

/-- One completed time step as in `TransientConfig.start_solution_routine`
(dream/time.py:313-318): the nonlinear solver leaves the new solution in level
`'n+1'`, then the levels are shifted. -/
def timeStep {V} (names : List String) (l : Levels V) (u : V) : Except PyErr (Levels V) :=
  updateLevels names (l.set "n+1" u)

/-- The same for all variables at once: `u v` is the new solution of variable `v`. -/
def timeStepAll {V} (names : List String) (gfus : List (String × Levels V)) (u : String → V) :
    Except PyErr (List (String × Levels V)) :=
  updateGridfunctions names (gfus.map fun kv => (kv.1, kv.2.set "n+1" (u kv.1)))

/-- `TimeSchemes.set_initial_conditions` (dream/time.py:102-105) for all variables. -/
def setInitialConditionsAll {V} (gfus : List (String × Levels V)) :
    Except PyErr (List (String × Levels V)) :=
  gfus.mapM fun kv => do return (kv.1, ← setInitialConditions kv.2)

/-- `TimeSchemes.initialize` (dream/time.py:86-96): one level dictionary per
variable; `zero` is the value of a fresh grid function, `u0 v` the current value of
the solution of variable `v`. -/
def initAll {V} (names : List String) (vars : List String) (zero : V) (u0 : String → V) :
    List (String × Levels V) :=
  vars.map fun v => (v, initLevels names zero (u0 v))

/-- The level names of the two schemes (dream/time.py:173, 190). -/
def implicitEulerLevels : List String := ["n", "n+1"]
@[inherit_doc implicitEulerLevels] def bdf2Levels : List String := ["n-1", "n", "n+1"]

/-! ## Schemes (values at one point; `V` any field) -/

section Schemes
variable {K : Type} [Field K]

/-- `ImplicitEuler.get_time_derivative` (dream/time.py:175-176). -/
def ieDerivative (dt un1 un : K) : K := (un1 - un) / dt
/-- `ImplicitEuler.get_current_level` (dream/time.py:178-180). -/
def ieLevel (_normalized : Bool) (un : K) : K := un
/-- `ImplicitEuler.get_time_step` (dream/time.py:182-183). -/
def ieStep (_normalized : Bool) (dt : K) : K := dt

/-- `BDF2.get_time_derivative` (dream/time.py:192-193). -/
def bdf2Derivative (dt un1 un unm1 : K) : K := (3 * un1 - 4 * un + unm1) / (2 * dt)
/-- `BDF2.get_current_level` (dream/time.py:195-199). -/
def bdf2Level (normalized : Bool) (un unm1 : K) : K :=
  if normalized then 4 / 3 * un - 1 / 3 * unm1 else 4 * un - unm1
/-- `BDF2.get_time_step` (dream/time.py:201-204). -/
def bdf2Step (normalized : Bool) (dt : K) : K :=
  if normalized then 2 / 3 * dt else 2 * dt

end Schemes

/-! ## Pseudo time stepping -/

/-- The options of `PseudoTimeSteppingConfig` used by the update
(dream/time.py:345-355). -/
structure Pseudo where
  maxStep : ℚ
  incrementAt : ℤ
  incrementFactor : ℤ

/-- Setter of `increment_factor` (dream/time.py:353-355). -/
def Pseudo.setIncrementFactor (p : Pseudo) (x : ℚ) : Pseudo :=
  { p with incrementFactor := pyInt x }

/-- `PseudoTimeSteppingConfig.solver_iteration_update` (dream/time.py:391-401): new
time step from the old one at iteration `it`. `it % increment_at` raises for
`increment_at = 0`, but only if the outer condition holds. Setting `timer.step`
also resets the label digits, which is not tracked here. -/
def Pseudo.update (p : Pseudo) (old : ℚ) (it : ℕ) : Except PyErr ℚ :=
  if p.maxStep > old then
    if p.incrementAt = 0 then .error .zeroDivision
    else if (it : ℤ) % p.incrementAt = 0 ∧ it > 0 then
      let new := old * p.incrementFactor
      .ok (if new > p.maxStep then p.maxStep else new)
    else .ok old
  else .ok old

/-- The time step after iterations `0, …, n-1` (loop of dream/time.py:377-379). -/
def Pseudo.run (p : Pseudo) (dt0 : ℚ) : ℕ → Except PyErr ℚ
  | 0 => .ok dt0
  | n + 1 => do p.update (← p.run dt0 n) n

end Dream
