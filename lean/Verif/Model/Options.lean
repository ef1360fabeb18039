import Verif.Model.Basic

/-!
# dream/config.py, validated options: `configuration.__set__` and the validating setters

Numbers are Python floats or exact numbers (`int`, `Fraction`); the conversion to a float is a
parameter of the model.
-/

namespace Dream

/-- A real Python number: finite, `nan`, or an infinity (`neg` for `-inf`). -/
inductive PyNum
  | fin (q : ℚ)
  | nan
  | inf (neg : Bool)
  deriving DecidableEq

/-- `a < b` on Python numbers; every comparison with `nan` is false. -/
def PyNum.lt : PyNum → PyNum → Bool
  | .nan, _ => false
  | _, .nan => false
  | .fin a, .fin b => decide (a < b)
  | .fin _, .inf n => !n
  | .inf n, .fin _ => n
  | .inf a, .inf b => a && !b

/-- `a <= b` (and `b >= a`) on Python numbers. -/
def PyNum.le : PyNum → PyNum → Bool
  | .nan, _ => false
  | _, .nan => false
  | a, b => !(b.lt a)

/-- Conversion of exact numbers to floats: `fl q` is the nearest float, or `none` if it is out
of range (`OverflowError`). The theorems hold for every `fl` unless they restrict it. -/
abbrev Rounding := ℚ → Option ℚ

/-- `float(x)`. -/
def PyNum.toFloat (fl : Rounding) : PyNum → Except PyErr PyNum
  | .fin q => match fl q with
    | some r => .ok (.fin r)
    | none => .error .overflow
  | x => .ok x

/-- `int(x)`: truncation; `ValueError` for `nan` and `OverflowError` for infinities. -/
def PyNum.toInt : PyNum → Except PyErr ℤ
  | .fin q => .ok (pyInt q)
  | .nan => .error .valueError
  | .inf _ => .error .overflow

/-- A value a user may assign: a number, a sequence of numbers, or an object that can neither be
compared with a number nor converted to one. Strings of digits, which `int` would
parse, are not modelled. -/
inductive PyVal
  | num (x : PyNum)
  | seq (xs : List PyNum)
  | other

/-- A setter that needs a number raises `TypeError` otherwise. -/
def PyVal.number : PyVal → Except PyErr PyNum
  | .num x => .ok x
  | _ => .error .typeError

/-- `Timer.interval` (dream/time.py:19-29). -/
def setInterval (fl : Rounding) : PyVal → Except PyErr (PyNum × PyNum)
  | .seq [start, stop] => do
    if start.lt (.fin 0) || stop.lt (.fin 0) then throw .valueError
    if stop.le start then throw .valueError
    return (← start.toFloat fl, ← stop.toFloat fl)
  | .seq _ => .error .valueError
  | _ => .error .typeError

/-- `mach_number` (dream/compressible/solver.py:39-53); `parameter.__set__` converts to a float
(dream/config.py:194-202). -/
def setMach (fl : Rounding) (v : PyVal) : Except PyErr PyNum := do
  let x ← v.number
  if x.lt (.fin 0) then throw .valueError
  x.toFloat fl

/-- `reynolds_number` and `prandtl_number` (dream/compressible/solver.py:55-68, 75-88). -/
def setPositive (fl : Rounding) (v : PyVal) : Except PyErr PyNum := do
  let x ← v.number
  if x.le (.fin 0) then throw .valueError
  x.toFloat fl

/-- `convergence_criterion` (dream/solver.py:167-171). -/
def setCriterion (fl : Rounding) (v : PyVal) : Except PyErr PyNum := do
  let x ← v.number
  if x.le (.fin 0) then throw .valueError
  x.toFloat fl

/-- `rate` and `time_level_rate` of the streams and sensors (dream/io.py:284-289, 358-371,
671-676). -/
def setRate (v : PyVal) : Except PyErr ℤ := do
  let x ← v.number
  let i ← x.toInt
  if i ≤ 0 then throw .valueError
  return i

/-- The validated options, collected from the configuration objects that hold them. -/
structure Options where
  interval : PyNum × PyNum
  mach : PyNum
  reynolds : PyNum
  prandtl : PyNum
  criterion : PyNum
  vtkRate : ℤ
  gfuRate : ℤ
  levelRate : ℤ
  sensorRate : ℤ
  deriving DecidableEq

/-- Names of the validated options. -/
inductive OptName
  | interval | mach | reynolds | prandtl | criterion | vtkRate | gfuRate | levelRate | sensorRate
  deriving DecidableEq

/-- The defaults (the `default=` arguments of the setters above). -/
def Options.init : Options where
  interval := (.fin 0, .fin 1)
  mach := .fin (3 / 10)
  reynolds := .fin 150
  prandtl := .fin (72 / 100)
  criterion := .fin (1 / 10 ^ 8)
  vtkRate := 1
  gfuRate := 1
  levelRate := 100
  sensorRate := 1

/-- Store the result of a setter, `configuration.__set__` (dream/config.py:167-171) and
`parameter.__set__` (dream/config.py:194-202): the setter runs first, and only if it
returns is the value stored. -/
def storeWith {α : Type} (r : Except PyErr α) (put : α → Options) (σ : Options) :
    Except PyErr Unit × Options :=
  match r with
  | .ok v => (.ok (), put v)
  | .error e => (.error e, σ)

/-- `cfg.<option> = v`: the outcome and the options afterwards. -/
def setOption (fl : Rounding) (o : OptName) (v : PyVal) (σ : Options) :
    Except PyErr Unit × Options :=
  match o with
  | .interval => storeWith (setInterval fl v) (fun x => { σ with interval := x }) σ
  | .mach => storeWith (setMach fl v) (fun x => { σ with mach := x }) σ
  | .reynolds => storeWith (setPositive fl v) (fun x => { σ with reynolds := x }) σ
  | .prandtl => storeWith (setPositive fl v) (fun x => { σ with prandtl := x }) σ
  | .criterion => storeWith (setCriterion fl v) (fun x => { σ with criterion := x }) σ
  | .vtkRate => storeWith (setRate v) (fun x => { σ with vtkRate := x }) σ
  | .gfuRate => storeWith (setRate v) (fun x => { σ with gfuRate := x }) σ
  | .levelRate => storeWith (setRate v) (fun x => { σ with levelRate := x }) σ
  | .sensorRate => storeWith (setRate v) (fun x => { σ with sensorRate := x }) σ

/-- A history of assignments, each possibly rejected. -/
def setAll (fl : Rounding) (h : List (OptName × PyVal)) (σ : Options) : Options :=
  h.foldl (fun σ e => (setOption fl e.1 e.2 σ).2) σ

end Dream
