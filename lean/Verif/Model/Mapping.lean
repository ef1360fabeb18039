import Verif.Model.Conditions

/-!
# dream/config.py: configurations as Python mappings

`UniqueConfiguration` is a `typing.MutableMapping` whose items are attributes. Modelled here:
plain options and `parameter` options, undeclared names, and the methods that Python's
`collections.abc` derives (`get`, `pop`, `popitem`, `setdefault`).
-/

namespace Dream.Mapping

/-- How an option is assigned: `configuration.__set__` or `parameter.__set__`
(dream/config.py:168-172, 194-202). -/
inductive Kind
  | plain
  | param
  deriving DecidableEq

/-- A configuration class: its options with their defaults in the order of `cls.cfgs`
(dream/config.py:410-415), their kinds, setters and getter checks, and its other attributes
(methods and class attributes). Simplifications: a setter sees the options of its own object only
and changes none of them; the value of a `parameter` is the number in it (its identity is C20);
option names in `cfgs` are distinct (a subclass that overrides an option is C15). -/
structure Cls (V : Type) where
  opts : List (Name × V)
  kind : Name → Kind
  fset : Name → Dict Name V → V → Except PyErr V
  fget : Name → Dict Name V → Except PyErr Unit
  attr : Name → Option V

variable {V : Type}

/-- The name is an option of the class. -/
def Cls.declared (c : Cls V) (n : Name) : Prop := n ∈ c.opts.map Prod.fst

instance (c : Cls V) (n : Name) : Decidable (c.declared n) := by
  unfold Cls.declared; infer_instance

/-- An instance: `self.data`, and the other entries of `__dict__` (without `data`, `cfg` and `mesh`,
which every object has and a user must not assign). -/
structure Inst (V : Type) where
  data : Dict Name V
  attrs : Dict Name V

/-- `del d[k]` with the `KeyError`. -/
def delKey (d : Dict Name V) (n : Name) (e : PyErr) : Except PyErr (Dict Name V) :=
  if d.has n then .ok (d.erase n) else .error e

/-- `getattr(cfg, n)`, that is `cfg[n]`: `configuration.__get__` for options
(dream/config.py:159-166, 437-438), Python's attribute lookup otherwise. -/
def getItem (c : Cls V) (x : Inst V) (n : Name) : Except PyErr V :=
  if c.declared n then do
    c.fget n x.data
    match x.data.get? n with
    | some v => .ok v
    | none => .error .keyError
  else
    match x.attrs.get? n with
    | some v => .ok v
    | none =>
      match c.attr n with
      | some v => .ok v
      | none => .error .attributeError

/-- `setattr(cfg, n, v)`, that is `cfg[n] = v`: `configuration.__set__` and `parameter.__set__`
for options (dream/config.py:168-172, 194-202, 434-435), Python's assignment to the instance
otherwise. -/
def setItem (c : Cls V) (x : Inst V) (n : Name) (v : V) : Except PyErr (Inst V) :=
  if c.declared n then do
    let w ← c.fset n x.data v
    match c.kind n with
    | .plain => .ok { x with data := x.data.set n w }
    | .param => if x.data.has n then .ok { x with data := x.data.set n w } else .error .keyError
  else .ok { x with attrs := x.attrs.set n v }

/-- `delattr(cfg, n)`, that is `del cfg[n]` (dream/config.py:174-175, 440-441). -/
def delItem (c : Cls V) (x : Inst V) (n : Name) : Except PyErr (Inst V) :=
  if c.declared n then do
    let d ← delKey x.data n .keyError
    .ok { x with data := d }
  else do
    let d ← delKey x.attrs n .attributeError
    .ok { x with attrs := d }

/-- One round of `clear`: `configuration.reset`, `parameter.reset` (dream/config.py:186-187,
204-210). -/
def resetOption (c : Cls V) (d : Dict Name V) (o : Name × V) : Except PyErr (Dict Name V) := do
  let w ← c.fset o.1 d o.2
  .ok (d.set o.1 w)

/-- `clear` (dream/config.py:405-408). -/
def clear (c : Cls V) (x : Inst V) : Except PyErr (Inst V) := do
  let d ← c.opts.foldlM (resetOption c) []
  .ok { x with data := d }

/-- `n in cfg` (dream/config.py:449-450). -/
def contains (x : Inst V) (n : Name) : Bool := x.data.has n

/-- `list(cfg)` and `len(cfg)` (dream/config.py:443-447). -/
def keys (x : Inst V) : List Name := x.data.keys

/-- `update(n=v)` for a name without dot (dream/config.py:352-371): unknown names are dropped with
a log message. -/
def update1 (c : Cls V) (x : Inst V) (n : Name) (v : V) : Except PyErr (Inst V) :=
  if contains x n then setItem c x n v else .ok x

/-- `Mapping.get` (Python's `collections.abc`): the default on `KeyError`. -/
def get (c : Cls V) (x : Inst V) (n : Name) (dflt : V) : Except PyErr V :=
  match getItem c x n with
  | .error .keyError => .ok dflt
  | r => r

/-- `MutableMapping.pop(n)` (Python's `collections.abc`). -/
def pop (c : Cls V) (x : Inst V) (n : Name) : Except PyErr (V × Inst V) := do
  let v ← getItem c x n
  let y ← delItem c x n
  .ok (v, y)

/-- `MutableMapping.popitem()` (Python's `collections.abc`): the first key. -/
def popitem (c : Cls V) (x : Inst V) : Except PyErr ((Name × V) × Inst V) :=
  match keys x with
  | [] => .error .keyError
  | n :: _ => do
    let v ← getItem c x n
    let y ← delItem c x n
    .ok ((n, v), y)

/-- `MutableMapping.setdefault(n, v)` (Python's `collections.abc`). -/
def setdefault (c : Cls V) (x : Inst V) (n : Name) (v : V) : Except PyErr (V × Inst V) :=
  match getItem c x n with
  | .ok w => .ok (w, x)
  | .error .keyError => do
    let y ← setItem c x n v
    .ok (v, y)
  | .error e => .error e

/-- What a user may do with a configuration. -/
inductive Op (V : Type)
  | set (n : Name) (v : V)
  | del (n : Name)
  | clear
  | pop (n : Name)
  | setdefault (n : Name) (v : V)
  | update (n : Name) (v : V)

/-- An operation; a failing one raises an exception, which the user catches. -/
def step (c : Cls V) (x : Inst V) : Op V → Except PyErr (Inst V)
  | .set n v => setItem c x n v
  | .del n => delItem c x n
  | .clear => clear c x
  | .pop n => (pop c x n).map Prod.snd
  | .setdefault n v => (setdefault c x n v).map Prod.snd
  | .update n v => update1 c x n v

/-- A session: `clear` may stop half-way when a default is refused; such classes are excluded by
`Cls.Sound`. All other failing operations change nothing. -/
def run (c : Cls V) (x : Inst V) : List (Op V) → Inst V
  | [] => x
  | o :: os =>
    match step c x o with
    | .ok y => run c y os
    | .error _ => run c x os

/-- Construction (dream/config.py:423-431). -/
def new (c : Cls V) : Except PyErr (Inst V) := clear c ⟨[], []⟩

end Dream.Mapping
