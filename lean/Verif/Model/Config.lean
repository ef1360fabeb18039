import Verif.Model.Dict

/-!
# dream/config.py: configuration trees, `update` and `to_tree`

A configuration object is its class and its `data`; sub-configurations are nested. References to the
root configuration and the mesh are the subject of `Verif.Model.RootPointers`, and parameter objects
of `Verif.Model.Parameter`; here a parameter is its value.
-/

namespace Dream

/-- The name of an option. -/
abbrev Key := String

/-- A dotted key `a.b.c`, split at the dots. -/
abbrev Path := List Key

/-- A value passed to an assignment or to `update`: a string, a dictionary with dotted keys, or
any other object. -/
inductive Arg (V : Type)
  | val (v : V)
  | str (s : String)
  | dict (kw : List (Path × Arg V))

/-- A dictionary with dotted keys. -/
abbrev KW (V : Type) := List (Path × Arg V)

/-- The value of an option: a plain value or a sub-configuration with its class and `data`. -/
inductive Item (V : Type)
  | leaf (v : V)
  | obj (cls : ℕ) (data : List (Key × Item V))

/-- A `configuration` or `parameter` option: its setter, whether the getter check passes, and the
exported form (a parameter is exported as number, a path as string; dream/config.py:393-401). -/
structure LeafOpt (V : Type) where
  fset : Arg V → Except PyErr V
  readable : V → Bool
  toArg : V → Arg V

/-- The descriptor of an option: `configuration`, `unique` with its class, `interface` with
its registry, `stream` (dream/io.py:68-88) with its class. -/
inductive Opt (V : Type)
  | leaf (o : LeafOpt V)
  | unique (c : ℕ)
  | iface (lookup : String → Option ℕ)
  | stream (c : ℕ)

/-- The classes: `nameOf c` is `c.name`, `opt c k` the descriptor of `c.k`, `isA` is
`issubclass`, `fresh c` a newly constructed object, `asBool` recognises booleans. -/
structure World (V : Type) where
  nameOf : ℕ → String
  opt : ℕ → Key → Option (Opt V)
  isA : ℕ → ℕ → Bool
  fresh : ℕ → Item V
  asBool : V → Option Bool

variable {V : Type}

/-- `isinstance(it, c)`. -/
def World.isInstance (W : World V) : Item V → ℕ → Bool
  | .leaf _, _ => false
  | .obj c' _, c => W.isA c' c

/-- The effect of `cfg.k = a` on `cfg.data[k]`, where `c` is the class of `cfg` and `cur` the
present entry; the result is the new entry, `none` for no entry.
`configuration.__set__` (dream/config.py:167-171), `unique.__set__` (217-249), `interface.__set__` (271-302),
`stream.__set__` (dream/io.py:70-81). `upd` is `UniqueConfiguration.update`. Assigning
an instance is not modelled here. Setters see only the assigned value. -/
def World.assignItem (W : World V) (upd : Item V → KW V → Except PyErr (Item V)) (c : ℕ) (k : Key)
    (cur : Option (Item V)) (a : Arg V) : Except PyErr (Option (Item V)) :=
  match W.opt c k with
  | none => .ok cur
  | some (.leaf o) =>
    match o.fset a with
    | .ok v => .ok (some (.leaf v))
    | .error e => .error e
  | some (.unique c') =>
    match a with
    | .str s => if s = W.nameOf c' then .ok (some (W.fresh c')) else .error .typeError
    | .dict kw =>
      match cur with
      | some it => (upd it kw).map some
      | none => .error .keyError
    | .val _ => .error .typeError
  | some (.iface lookup) =>
    match a with
    | .str s =>
      match lookup s with
      | none => .error .typeError
      | some c' =>
        match cur with
        | none => .error .keyError
        | some it => if W.isInstance it c' then .ok (some it) else .ok (some (W.fresh c'))
    | .dict kw =>
      match cur with
      | some it => (upd it kw).map some
      | none => .error .keyError
    | .val _ => .error .typeError
  | some (.stream c') =>
    match a with
    | .str s => if s = k then .ok (some (W.fresh c')) else .error .valueError
    | .val v =>
      match W.asBool v with
      | some true => .ok (some (W.fresh c'))
      | some false => .ok none
      | none => .error .valueError
    | .dict _ => .error .valueError

/-- Write or delete the entry `k` of `data`. -/
def writeEntry (data : Dict Key (Item V)) (k : Key) : Option (Item V) → Dict Key (Item V)
  | some it => data.set k it
  | none => data.erase k

/-- `cfg.k = a` for a configuration of class `c` with entries `data`. -/
def World.assign (W : World V) (upd : Item V → KW V → Except PyErr (Item V)) (c : ℕ)
    (data : Dict Key (Item V)) (k : Key) (a : Arg V) : Except PyErr (Dict Key (Item V)) :=
  (W.assignItem upd c k (data.get? k) a).map (writeEntry data k)

/-- One pass of the loop over the keys in `UniqueConfiguration.update` (dream/config.py:357-372).
The state is `self.data` and `kwargs`. -/
def World.updateStep (W : World V) (upd : Item V → KW V → Except PyErr (Item V)) (c : ℕ)
    (st : Dict Key (Item V) × Dict Path (Arg V)) (key : Path) :
    Except PyErr (Dict Key (Item V) × Dict Path (Arg V)) :=
  let (data, kwargs) := st
  match key, kwargs.get? key with
  | _, none => .error .keyError
  | [], some _ => .ok (data, kwargs.erase key)
  | k :: args, some value =>
    if args = [] ∧ data.has k then
      match W.assign upd c data k value with
      | .ok data => .ok (data, kwargs.erase key)
      | .error e => .error e
    else if ¬ kwargs.has [k] ∧ data.has k then
      .ok (data, (kwargs.erase key).set [k] (.dict [(args, value)]))
    else if kwargs.has [k] ∧ data.has k then
      match kwargs.get? [k] with
      | some (.dict d) => .ok (data, (kwargs.erase key).set [k] (.dict (Dict.set d args value)))
      | _ => .error .typeError
    else .ok (data, kwargs.erase key)

/-- One pass of the final loop of `update`, `self[key].update(value)` (dream/config.py:373-374). -/
def childUpdate (upd : Item V → KW V → Except PyErr (Item V)) (data : Dict Key (Item V))
    (e : Path × Arg V) : Except PyErr (Dict Key (Item V)) :=
  match e with
  | ([k], .dict d) =>
    match data.get? k with
    | some it => (upd it d).map (data.set k)
    | none => .error .keyError
  | _ => .error .typeError

/-- `UniqueConfiguration.update` (dream/config.py:352-374). The number is the recursion depth
that is left; Python raises `RecursionError`, a `RuntimeError`, when it is used up. A plain value has no
`update` (options whose value is a dictionary, `info`, are not modelled). -/
def World.update (W : World V) : ℕ → Item V → KW V → Except PyErr (Item V)
  | 0, _, _ => .error .runtime
  | _ + 1, .leaf _, _ => .error .attributeError
  | n + 1, .obj c data, kw => do
    let (data, kwargs) ← (kw.map Prod.fst).foldlM (W.updateStep (W.update n) c) (data, kw)
    let data ← kwargs.foldlM (childUpdate (W.update n)) data
    return .obj c data

/-- Put `k.` in front of a dotted key. -/
def underKey (k : Key) (e : Path × Arg V) : Path × Arg V := (k :: e.1, e.2)

mutual
/-- `UniqueConfiguration.to_tree` (dream/config.py:376-403): the entries of a configuration, each
sub-configuration as its name followed by its own entries; an option whose getter raises is
left out. -/
def World.toTree (W : World V) : Item V → KW V
  | .leaf _ => []
  | .obj c data => W.toTreeList c data

/-- The loop of `to_tree` over the entries. -/
def World.toTreeList (W : World V) (c : ℕ) : List (Key × Item V) → KW V
  | [] => []
  | (k, it) :: rest => W.toTreeEntry c (k, it) ++ W.toTreeList c rest

/-- One entry. -/
def World.toTreeEntry (W : World V) (c : ℕ) : Key × Item V → KW V
  | (k, .leaf v) =>
    match W.opt c k with
    | some (.leaf o) => if o.readable v then [([k], o.toArg v)] else []
    | _ => []
  | (k, .obj c' data) => ([k], .str (W.nameOf c')) :: (W.toTreeList c' data).map (underKey k)
end

end Dream
