import Verif.Model.Config

/-!
# What `update` means: a sequence of plain assignments
-/

namespace Dream.Spec
variable {V : Type}

/-- The assignment `cfg.a.b.c = arg` in Python: walk to the owner of the last name and assign
there. Names that are no options are ignored; a plain value has no options (`AttributeError`).
`arg` is not a dictionary. -/
def assignAt (W : World V) : Path → Arg V → Item V → Except PyErr (Item V)
  | [], _, it => .ok it
  | _ :: _, _, .leaf _ => .error .attributeError
  | [k], a, .obj c data =>
    if Dict.has data k then (W.assign (fun _ _ => .error .typeError) c data k a).map (.obj c)
    else .ok (.obj c data)
  | k :: l :: rest, a, .obj c data =>
    match Dict.get? data k with
    | some it => (assignAt W (l :: rest) a it).map fun it' => .obj c (Dict.set data k it')
    | none => .ok (.obj c data)

/-- The assignments of a dictionary one after the other. -/
def assignSeq (W : World V) (kw : KW V) (it : Item V) : Except PyErr (Item V) :=
  kw.foldlM (fun it e => assignAt W e.1 e.2 it) it

/-- The option at a dotted key. -/
def readAt : Item V → Path → Option (Item V)
  | it, [] => some it
  | .leaf _, _ :: _ => none
  | .obj _ data, k :: rest =>
    match Dict.get? data k with
    | some it => readAt it rest
    | none => none

/-- The argument is not a dictionary. -/
def Flat : Arg V → Prop
  | .dict _ => False
  | _ => True

/-- Whoever is selected is selected before its options are set: no key is equal to or a prefix
of an earlier key. (Keys of a Python dictionary are distinct anyway.) -/
def Ordered (kw : KW V) : Prop := kw.Pairwise fun e e' => ¬ e'.1 <+: e.1

/-- Different options, none inside another: no key is a prefix of another one. -/
def Independent (kw : KW V) : Prop := kw.Pairwise fun e e' => ¬ e'.1 <+: e.1 ∧ ¬ e.1 <+: e'.1

/-- All entries are set to plain objects or names and have dotted keys of length at most `n`. -/
def Plain (n : ℕ) (kw : KW V) : Prop := ∀ e ∈ kw, Flat e.2 ∧ e.1 ≠ [] ∧ e.1.length ≤ n

/-- The descriptor of the plain option a dotted key leads to. -/
def leafAt (W : World V) : Item V → Path → Option (LeafOpt V)
  | _, [] => none
  | .leaf _, _ :: _ => none
  | .obj c data, [k] =>
    match Dict.get? data k, W.opt c k with
    | some _, some (.leaf o) => some o
    | _, _ => none
  | .obj _ data, k :: l :: rest =>
    match Dict.get? data k with
    | some it => leafAt W it (l :: rest)
    | none => none

/-- A dotted key which is no option: some configuration on the way has no option of that name. -/
def Unknown : Item V → Path → Prop
  | _, [] => False
  | .leaf _, _ :: _ => False
  | .obj _ data, k :: rest =>
    match Dict.get? data k with
    | some it => Unknown it rest
    | none => True

/-- The options of each configuration have distinct names, as in every Python dictionary. -/
inductive WF : Item V → Prop
  | leaf (v : V) : WF (.leaf v)
  | obj (c : ℕ) (data : List (Key × Item V)) (hn : (Dict.keys data).Nodup)
      (hw : ∀ e ∈ data, WF e.2) : WF (.obj c data)

/-- Neither dotted key is a prefix of the other one: different options, none inside the other. -/
def Apart (p q : Path) : Prop := ¬ p <+: q ∧ ¬ q <+: p

end Dream.Spec

namespace Dream.Spec
variable {V : Type}

/-- The options of a newly constructed configuration. -/
def freshData (W : World V) (c : ℕ) : Dict Key (Item V) :=
  match W.fresh c with
  | .leaf _ => []
  | .obj _ d => d

/-- What the restore needs to know about the classes (no streams among the options in use):
* a new object has the class it was made of, its options have distinct names, and its
  sub-configurations are new objects of registered classes;
* an option that can be read holds what its setter makes of the exported value, and a setter only
  stores values of that kind (setters are idempotent);
* the name of a class selects the class, and no registered class is derived from another one. -/
structure Lawful (W : World V) : Prop where
  cls : ∀ c, W.fresh c = .obj c (freshData W c)
  nodup : ∀ c, (freshData W c).keys.Nodup
  kind : ∀ c, ∀ e ∈ freshData W c,
    (∃ o v, W.opt c e.1 = some (.leaf o) ∧ e.2 = .leaf v ∧
      (o.readable v = true → o.fset (o.toArg v) = .ok v)) ∨
    (∃ c', W.opt c e.1 = some (.unique c') ∧ e.2 = W.fresh c') ∨
    (∃ l c', W.opt c e.1 = some (.iface l) ∧ l (W.nameOf c') = some c' ∧ e.2 = W.fresh c')
  setter : ∀ c k o a v, W.opt c k = some (.leaf o) → o.fset a = .ok v →
    o.readable v = true ∧ o.fset (o.toArg v) = .ok v
  export_flat : ∀ c k o v, W.opt c k = some (.leaf o) → Flat (o.toArg v)
  name : ∀ c k l s c', W.opt c k = some (.iface l) → l s = some c' → l (W.nameOf c') = some c'
  flat : ∀ c k l s s' a b, W.opt c k = some (.iface l) → l s = some a → l s' = some b →
    W.isA a b = true → a = b

/-- A configuration obtained from a new one by any number of successful `update` calls with dotted
keys. -/
inductive Reached (W : World V) (c : ℕ) : Item V → Prop
  | fresh : Reached W c (W.fresh c)
  | update (n : ℕ) (kw : KW V) (s t : Item V) (hs : Reached W c s) (ho : Ordered kw)
      (hp : Plain (n + 1) kw) (h : W.update (n + 1) s kw = .ok t) : Reached W c t

end Dream.Spec
