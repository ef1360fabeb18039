import Verif.Model.Dict

/-!
# dream/config.py: `parameter` options

`ngs.Parameter` objects are cells of a heap; symbolic expressions refer to a cell, not to the
option.
-/

namespace Dream

/-- The parameter objects (`cells`, by creation order) and the options of a configuration
(`cfg.data`), each referring to one. -/
structure Params (α : Type) where
  cells : List α
  data : Dict String ℕ

/-- What a user may assign: a number or a parameter object. -/
inductive ParamArg (α : Type)
  | number (v : α)
  | param (r : ℕ)

variable {α : Type}

/-- The number an assigned value stands for, `value.Get()` for a parameter object
(dream/config.py:196-197). -/
def Params.read (σ : Params α) : ParamArg α → Option α
  | .number v => some v
  | .param r => σ.cells[r]?

/-- `parameter.__set__` (dream/config.py:194-202): a parameter object is replaced by its
value, the setter is called, and the value of the existing object is changed. `fset` is the
setter of each option. The result is the outcome and the state afterwards. -/
def Params.assign (fset : String → α → Except PyErr α) (σ : Params α) (n : String)
    (a : ParamArg α) : Except PyErr Unit × Params α :=
  match σ.read a with
  | none => (.error .attributeError, σ)
  | some v =>
    match fset n v with
    | .error e => (.error e, σ)
    | .ok w =>
      match σ.data.get? n with
      | none => (.error .keyError, σ)
      | some r => (.ok (), { σ with cells := σ.cells.set r w })

/-- `parameter.reset` (dream/config.py:204-210): a new object with the default value. -/
def Params.reset (fset : String → α → Except PyErr α) (σ : Params α) (n : String) (default : α) :
    Except PyErr Unit × Params α :=
  match fset n default with
  | .error e => (.error e, σ)
  | .ok w => (.ok (), { cells := σ.cells ++ [w], data := σ.data.set n σ.cells.length })

/-- `UniqueConfiguration.clear` (dream/config.py:405-408) for the parameter options of a class:
every option is reset, on construction. -/
def Params.init (fset : String → α → Except PyErr α) (defaults : List (String × α)) :
    Params α :=
  defaults.foldl (fun σ d => (σ.reset fset d.1 d.2).2) ⟨[], []⟩

/-- What a user may do between resets: assign to an option, create a parameter object
(`ngs.Parameter(v)`), or change an object directly (`p.Set(v)`). -/
inductive ParamOp (α : Type)
  | assign (n : String) (a : ParamArg α)
  | create (v : α)
  | setObject (r : ℕ) (v : α)

/-- One step; a rejected assignment raises and is ignored. -/
def Params.step (fset : String → α → Except PyErr α) (σ : Params α) : ParamOp α → Params α
  | .assign n a => (σ.assign fset n a).2
  | .create v => { σ with cells := σ.cells ++ [v] }
  | .setObject r v => { σ with cells := σ.cells.set r v }

/-- A history. -/
def Params.run (fset : String → α → Except PyErr α) (σ : Params α) (h : List (ParamOp α)) :
    Params α := h.foldl (Params.step fset) σ

/-- The value a symbolic expression built from object `r` evaluates with. -/
def Params.valueAt (σ : Params α) (r : ℕ) : Option α := σ.cells[r]?

/-- The object an option refers to (`cfg.<option>`). -/
def Params.object (σ : Params α) (n : String) : Option ℕ := σ.data.get? n

end Dream
