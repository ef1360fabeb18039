import Verif.Model.Basic
import Mathlib.Data.List.Basic

/-!
# Python dictionaries

A dictionary is its list of items in insertion order; keys are distinct. `set` overwrites in place
or appends, as Python does.
-/

namespace Dream

/-- `dict` with keys `κ` and values `α`: its items in insertion order. -/
abbrev Dict (κ α : Type) := List (κ × α)

namespace Dict

variable {κ α : Type} [DecidableEq κ]

/-- `d.get(k)`. -/
def get? (d : Dict κ α) (k : κ) : Option α := (d.find? fun kv => kv.1 = k).map Prod.snd

/-- `k in d`. -/
def has (d : Dict κ α) (k : κ) : Bool := d.any fun kv => kv.1 = k

/-- `d[k] = v`. -/
def set (d : Dict κ α) (k : κ) (v : α) : Dict κ α :=
  if d.has k then d.map fun kv => if kv.1 = k then (k, v) else kv else d ++ [(k, v)]

/-- `del d[k]` / `d.pop(k)`, without the `KeyError`. -/
def erase (d : Dict κ α) (k : κ) : Dict κ α := d.filter fun kv => kv.1 ≠ k

/-- `list(d)`. -/
def keys (d : Dict κ α) : List κ := d.map Prod.fst

end Dict
end Dream
