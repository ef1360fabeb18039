import Verif.Model.Dict

/-!
# dream/config.py: field dictionaries; output fields

Values are coefficient functions; the conversion of other values into them is not modelled.
-/

namespace Dream

variable {V : Type}

/-- `ngsdict.symbols`: symbol to canonical name (dream/config.py:94-99). -/
abbrev Symbols := Dict String String

/-- The quantities of `flowfields` (dream/compressible/config.py:42-70). -/
def flowSymbols : Symbols :=
  [("rho", "density"), ("u", "velocity"), ("rho_u", "momentum"), ("p", "pressure"),
   ("T", "temperature"), ("rho_E", "energy"), ("E", "specific_energy"),
   ("rho_Ei", "inner_energy"), ("Ei", "specific_inner_energy"), ("rho_Ek", "kinetic_energy"),
   ("Ek", "specific_kinetic_energy"), ("rho_H", "enthalpy"), ("H", "specific_enthalpy"),
   ("c", "speed_of_sound"), ("grad_rho", "density_gradient"), ("grad_u", "velocity_gradient"),
   ("grad_rho_u", "momentum_gradient"), ("grad_p", "pressure_gradient"),
   ("grad_T", "temperature_gradient"), ("grad_rho_E", "energy_gradient"),
   ("grad_E", "specific_energy_gradient"), ("grad_rho_Ei", "inner_energy_gradient"),
   ("grad_Ei", "specific_inner_energy_gradient"), ("grad_rho_Ek", "kinetic_energy_gradient"),
   ("grad_Ek", "specific_kinetic_energy_gradient"), ("grad_rho_H", "enthalpy_gradient"),
   ("grad_H", "specific_enthalpy_gradient"), ("grad_c", "speed_of_sound_gradient"),
   ("eps", "strain_rate_tensor")]

/-- `ngsdict.data`. -/
abbrev FieldDict (V : Type) := Dict String V

/-- `if key in self.symbols: key = self.symbols[key]` (dream/config.py:109-110). -/
def ngsKey (sy : Symbols) (key : String) : String :=
  match sy.get? key with
  | some name => name
  | none => key

/-- `ngsdict.__setitem__` (dream/config.py:105-112). -/
def FieldDict.setItem (sy : Symbols) (d : FieldDict V) (key : String) (v : V) : FieldDict V :=
  Dict.set d (ngsKey sy key) v

/-- `ngsdict.__getitem__` (dream/config.py:114-115). -/
def FieldDict.getItem (d : FieldDict V) (key : String) : Except PyErr V :=
  match Dict.get? d key with
  | some v => .ok v
  | none => .error .keyError

/-- `ngsdict.__delitem__` (dream/config.py:117-118). -/
def FieldDict.delItem (d : FieldDict V) (key : String) : Except PyErr (FieldDict V) :=
  if Dict.has d key then .ok (Dict.erase d key) else .error .keyError

/-- Reading the attribute `symbol`: `quantity.__get__` of the quantity declared under it
(dream/config.py:71-74). -/
def FieldDict.attrGet (sy : Symbols) (d : FieldDict V) (symbol : String) : Except PyErr (Option V) :=
  match sy.get? symbol with
  | some name => .ok (Dict.get? d name)
  | none => .error .attributeError

/-- `quantity.__set__` (dream/config.py:76-78). -/
def FieldDict.attrSet (sy : Symbols) (d : FieldDict V) (name : String) (v : Option V) :
    FieldDict V :=
  match v with
  | some v => d.setItem sy name v
  | none => d

/-- The inherited `MutableMapping.setdefault`: the value returned and the dictionary. -/
def FieldDict.setDefault (sy : Symbols) (d : FieldDict V) (key : String) (v : V) :
    V × FieldDict V :=
  match d.getItem key with
  | .ok w => (w, d)
  | .error _ => (v, d.setItem sy key v)

/-- What a user does with a field dictionary; attributes are given by symbol. -/
inductive FieldOp (V : Type)
  | setItem (key : String) (v : V)
  | delItem (key : String)
  | attrSet (symbol : String) (v : Option V)
  | attrDel (symbol : String)

/-- One operation; attributes exist for the symbols of the table only
(`AttributeError` is left out: other attributes are plain Python attributes). -/
def FieldDict.run (sy : Symbols) (d : FieldDict V) : FieldOp V → Except PyErr (FieldDict V)
  | .setItem k v => .ok (d.setItem sy k v)
  | .delItem k => d.delItem k
  | .attrSet s v => match sy.get? s with
    | some name => .ok (d.attrSet sy name v)
    | none => .ok d
  | .attrDel s => match sy.get? s with
    | some name => d.delItem name
    | none => .error .attributeError

/-! ## Output fields -/

/-- The default request (dream/compressible/formulations/conservative.py:860). -/
def defaultRequest : Dict String Bool := [("rho", true), ("u", true), ("p", true), ("T", true)]

/-- `dict.update`. -/
def dictUpdate {α : Type} (d e : Dict String α) : Dict String α :=
  e.foldl (fun (d : Dict String α) kv => d.set kv.1 kv.2) d

/-- One turn of the loop of `get_fields` (conservative.py:863-878): the fields collected and
the request left; the name is found as in `ngsKey` (conservative.py:868-870). -/
def getFieldsStep (sy : Symbols) (U : FieldDict V) (st : FieldDict V × Dict String Bool)
    (req : String × Bool) : FieldDict V × Dict String Bool :=
  if req.2 = false then st
  else
    let symbol := req.1
    let name := ngsKey sy symbol
    match Dict.get? U name with
    | none => st
    | some v =>
      let fields := st.1.setItem sy name v
      let quantities :=
        if st.2.has symbol then st.2.erase symbol
        else if st.2.has name then st.2.erase name
        else st.2
      (fields, quantities)

/-- `get_fields` (conservative.py:854-880) for the available fields `U`: the result, and the
request entries left over, which are reported as not predefined (dream/solver.py:407-413). -/
def getFields (sy : Symbols) (U : FieldDict V) (quantities : Dict String Bool) :
    FieldDict V × Dict String Bool :=
  (dictUpdate defaultRequest quantities).foldl (getFieldsStep sy U) ([], quantities)

end Dream
