import Verif.Model.Output

/-!
# dream/io.py: the switchboard of output streams

Stream objects live in a heap so that the object a user gets when reading an attribute
and the object that the solution routine uses can be compared.
-/

namespace Dream

/-- The attribute names of the streams (dream/io.py:862-884). -/
def SKind.attr : SKind → String
  | .log => "log" | .ngsmesh => "ngsmesh" | .gfu => "gfu"
  | .settings => "settings" | .vtk => "vtk" | .sensor => "sensor"

/-- Values a user may assign to a stream attribute. -/
inductive SwitchVal
  | bool (b : Bool)
  | str (s : String)
  | other

/-- A stream object: its options that differ from the defaults. Option values are
opaque numbers, their validation is not modelled here. -/
abbrev StreamObj := Dict String ℚ

/-- `IOConfiguration.data` (streams only) and the heap of stream objects; an object is
identified by its position in the heap. -/
structure IOState where
  data : Dict SKind ℕ
  heap : List StreamObj

/-- A fresh `IOConfiguration`: all streams are reset to their defaults
(dream/io.py:862-884), only `log` is on. -/
def IOState.init : IOState := ⟨[(.log, 0)], [[]]⟩

/-- `stream.__set__` (dream/io.py:70-81): the stream's own name counts as `True`, other
non-booleans raise; `True` always constructs a new stream, `False` deletes the entry. -/
def IOState.assign (s : IOState) (k : SKind) (v : SwitchVal) : Except PyErr IOState :=
  let v := match v with
    | .str n => if n = k.attr then SwitchVal.bool true else v
    | _ => v
  match v with
  | .bool true => .ok ⟨s.data.set k s.heap.length, s.heap ++ [[]]⟩
  | .bool false => .ok (if s.data.has k then ⟨s.data.erase k, s.heap⟩ else s)
  | _ => .error .valueError

/-- `stream.__get__` (dream/io.py:83-88): the object in use, or a new unrelated `Stream()`
if the stream is off. -/
def IOState.read (s : IOState) (k : SKind) : IOState × ℕ :=
  match s.data.get? k with
  | none => (⟨s.data, s.heap ++ [[]]⟩, s.heap.length)
  | some i => (s, i)

/-- `io.k.option = value`: read the attribute, then set an option of what was returned. -/
def IOState.configure (s : IOState) (k : SKind) (o : String) (x : ℚ) : IOState :=
  let r := s.read k
  ⟨r.1.data, r.1.heap.modify r.2 fun obj => obj.set o x⟩

/-- What a user can do to the switchboard. -/
inductive IOCmd
  | assign (k : SKind) (v : SwitchVal)
  | configure (k : SKind) (o : String) (x : ℚ)

/-- A history of user actions; a raising assignment leaves everything unchanged. -/
def IOState.run (s : IOState) : List IOCmd → IOState
  | [] => s
  | .assign k v :: cs =>
    match s.assign k v with
    | .ok s' => s'.run cs
    | .error _ => s.run cs
  | .configure k o x :: cs => (s.configure k o x).run cs

/-- The options of the stream that the routine will use, if it is on. -/
def IOState.options (s : IOState) (k : SKind) : Option StreamObj :=
  (s.data.get? k).bind fun i => s.heap[i]?

end Dream
