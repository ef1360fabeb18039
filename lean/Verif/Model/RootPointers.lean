import Verif.Model.Dict
import Mathlib.Logic.Function.Basic

/-!
# dream/config.py: references of configurations to their root and mesh

Configuration objects are nodes of a heap. Only the references `cfg` (the root) and `mesh`, the
sub-configurations in `data`, and the sensors a sensor stream keeps in dictionaries inside `data` are modelled.
-/

namespace Dream.Ptr

/-- The address of a configuration object. -/
abbrev Ref := ℕ

/-- A `UniqueConfiguration`: `self.cfg`, `self.mesh`, the sub-configurations in `self.data`
and the objects in dictionaries inside `self.data` (dream/io.py:91-99). -/
structure Node where
  root : Ref
  mesh : Option ℕ
  kids : Dict String Ref
  sensors : List Ref

/-- The objects; addresses from `next` on are not in use. -/
structure Heap where
  next : ℕ
  node : Ref → Node

/-- The empty heap. -/
def Heap.empty : Heap := ⟨0, fun _ => ⟨0, none, [], []⟩⟩

/-- `cfg.cfg = root; cfg.mesh = mesh` for one object. -/
def Heap.point (h : Heap) (v : Ref) (root : Ref) (mesh : Option ℕ) : Heap :=
  { h with node := Function.update h.node v { h.node v with root := root, mesh := mesh } }

/-- `cfg.data[k] = v`. -/
def Heap.store (h : Heap) (p : Ref) (k : String) (v : Ref) : Heap :=
  { h with node := Function.update h.node p { h.node p with kids := (h.node p).kids.set k v } }

/-- One pass of the loop in `update_subconfigurations_recursively` (dream/config.py:259-264). -/
def syncStep (rec : Heap → Ref → Except PyErr Heap) (parent : Ref) (h : Heap) (e : String × Ref) :
    Except PyErr Heap :=
  rec (h.point e.2 (h.node parent).root (h.node parent).mesh) e.2

/-- `update_subconfigurations_recursively` (dream/config.py:257-264). The number is the
recursion depth that is left; when it is used up Python raises `RecursionError`. -/
def sync : ℕ → Heap → Ref → Except PyErr Heap
  | 0, _, _ => .error .runtime
  | n + 1, h, parent => (h.node parent).kids.foldlM (syncStep (sync n) parent) h

/-- Assigning an instance to an option, `unique.__set__` and `interface.__set__`
(dream/config.py:219-225, 273-279). -/
def attach (n : ℕ) (h : Heap) (p : Ref) (k : String) (v : Ref) : Except PyErr Heap :=
  match sync n (h.point v (h.node p).root (h.node p).mesh) v with
  | .error e => .error e
  | .ok h => .ok (h.store p k v)

/-- The sub-configurations a class creates in its constructor. -/
inductive Shape
  | node (options : List (String × Shape))

/-- A new object without options yet, `__init__` (dream/config.py:423-430): without `cfg` it is its
own root. -/
def alloc (h : Heap) (root : Option Ref) (mesh : Option ℕ) : Heap :=
  ⟨h.next + 1, Function.update h.node h.next ⟨root.getD h.next, mesh, [], []⟩⟩

mutual
/-- The constructor of a configuration class (dream/config.py:423-432 with `clear`, 405-408):
each option is reset to a new instance of its default class. The result is the address. -/
def construct (n : ℕ) : Shape → Option Ref → Option ℕ → Heap → Except PyErr (Ref × Heap)
  | .node options, root, mesh, h =>
    match resetAll n options h.next (alloc h root mesh) with
    | .error e => .error e
    | .ok h' => .ok (h.next, h')

/-- `clear` (dream/config.py:405-408) with `unique.reset` (254-255). -/
def resetAll (n : ℕ) : List (String × Shape) → Ref → Heap → Except PyErr Heap
  | [], _, h => .ok h
  | (k, sh) :: rest, p, h =>
    match construct n sh (some (h.node p).root) (h.node p).mesh h with
    | .error e => .error e
    | .ok (v, h) =>
      match attach n h p k v with
      | .error e => .error e
      | .ok h => resetAll n rest p h
end

/-- Selecting an option by name (dream/config.py:227-230, 281-284; streams, dream/io.py:70-81):
a new object with the references of the owner is stored. -/
def select (n : ℕ) (h : Heap) (p : Ref) (k : String) (sh : Shape) : Except PyErr Heap :=
  match construct n sh (some (h.node p).root) (h.node p).mesh h with
  | .error e => .error e
  | .ok (v, h) => .ok (h.store p k v)

/-- Adding a sensor to a sensor stream, `sensor.__set__` (dream/io.py:91-99) with
`PointSensor(sensor_name=name)` and the like (529-557): the new object has neither root nor mesh. The
first component is its address. -/
def addSensor (h : Heap) (p : Ref) : Ref × Heap :=
  let v := h.next
  let h := alloc h none none
  (v, { h with
    node := Function.update h.node p { h.node p with sensors := (h.node p).sensors ++ [v] } })

/-- `SensorStream.open` (dream/io.py:574-581): the sensors get the references of the stream. -/
def openSensors (h : Heap) (p : Ref) : Heap :=
  (h.node p).sensors.foldl (fun h v => h.point v (h.node p).root (h.node p).mesh) h

end Dream.Ptr
