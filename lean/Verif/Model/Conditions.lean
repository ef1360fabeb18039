import Verif.Model.Dict

/-!
# dream/mesh.py: region patterns and conditions; the dispatch of conditions to formulations

Strings are modelled by lists of characters.
-/

namespace Dream

/-- A Python string. -/
abbrev Name := List Char

/-- `s.split("|")`. -/
def splitBar : Name → List Name
  | [] => [[]]
  | c :: cs =>
    if c = '|' then [] :: splitBar cs
    else match splitBar cs with
      | [] => [[c]]
      | w :: ws => (c :: w) :: ws

/-- A region pattern as accepted by the API: a string or a sequence of names. -/
inductive Pattern
  | str (s : Name)
  | seq (xs : List Name)

/-- `get_pattern_from_sequence` (dream/mesh.py:19-22); `"|".join` is `List.intercalate`. -/
def getPatternFromSequence : Pattern → Name
  | .str s => s
  | .seq xs => List.intercalate ['|'] xs

/-- The names in a pattern: `pattern.split("|")` if it is a string (dream/mesh.py:27-28,
534-535). -/
def Pattern.names : Pattern → List Name
  | .str s => splitBar s
  | .seq xs => xs

/-- `get_regions_from_pattern` (dream/mesh.py:25-32). -/
def getRegionsFromPattern (regions : List Name) (pattern : Pattern) : List Name :=
  pattern.names.filter fun r => r ∈ regions

/-- The condition classes (dream/mesh.py:247-476, dream/compressible/config.py:82-264). -/
inductive CondClass
  | condition | initial | perturbation | force | buffer | gridDeformation | spongeLayer
  | pspongeLayer | periodic | farfield | outflow | cbc | grcbc | nscbc | inviscidWall | symmetry
  | isothermalWall | adiabaticWall | pml
  deriving DecidableEq

/-- The class and its base classes, from the `class` statements. -/
def CondClass.bases : CondClass → List CondClass
  | .condition => [.condition]
  | .gridDeformation => [.gridDeformation, .buffer, .condition]
  | .spongeLayer => [.spongeLayer, .buffer, .condition]
  | .pspongeLayer => [.pspongeLayer, .spongeLayer, .buffer, .condition]
  | .grcbc => [.grcbc, .cbc, .condition]
  | .nscbc => [.nscbc, .cbc, .condition]
  | k => [k, .condition]

/-- A condition object: its identity and class. Conditions compare by identity
(dream/mesh.py:251-258). -/
structure Cond where
  id : ℕ
  cls : CondClass
  deriving DecidableEq

/-- `isinstance(c, k)`. -/
def Cond.isA (c : Cond) (k : CondClass) : Bool := k ∈ c.cls.bases

/-- `Conditions` (dream/mesh.py:480-485): the conditions of each region, and the options by
name. `next` is the identity of the next object that is created. -/
structure Conditions where
  data : Dict Name (List Cond)
  options : Dict Name CondClass
  next : ℕ := 0

/-- `dict.fromkeys(names)`: the names without repetitions, in order of first occurrence. -/
def fromKeys : List Name → List Name
  | [] => []
  | x :: xs => x :: (fromKeys xs).filter (· ≠ x)

/-- `BoundaryConditions.__init__`, `DomainConditions.__init__` with `Conditions.__init__`
(dream/mesh.py:482-485, 559-560, 582-583) for the region names of the mesh. -/
def Conditions.init (meshRegions : List Name) (options : Dict Name CondClass) : Conditions :=
  { data := (fromKeys meshRegions).map fun r => (r, []), options := options }

/-- The regions, i.e. the keys (`for region in self`). -/
def Conditions.regions (C : Conditions) : List Name := C.data.keys

/-- `self.data[region].append(condition)`. -/
def Conditions.append (C : Conditions) (r : Name) (c : Cond) : Conditions :=
  { C with data := C.data.map fun kv => if kv.1 = r then (kv.1, kv.2 ++ [c]) else kv }

/-- What can be assigned: a name of an option, a condition, or something else. -/
inductive CondValue
  | str (s : Name)
  | cond (c : Cond)
  | other

/-- `Conditions.__setitem__` (dream/mesh.py:522-550). Log messages and `condition.mesh` are not
modelled. -/
def Conditions.setItem (C : Conditions) (pattern : Pattern) (value : CondValue) :
    Except PyErr Conditions :=
  let assign (C : Conditions) (c : Cond) : Conditions :=
    (getRegionsFromPattern C.regions (.seq pattern.names)).foldl (fun C r => C.append r c) C
  match value with
  | .str s =>
    match C.options.get? s with
    | none => .error .valueError
    | some k => .ok (assign { C with next := C.next + 1 } ⟨C.next, k⟩)
  | .cond c => .ok (assign C c)
  | .other => .error .typeError

/-- `Conditions.clear` (dream/mesh.py:519-520). -/
def Conditions.clear (C : Conditions) : Conditions :=
  { C with data := C.regions.map fun r => (r, []) }

/-- `Conditions.get_region` (dream/mesh.py:487-491). -/
def Conditions.getRegion (C : Conditions) (types : List CondClass) : List Name :=
  (C.data.filter fun kv => kv.2.any fun c => types.any fun k => c.isA k).map Prod.fst

/-- `Conditions.has_condition` for a class (dream/mesh.py:493-502). -/
def Conditions.hasCondition (C : Conditions) (k : CondClass) : Bool :=
  (C.data.map Prod.snd).any fun container => container.any fun c => c.isA k

/-- `Conditions.has_condition` for a name: looked up in the options, `KeyError` if missing
(dream/mesh.py:495-496). -/
def Conditions.hasConditionNamed (C : Conditions) (s : Name) : Except PyErr Bool :=
  match C.options.get? s with
  | some k => .ok (C.hasCondition k)
  | none => .error .keyError

/-- `BoundaryConditions.get_periodic_boundaries` (dream/mesh.py:562-563). -/
def Conditions.getPeriodicBoundaries (C : Conditions) : List Name := C.getRegion [.periodic]

/-- `BoundaryConditions.get_domain_boundaries` (dream/mesh.py:565-577). -/
def Conditions.getDomainBoundaries (C : Conditions) : List Name :=
  (C.data.filter fun kv => !(kv.2.any fun c => c.isA .periodic) && !kv.2.isEmpty).map Prod.fst

/-- The conditions of class `k` assigned to some region. -/
def Conditions.assignedOf (C : Conditions) (k : CondClass) : List Cond :=
  (C.data.flatMap Prod.snd).filter fun c => c.isA k

/-- `regions` in `to_pattern` (dream/mesh.py:514). -/
def Conditions.regionsOf (C : Conditions) (c : Cond) : List Name :=
  (C.data.filter fun kv => c ∈ kv.2).map Prod.fst

/-- `order` is a possible iteration order of `unique_conditions` (dream/mesh.py:510-511), a set
of objects hashed by their address. -/
def Conditions.SetOrder (C : Conditions) (k : CondClass) (order : List Cond) : Prop :=
  order.Nodup ∧ ∀ c, c ∈ order ↔ c ∈ C.assignedOf k

/-- `Conditions.to_pattern` (dream/mesh.py:504-517) when the set is iterated in the given
order. -/
def Conditions.toPattern (C : Conditions) (order : List Cond) : Dict Name Cond :=
  order.foldl (fun d c => d.set (getPatternFromSequence (.seq (C.regionsOf c))) c) []

/-- The formulations of the HDG method. -/
inductive Formulation
  | farfield | cbc | outflow | inviscidWall | isothermalWall | adiabaticWall | sponge | psponge
  deriving DecidableEq

/-- One round of the loop in `add_boundary_conditions`
(dream/compressible/formulations/conservative.py:474-496); `none` is `continue`. -/
def dispatchBoundary (c : Cond) : Except PyErr (Option Formulation) :=
  if c.isA .farfield then .ok (some .farfield)
  else if c.isA .cbc then .ok (some .cbc)
  else if c.isA .outflow then .ok (some .outflow)
  else if c.isA .inviscidWall || c.isA .symmetry then .ok (some .inviscidWall)
  else if c.isA .isothermalWall then .ok (some .isothermalWall)
  else if c.isA .periodic then .ok none
  else if c.isA .adiabaticWall then .ok (some .adiabaticWall)
  else .error .typeError

/-- One round of the loop in `add_domain_conditions`
(dream/compressible/formulations/conservative.py:506-518). -/
def dispatchDomain (c : Cond) : Except PyErr (Option Formulation) :=
  if c.isA .spongeLayer then .ok (some .sponge)
  else if c.isA .pspongeLayer then .ok (some .psponge)
  else if c.isA .initial then .ok none
  else .error .typeError

/-- The loops of `add_boundary_conditions` and `add_domain_conditions`
(dream/compressible/formulations/conservative.py:464-518): the formulations that are added, with
their regions. -/
def addConditions (dispatch : Cond → Except PyErr (Option Formulation)) (d : Dict Name Cond) :
    Except PyErr (List (Formulation × Name × Cond)) := do
  let added ← d.mapM fun kv => do .ok ((← dispatch kv.2).map fun f => (f, kv.1, kv.2))
  .ok (added.filterMap id)

/-- `BCS` (dream/compressible/config.py:256). -/
def offeredBoundary : List CondClass :=
  [.farfield, .outflow, .grcbc, .nscbc, .inviscidWall, .symmetry, .isothermalWall, .adiabaticWall,
    .periodic]

/-- `DCS` (dream/compressible/config.py:267). -/
def offeredDomain : List CondClass :=
  [.pml, .force, .perturbation, .initial, .gridDeformation, .pspongeLayer, .spongeLayer]

end Dream
