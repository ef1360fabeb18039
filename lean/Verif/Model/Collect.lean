import Verif.Model.Dict
import Mathlib.Data.List.Basic

/-!
# dream/io.py: what is registered for output

The sensors assigned to the sensor stream, and the fields and elements of the VTK stream.
-/

namespace Dream

/-- The descriptors of kind `sensor` of `SensorStream`, in the order of their definition
(dream/io.py:530-558). -/
inductive ProbeKind
  | point | domain | domainL2 | boundary | boundaryL2
  deriving DecidableEq

/-- `SensorStream.get_configurations(sensor)` (dream/config.py:348-350, dream/io.py:529-558). -/
def probeKinds : List ProbeKind := [.point, .domain, .domainL2, .boundary, .boundaryL2]

/-- What is assigned to such a descriptor: a string, or anything else. -/
inductive ProbeArg
  | str (s : String)
  | other
  deriving DecidableEq

/-- `cfg.data`, restricted to the sensors; objects are numbers. -/
abbrev Probes := Dict ProbeKind (Dict String ℕ)

/-- `SensorStream.point`, `domain`, `domain_L2`, `boundary`, `boundary_L2`
(dream/io.py:529-558): a new sensor object for a string, `None` for anything else. -/
def newProbe (fresh : ℕ) : ProbeArg → Option (String × ℕ)
  | .str s => some (s, fresh)
  | .other => none

/-- `sensor.__set__` (dream/io.py:92-99); `fresh` is the object created. -/
def Probes.assign (d : Probes) (k : ProbeKind) (a : ProbeArg) (fresh : ℕ) : Probes :=
  let d := if d.has k then d else d.set k []
  match newProbe fresh a with
  | some (name, obj) => d.set k (((d.get? k).getD []).set name obj)
  | none => d

/-- A new stream: every descriptor is reset to its default `None` (dream/config.py:170-171, 404-408, 424-433). -/
def Probes.init : Probes := probeKinds.foldl (fun d k => d.assign k .other 0) []

/-- A history of assignments; the `i`-th creates the object `i`. -/
def Probes.run (hist : List (ProbeKind × ProbeArg)) : Probes :=
  hist.zipIdx.foldl (fun d x => d.assign x.1.1 x.1.2 x.2) Probes.init

/-- The sensors used in a run: `SensorStream.open` (dream/io.py:574-576), with kind and name. -/
def Probes.sensors (d : Probes) : List (ProbeKind × String × ℕ) :=
  probeKinds.flatMap fun k => ((d.get? k).getD []).map fun x => (k, x.1, x.2)

section Vtk
variable {V C S Mat : Type}

/-- `VTKStream.fields` (dream/io.py:299-303): the keyword arguments are entered one by one into an
`ngsdict`, which has no symbols, and cast to coefficient functions. -/
def vtkFields (cast : V → C) (fields : Option (Dict String V)) : Dict String C :=
  ((fields.getD []).foldl (fun d kv => Dict.set d kv.1 (cast kv.2)) [])

/-- The open VTK stream: what is handed to `VTKOutput`, and `drawelems`. -/
structure VtkWriter (C : Type) where
  names : List String
  coefs : List C
  drawelems : Option (List Bool)

/-- `VTKStream.open` (dream/io.py:312-328): `mats` are the materials of the elements by number,
`region` tells which materials match the pattern. -/
def vtkOpen (fields : Dict String C) (region : Option (Mat → Bool)) (mats : List Mat) :
    Except PyErr (VtkWriter C) :=
  if fields.isEmpty then .error .valueError
  else
    let draw := region.map fun sel =>
      ((List.range mats.length).filter fun i => (mats[i]?.map sel).getD false).foldl
        (fun b i => b.set i true) (List.replicate mats.length false)
    .ok { names := fields.keys, coefs := fields.map Prod.snd, drawelems := draw }

/-- `writer.Do(t, drawelems=…)` (NGSolve): for all elements, or those whose bit is set, the values of
the functions in the present state `s`, under their names. -/
def VtkWriter.content {E : Type} (w : VtkWriter C) (eval : C → S → ℕ → E) (ne : ℕ) (s : S) :
    List (ℕ × String × E) :=
  ((List.range ne).filter fun i => match w.drawelems with
    | none => true
    | some b => b.getD i false).flatMap fun i =>
      (w.names.zip w.coefs).map fun x => (i, x.1, eval x.2 s i)

end Vtk

end Dream
