import Verif.Model.Conditions
import Mathlib.Analysis.Real.Sqrt

/-!
# dream/io.py: sensors and their CSV files

A field is a name, the shape of its values (`cf.dims`) and its entries in row-major order
at every point. Integration over a region is an arbitrary function of the integrand.
-/

namespace Dream

noncomputable section

variable {Pt : Type}

/-- An entry of `Sensor.fields`: `dims` is `()` for scalars, `(n,)` for vectors, `(n, m)`
for matrices; `val x i` is the `i`-th entry at `x`. -/
structure SField (Pt : Type) where
  name : String
  dims : List ℕ
  val : Pt → ℕ → ℝ

/-- `cf.dim`. -/
def SField.dim (f : SField Pt) : ℕ := f.dims.prod

/-- `ngs.InnerProduct(cf, cf)`: a scalar. -/
def SField.inner (f : SField Pt) : SField Pt where
  name := f.name
  dims := []
  val x _ := ((List.range f.dim).map fun i => f.val x i ^ 2).sum

/-- The five sensor classes (dream/io.py:776-853). -/
inductive SensorKind
  | point | domain | domainL2 | boundary | boundaryL2
  deriving DecidableEq

def SensorKind.isL2 : SensorKind → Bool
  | .domainL2 | .boundaryL2 => true
  | _ => false

/-- Where a sensor measures: at a point or over the union of regions named by a pattern. -/
inductive Loc (Pt : Type)
  | point (p : Pt)
  | region (r : Name)

/-- The `regions` option of a region sensor (dream/io.py:735-737). -/
inductive RegionArg
  | none
  | str (s : Name)
  | seq (xs : List Name)
  | other

/-- `RegionSensor.set_regions` (dream/io.py:749-772): the keys of `_regions` and the new
value of the option. The warnings about missing regions are left out. -/
def setRegions (expected : List Name) : RegionArg → Except PyErr (List Name × RegionArg)
  | .none => .ok ([getPatternFromSequence (.seq expected)], .none)
  | .str s =>
    let regions := getRegionsFromPattern expected (.str s)
    let s' := getPatternFromSequence (.seq regions)
    .ok ([s'], .str s')
  | .seq xs =>
    let regions := xs.filter fun r => r ∈ expected
    .ok (fromKeys regions, .seq regions)
  | .other => .error .valueError

/-- An element of the mesh: of a boundary or of the volume, with the name of its region. -/
structure Elem where
  boundary : Bool
  region : Name

/-- The `definedon` argument of `ngs.Integrate` (dream/io.py:747): `None`, or
`mesh.Materials(pattern)` / `mesh.Boundaries(pattern)`. -/
inductive DefinedOn
  | none
  | region (boundary : Bool) (pattern : Name)

/-- The elements `ngs.Integrate(cf, mesh, definedon=d)` integrates over: without a region the
volume elements (its argument `VOL_or_BND` is `VOL` by default), otherwise the elements of the
regions matched by the pattern. Region names are taken literally; NGSolve reads
them as regular expressions. -/
def DefinedOn.covers : DefinedOn → Elem → Bool
  | .none, e => !e.boundary
  | .region b p, e => e.boundary == b && (splitBar p).contains e.region

/-- `RegionSensor.set_regions` with the values of `_regions` (dream/io.py:749-772):
`fregion` is `mesh.Materials` for domain sensors (784), `mesh.Boundaries` for boundary sensors
(811). -/
def regionDomains (boundary : Bool) (expected : List Name) (arg : RegionArg) :
    Except PyErr (List (Name × DefinedOn)) :=
  match arg, setRegions expected arg with
  | _, .error e => .error e
  | .none, .ok (locs, _) => .ok (locs.map fun r => (r, .none))
  | _, .ok (locs, _) => .ok (locs.map fun r => (r, .region boundary r))

/-- An opened sensor. `locs` are the points, or the keys of `_regions`. -/
structure Sensor (Pt : Type) where
  kind : SensorKind
  name : String
  rate : ℕ
  fields : List (SField Pt)
  locs : List (Loc Pt)

/-- The fields a sensor evaluates, `_fields` (dream/io.py:685-692, 790-792, 820-823). -/
def Sensor.openFields (s : Sensor Pt) : List (SField Pt) :=
  if s.kind.isL2 then s.fields.map SField.inner else s.fields

/-- `Sensor.open` (dream/io.py:682-692): refuses sensors without fields. -/
def Sensor.open (s : Sensor Pt) : Except PyErr Unit :=
  if s.openFields.isEmpty then .error .valueError else .ok ()

/-- `Sensor.get_components_name` (dream/io.py:707-718) with the component names of
dream/bla.py:15-17; the L2 sensors override it (dream/io.py:798-799, 829-830). -/
def componentNames (l2 : Bool) (f : SField Pt) : List String :=
  if l2 then ["L2"]
  else if f.dims = [] then [" "]
  else if f.dims.length = 1 ∧ f.dim ≤ 3 then ["x", "y", "z"].take f.dim
  else if f.dims.length = 2 ∧ f.dim ≤ 9 then
    if f.dims = [2, 2] then ["xx", "xy", "yx", "yy"]
    else ["xx", "xy", "xz", "yx", "yy", "yz", "zx", "zy", "zz"]
  else (List.range f.dim).map toString

/-- A cell of a CSV row. -/
inductive Cell (Pt : Type)
  | text (s : String)
  | loc (l : Loc Pt)
  | num (v : ℝ)
  | time (t : ℝ)

/-- `value * n` for a list. -/
def repeatList {α : Type} (n : ℕ) (l : List α) : List α := (List.replicate n l).flatten

/-- `Sensor.get_header` (dream/io.py:697-705): field and component rows for one location. -/
def baseHeader (l2 : Bool) (fields : List (SField Pt)) : List String × List String :=
  (fields.flatMap fun f => List.replicate f.dim f.name,
   fields.flatMap fun f => componentNames l2 f)

/-- The dimension of the compound field `ngs.CF(tuple(fields.values()))`. -/
def compoundDim (fields : List (SField Pt)) : ℕ := (fields.map SField.dim).sum

/-- `get_header` of point and region sensors (dream/io.py:739-743, 849-853). -/
def Sensor.getHeader (s : Sensor Pt) : List (String × List (Cell Pt)) :=
  let key := if s.kind = .point then "point" else "region"
  let base := baseHeader s.kind.isL2 s.openFields
  [(key, s.locs.flatMap fun l => List.replicate (compoundDim s.openFields) (Cell.loc l)),
   ("field", repeatList s.locs.length (base.1.map Cell.text)),
   ("component", repeatList s.locs.length (base.2.map Cell.text))]

/-- `SensorStream.get_header` (dream/io.py:602-612). -/
def streamHeader (stationary : Bool) (s : Sensor Pt) :
    Except PyErr (List (String × List (Cell Pt))) :=
  let header := s.getHeader
  let n := ((Dict.get? header "field").getD []).length
  if header.any fun kv => kv.2.length ≠ n then .error .valueError
  else .ok (if stationary then header else header ++ [("t", List.replicate n (Cell.text " "))])

/-- The components of the compound field at a point. -/
def compound (fields : List (SField Pt)) (x : Pt) : List ℝ :=
  fields.flatMap fun f => (List.range f.dim).map (f.val x)

/-- `ngs.Integrate(self._field, ...)` over a region, component by component, for an
arbitrary `integrate`. -/
def integrals (integrate : (Pt → ℝ) → Name → ℝ) (fields : List (SField Pt)) (r : Name) : List ℝ :=
  fields.flatMap fun f => (List.range f.dim).map fun i => integrate (fun x => f.val x i) r

/-- `measure` of a sensor at one location (dream/io.py:745-747, 794-796, 825-827,
845-847) as an array. `scalarIntegral` tells whether NGSolve returns a plain number
for the integral of a one-component field; that makes a zero-dimensional array, which
`np.concatenate` refuses. -/
def Sensor.measureAt (s : Sensor Pt) (integrate : (Pt → ℝ) → Name → ℝ) (scalarIntegral : Bool) :
    Loc Pt → Except PyErr (List ℝ)
  | .point p => .ok (compound s.openFields p)
  | .region r =>
    let a := integrals integrate s.openFields r
    if scalarIntegral ∧ compoundDim s.openFields = 1 then .error .valueError
    else .ok (if s.kind.isL2 then a.map Real.sqrt else a)

/-- One turn of `SensorStream.measure` (dream/io.py:647-649): `np.concatenate` of an empty
list raises. -/
def Sensor.measure (s : Sensor Pt) (integrate : (Pt → ℝ) → Name → ℝ) (scalarIntegral : Bool) :
    Except PyErr (List ℝ) :=
  if s.locs.isEmpty then .error .valueError
  else (s.locs.mapM (s.measureAt integrate scalarIntegral)).map List.flatten

/-- The header rows (dream/io.py:596-598). -/
def headerRows (h : List (String × List (Cell Pt))) : List (List (Cell Pt)) :=
  h.map fun kv => Cell.text kv.1 :: kv.2

/-- A data row (dream/io.py:614-637): `[t, *data]`, or `data` if there is no time. -/
def dataRow (t : Option ℝ) (data : List ℝ) : List (Cell Pt) :=
  match t with
  | some t => Cell.time t :: data.map Cell.num
  | none => data.map Cell.num

/-! ## Files -/

/-- What happens to files; `h` numbers the file objects. -/
inductive CsvEv (Row : Type)
  | opened (h : ℕ) (file : String)
  | row (h : ℕ) (r : Row)
  | closed (h : ℕ)

/-- `SensorStream.open_csv_writers` (dream/io.py:588-600), from file object `h` on, with
`csv` filled so far: result and events. Every sensor is its name and its header rows. -/
def openCsv {Row : Type} (write : Bool) :
    List (String × Except PyErr (List Row)) → ℕ → Dict String ℕ →
      Except PyErr (Dict String ℕ) × List (CsvEv Row)
  | [], _, csv => (.ok csv, [])
  | (name, header) :: rest, h, csv =>
    let ev := CsvEv.opened h (name ++ ".csv")
    match (if write then header else .ok []) with
    | .error e => (.error e, [ev])
    | .ok rows =>
      let r := openCsv write rest (h + 1) (csv.set name h)
      (r.1, ev :: rows.map (CsvEv.row h) ++ r.2)

/-- One saving hook (dream/io.py:614-637): all sensors are measured in order, and a row is
written for those that are due. Every sensor is its name and the row, if one is due. -/
def writeCsv {Row : Type} (csv : Dict String ℕ) :
    List (String × Except PyErr (Option Row)) → Except PyErr Unit × List (CsvEv Row)
  | [] => (.ok (), [])
  | (_, .error e) :: _ => (.error e, [])
  | (_, .ok none) :: rest => writeCsv csv rest
  | (name, .ok (some r)) :: rest =>
    match csv.get? name with
    | none => (.error .keyError, [])
    | some h =>
      let w := writeCsv csv rest
      (w.1, CsvEv.row h r :: w.2)

/-- `SensorStream.close` (dream/io.py:651-655). -/
def closeCsv {Row : Type} (csv : Dict String ℕ) : List (CsvEv Row) :=
  csv.map fun kv => CsvEv.closed kv.2

end

end Dream
