import Verif.Model.Sensors
import Verif.Model.Output

/-!
# dream/io.py: reading the table of a sensor back
-/

namespace Dream

noncomputable section

variable {Pt : Type}

/-- What `pandas.read_csv` returns: the names of the levels of the column labels, the column
labels, the index, and the entries (`none` is a missing value). -/
structure Frame (Pt : Type) where
  levels : List (Option (Cell Pt))
  columns : List (List (Option (Cell Pt)))
  index : List (Option (Cell Pt))
  rows : List (List (Option (Cell Pt)))

/-- `pandas.read_csv(file, header=[0, …, n - 1], index_col=[0])` on a file whose lines are split into
cells. Lines of the header must have the same length and data lines must not be longer (pandas raises
`ParserError`, a `ValueError`); missing cells at the end of a line are missing values. The special
treatment of a line of blanks after the header (as names of the index) is left out: a data line
contains numbers. -/
def readCsv (n : ℕ) (lines : List (List (Cell Pt))) : Except PyErr (Frame Pt) :=
  let heads := lines.take n
  let data := lines.drop n
  let width := (heads.headD []).length
  if heads.length < n then .error .valueError
  else if heads.any fun r => r.length ≠ width then .error .valueError
  else if data.any fun r => width < r.length then .error .valueError
  else .ok
    { levels := heads.map fun r => r[0]?
      columns := (List.range (width - 1)).map fun j => heads.map fun r => r[j + 1]?
      index := data.map fun r => r[0]?
      rows := data.map fun r => (List.range (width - 1)).map fun j => r[j + 1]? }

/-- `SensorStream.load_as_dataframe` with its default arguments (dream/io.py:639-645): four header
lines and one index column. -/
def loadAsDataframe (lines : List (List (Cell Pt))) : Except PyErr (Frame Pt) := readCsv 4 lines

/-- A field whose values depend on the state of the solution, numbered by the completed updates. -/
structure SFieldT (Pt : Type) where
  name : String
  dims : List ℕ
  val : ℕ → Pt → ℕ → ℝ

/-- A sensor during a run. -/
structure SensorT (Pt : Type) where
  kind : SensorKind
  name : String
  rate : ℕ
  fields : List (SFieldT Pt)
  locs : List (Loc Pt)

/-- The values of a field in the state after `n` updates. -/
def SFieldT.at (f : SFieldT Pt) (n : ℕ) : SField Pt := ⟨f.name, f.dims, f.val n⟩

/-- What the sensor measures in the state after `n` updates. -/
def SensorT.at (S : SensorT Pt) (n : ℕ) : Sensor Pt :=
  ⟨S.kind, S.name, S.rate, S.fields.map fun f => f.at n, S.locs⟩

/-- The lines of the file of a sensor whose measurements are `data` and whose records are those of
`sensorHooks` (dream/io.py:588-637), header first. -/
def sensorLines (h : List (String × List (Cell Pt))) (data : ℕ → List ℝ)
    (rs : List (Option ℚ × ℕ)) : List (List (Cell Pt)) :=
  headerRows h ++ rs.map fun r => dataRow (r.1.map fun t => (t : ℝ)) (data r.2)

end

end Dream
