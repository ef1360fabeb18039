import Verif.Model.Session

/-!
# dream/io.py, dream/solver.py: the table of a sensor over several runs

The file of a sensor during a script that sets the timer, loads saved states and solves any number
of times. When its rows are written is decided by the hooks of `Model/Output.lean`; what is in a row
is a function of the state, so a row is modelled by its time and the state it was measured in.
-/

noncomputable section

namespace Dream

variable {ι X Y : Type}

/-- A line of the file of a sensor: the block of header lines, or a row with its time and the state
it was measured in. -/
inductive TableLine (X : Type)
  | header
  | row (t : Option ℚ) (x : X)

/-- A process with the file of one sensor. `append` tells whether `io.sensor.mode` is `'a'`; the
default is `'w'` (dream/io.py:559-561). Other modes are not modelled. -/
structure Recording (ι X : Type) where
  session : Session ι X
  append : Bool := false
  lines : List (TableLine X) := []

/-- The statements of a script, and setting `io.sensor.mode`. -/
inductive TableStmt
  | mode (append : Bool)
  | stmt (a : Stmt)

/-- The state after `n` updates of a run that started from `x` and yielded `ys`. -/
def stateAfter (x : X) (ys : List (ℚ × X)) : ℕ → X
  | 0 => x
  | n + 1 => (ys[n]?.map Prod.snd).getD x

section
variable [AddCommGroup X] [Module ℝ X] [Add Y] [Zero Y]

/-- One statement. Solving opens the file, which in mode `'w'` empties it and writes the header, in
mode `'a'` does not (dream/io.py:588-600), and adds the rows of the run (dream/io.py:614-637);
`streams` are the active streams. -/
def Recording.exec (c : Script ι X Y) (rate : ℕ) (streams : List SKind) (R : Recording ι X) :
    TableStmt → Except PyErr (List (ℚ × X) × Recording ι X)
  | .mode a => .ok ([], { R with append := a })
  | .stmt .solve => do
    let (ys, S) ← R.session.solve c
    let rows := (records (sensorHooks rate) .sensor 0
      (transientRoutine (fun _ => none) streams false R.session.timer).trace).map
        fun r => TableLine.row r.1 (stateAfter R.session.run.x ys r.2)
    .ok (ys, { R with session := S, lines := (if R.append then R.lines else [.header]) ++ rows })
  | .stmt a => do
    let (ys, S) ← R.session.exec c a
    .ok (ys, { R with session := S })

/-- A script: everything it yields, and the process and file after it. -/
def Recording.script (c : Script ι X Y) (rate : ℕ) (streams : List SKind) :
    List TableStmt → Recording ι X → Except PyErr (List (ℚ × X) × Recording ι X)
  | [], R => .ok ([], R)
  | a :: as, R => do
    let (ys, R) ← R.exec c rate streams a
    let (zs, R) ← Recording.script c rate streams as R
    .ok (ys ++ zs, R)

end

end Dream
