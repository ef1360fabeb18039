import Verif.Model.Time
import Verif.Model.Dict

/-!
# dream/io.py and dream/time.py: output streams and solution routines

A solution routine is a Python generator that performs a sequence of operations on
the streams and on the solver, any of which may raise.  It is modelled as a
computation that records every operation it starts (`Run`); an oracle decides which
operation raises.  At a `yield` the consumer may abandon the generator, which raises
`GeneratorExit` there, so this is the oracle's decision at the operation `yield_`.
-/

namespace Dream

/-- The streams of `IOConfiguration` (dream/io.py:862-884). -/
inductive SKind
  | log | ngsmesh | gfu | settings | vtk | sensor
  deriving DecidableEq, Repr

/-- What can interrupt a generator: a Python exception or being abandoned. -/
inductive Exc
  | py (e : PyErr)
  | generatorExit
  deriving DecidableEq

/-- The operations of a solution routine. `t = none` is Python's `None`. -/
inductive Op
  | assemble
  | open (s : SKind)
  | pre (s : SKind) (t : Option ℚ)
  | solve (it : ℕ)
  | update (it : ℕ)
  | yield_ (it : ℕ)
  | inStep (s : SKind) (t : ℚ) (it : ℕ)
  | iteration (it : ℕ)
  | redraw
  | post (s : SKind) (t : Option ℚ) (it : ℕ)
  | close (s : SKind)
  deriving DecidableEq

/-- A finished computation: its result and the operations it started, in order. -/
structure Run (α : Type) where
  result : Except Exc α
  trace : List Op

namespace Run
/-- `return a` -/
protected def pure {α} (a : α) : Run α := ⟨.ok a, []⟩
/-- Sequencing: nothing of the continuation happens after an exception. -/
protected def bind {α β} (r : Run α) (f : α → Run β) : Run β :=
  match r.result with
  | .ok a => ⟨(f a).result, r.trace ++ (f a).trace⟩
  | .error e => ⟨.error e, r.trace⟩
instance : Monad Run where
  pure := Run.pure
  bind := Run.bind
/-- `raise e` -/
def throw {α} (e : Exc) : Run α := ⟨.error e, []⟩
/-- Start the operation `o`; `O o` says whether it raises. -/
def op (O : Op → Option Exc) (o : Op) : Run Unit :=
  match O o with
  | none => ⟨.ok (), [o]⟩
  | some e => ⟨.error e, [o]⟩
end Run

open Run

/-! ## IOConfiguration -/

/-- `IOConfiguration.open` (dream/io.py:907-916): the activated streams, in the order
of the dictionary, are opened and sorted into single and file streams. Streams of
other classes (the log) are ignored. -/
def ioOpen (O : Op → Option Exc) (data : List SKind) : Run (List SKind × List SKind) :=
  data.foldlM (init := ([], [])) fun acc s =>
    match s with
    | .ngsmesh | .settings => do op O (.open s); return (acc.1 ++ [s], acc.2)
    | .vtk | .gfu | .sensor => do op O (.open s); return (acc.1, acc.2 ++ [s])
    | .log => return acc

/-- `IOConfiguration.save_pre_time_routine` (dream/io.py:918-923).
`save_pre_time_routine` of `MeshStream` and `SettingsStream` (dream/io.py:184, 219)
takes no argument, so the call with `t` raises `TypeError` before the method starts. -/
def ioPre (O : Op → Option Exc) (single file : List SKind) (t : Option ℚ) : Run Unit := do
  single.forM fun _ => Run.throw (.py .typeError)
  file.forM fun s => op O (.pre s t)

/-- `IOConfiguration.save_in_time_routine` (dream/io.py:925-927). -/
def ioIn (O : Op → Option Exc) (file : List SKind) (t : ℚ) (it : ℕ) : Run Unit :=
  file.forM fun s => op O (.inStep s t it)

/-- `IOConfiguration.save_post_time_routine` (dream/io.py:929-931). -/
def ioPost (O : Op → Option Exc) (file : List SKind) (t : Option ℚ) (it : ℕ) : Run Unit :=
  file.forM fun s => op O (.post s t it)

/-- `IOConfiguration.close` (dream/io.py:933-935). -/
def ioClose (O : Op → Option Exc) (file : List SKind) : Run Unit :=
  file.forM fun s => op O (.close s)

/-- `with self.cfg.io as io: body` (dream/io.py:937-942): if `open` raises, `close` is
not called; otherwise `close` runs after the body, however the body ends. The body's
exception is re-raised after a successful `close`, an exception in `close` replaces it. -/
def withIO {α} (O : Op → Option Exc) (data : List SKind)
    (body : List SKind → List SKind → Run α) : Run α :=
  (ioOpen O data).bind fun sf =>
    let b := body sf.1 sf.2
    let c := ioClose O sf.2
    ⟨c.result.bind fun _ => b.result, b.trace ++ c.trace⟩

/-! ## Solution routines -/

/-- `if reassemble: self.assemble()` (dream/time.py:263-264, 306-307, 370-371). -/
def assembleIf (O : Op → Option Exc) (reassemble : Bool) : Run Unit :=
  if reassemble then op O .assemble else pure ()

/-- `StationaryConfig.start_solution_routine` (dream/time.py:261-274). The class and
its bases define no method `solve`, so `self.solve()` raises `AttributeError`. -/
def stationaryRoutine (O : Op → Option Exc) (data : List SKind) (reassemble : Bool) : Run Unit := do
  assembleIf O reassemble
  withIO O data fun single file => do
    ioPre O single file none
    let _ : Unit ← Run.throw (.py .attributeError)
    op O (.yield_ 0)
    ioPost O file none 0

/-- One pass of the loop of `TransientConfig.start_solution_routine`
(dream/time.py:313-323). The iterations of the nonlinear solver are one operation. -/
def transientStep (O : Op → Option Exc) (file : List SKind) (it : ℕ) (t : ℚ) : Run Unit := do
  op O (.solve it)
  op O (.update it)
  op O (.yield_ it)
  ioIn O file t it
  op O .redraw

/-- `TransientConfig.start_solution_routine` (dream/time.py:304-326). `t0` is the value
of the timer's parameter before the run. The labels `self.timer()` yields are those of
`Timer.run` with stride 1. The loop variables keep their last value after the loop and
are unbound if it never ran. -/
def transientRoutine (O : Op → Option Exc) (data : List SKind) (reassemble : Bool)
    (tm : Timer) : Run Unit := do
  assembleIf O reassemble
  withIO O data fun single file => do
    ioPre O single file (some tm.t)
    match tm.run false 1 with
    | .error e => Run.throw (.py e)
    | .ok ts =>
      let last ← (ts.map Prod.snd).zipIdx.foldlM (init := none) fun _ tit => do
        transientStep O file tit.2 tit.1
        return some tit
      match last with
      | none => Run.throw (.py .unboundLocal)
      | some (t, it) => ioPost O file (some t) it

/-- `PseudoTimeSteppingConfig.start_solution_routine` (dream/time.py:368-389) when the
nonlinear solver performs `n` iterations. -/
def pseudoRoutine (O : Op → Option Exc) (data : List SKind) (reassemble : Bool)
    (t : ℚ) (n : ℕ) : Run Unit := do
  assembleIf O reassemble
  withIO O data fun single file => do
    ioPre O single file (some t)
    (List.range n).forM fun it => do
      op O (.solve it)
      op O (.update it)
      op O (.iteration it)
      op O .redraw
    op O (.yield_ 0)
    ioIn O file t 0
    op O .redraw
    ioPost O file (some t) 0

/-! ## What the streams write

A hook is called with the number `n` of updates completed so far, which identifies the
state that it writes. -/

/-- What a stream does with the three saving hooks. -/
structure Hooks (ρ : Type) where
  pre : Option ℚ → ℕ → List ρ
  inStep : ℚ → ℕ → ℕ → List ρ
  post : Option ℚ → ℕ → ℕ → List ρ

/-- The records of stream `s` during a run with the given trace; `n` counts the
completed updates. -/
def records {ρ} (h : Hooks ρ) (s : SKind) : ℕ → List Op → List ρ
  | _, [] => []
  | n, o :: os =>
    match o with
    | .update _ => records h s (n + 1) os
    | .pre s' t => (if s' = s then h.pre t n else []) ++ records h s n os
    | .inStep s' t it => (if s' = s then h.inStep t it n else []) ++ records h s n os
    | .post s' t it => (if s' = s then h.post t it n else []) ++ records h s n os
    | _ => records h s n os

/-- `VTKStream` (dream/io.py:330-343): the calls `writer.Do(t)`, with the state written. -/
def vtkHooks (rate : ℕ) : Hooks (ℚ × ℕ) where
  pre t n := match t with
    | none => [(-1, n)]
    | some t => [(t, n)]
  inStep t it n := if it % rate = 0 then [(t, n)] else []
  post t it n := match t with
    | none => [(-1, n)]
    | some t => if ¬ it % rate = 0 then [(t, n)] else []

/-- `SensorStream` (dream/io.py:614-637) for one sensor with the given rate and CSV
output: the rows, as time cell (absent if `t is None`) and the state measured. -/
def sensorHooks (rate : ℕ) : Hooks (Option ℚ × ℕ) where
  pre t n := match t with
    | some t => [(some t, n)]
    | none => [(none, n)]
  inStep t it n := if it % rate = 0 then [(some t, n)] else []
  post t it n := match t with
    | none => [(none, n)]
    | some t => if ¬ it % rate = 0 then [(some t, n)] else []

/-- The files of a `GridfunctionStream`: the state file `{filename}_{t}.ngs` (or
`{filename}.ngs`) and the time level files `{filename}_{t}_{fes}_{level}.ngs`
(dream/io.py:389-395, 426-448). File names are kept structured, i.e. the printed
number identifies the number. -/
inductive GFile
  | state (t : Option ℚ)
  | level (t : ℚ) (fes level : String)
  deriving DecidableEq

/-- `GridfunctionStream.save_in_time_routine` (dream/io.py:426-439): files written and
what is stored in them. `levels` lists the pairs `(fes, level)` of
`cfg.time.scheme.gfus`, `gfu n` is the vector of `cfg.gfu` and `lev n f l` that of the
level `l` of `f` after `n` steps. -/
def gfuSave {V} (rate tlRate : ℕ) (levels : List (String × String)) (gfu : ℕ → V)
    (lev : ℕ → String → String → V) (t : Option ℚ) (it n : ℕ) : List (GFile × V) :=
  (match t with
    | some t => if it % tlRate = 0 then
        levels.map fun fl => (GFile.level t fl.1 fl.2, lev n fl.1 fl.2) else []
    | none => []) ++
  (if it % rate = 0 then [(GFile.state t, gfu n)] else [])

/-- `GridfunctionStream` hooks (dream/io.py:426-455). -/
def gfuHooks {V} (rate tlRate : ℕ) (levels : List (String × String)) (gfu : ℕ → V)
    (lev : ℕ → String → String → V) : Hooks (GFile × V) where
  pre t n := gfuSave rate tlRate levels gfu lev t 0 n
  inStep t it n := gfuSave rate tlRate levels gfu lev (some t) it n
  post t it n := if t = none ∨ ¬ it % rate = 0 then
    gfuSave rate tlRate levels gfu lev t 0 n else []

/-- The file system after a list of writes: later writes replace earlier ones. -/
def fileSystem {V} (ws : List (GFile × V)) : Dict GFile V :=
  ws.foldl (fun d w => d.set w.1 w.2) []

/-- `GridfunctionStream.load_transient_routine` (dream/io.py:397-413): the labels it
yields with the state loaded at each, until the first missing file (`gfu.Load` raises).
Only for transient configurations. -/
def loadTransient {V} (fs : Dict GFile V) (tm : Timer) (rate : ℕ) :
    Except PyErr (List (ℚ × V)) := do
  let ts ← tm.run false rate
  ts.mapM fun tl => match fs.get? (.state (some tl.2)) with
    | none => .error .fileNotFound
    | some v => .ok (tl.2, v)

/-- `GridfunctionStream.load_time_levels` (dream/io.py:415-424): what is loaded into
every time level. -/
def loadTimeLevels {V} (fs : Dict GFile V) (levels : List (String × String)) (t : ℚ) :
    Except PyErr (List ((String × String) × V)) :=
  levels.mapM fun fl => match fs.get? (.level t fl.1 fl.2) with
    | none => .error .fileNotFound
    | some v => .ok (fl, v)

end Dream
