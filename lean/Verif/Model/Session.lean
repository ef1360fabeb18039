import Verif.Model.Transient
import Verif.Model.Output

/-!
# dream/solver.py, dream/time.py, dream/io.py: several runs of one solver, and restarts

What a user's script does with a transient solver: set the timer, load saved gridfunctions, solve,
and so on. The solution routine is that of `Model/Transient.lean` together with what the
gridfunction stream writes (`Model/Output.lean`).
-/

noncomputable section

namespace Dream

variable {ι X Y : Type}

/-- A transient solver set up by a user: the discretised problem, the scheme, the nonlinear
solver, the name `fes` of the variable differentiated in time, and the gridfunction stream
(`none` if it is off, else `rate` and `time_level_rate`). `put v x` overwrites the component of
that variable in `cfg.gfu.vec`: the level `'n+1'` and the solution share their memory
(dream/time.py:98-100). -/
structure Script (ι X Y : Type) where
  P : Problem ι X Y
  s : Scheme
  N : Newton X Y
  fes : String
  put : (ι → ℝ) → X → X
  stream : Option (ℕ × ℕ)

/-- The process in which a script runs, with the files of the gridfunction stream. A file holds
all unknowns or one time level. -/
structure Session (ι X : Type) where
  timer : Timer
  run : RunState ι X
  files : Dict GFile (X ⊕ (ι → ℝ))

/-- A new process: default timer, and `SolverConfiguration.initialize` (dream/solver.py:358-367)
leads to the initial state `x0`; `files` is what earlier runs left in the folder. -/
def Script.start (c : Script ι X Y) (x0 : X) (files : Dict GFile (X ⊕ (ι → ℝ))) :
    Except PyErr (Session ι X) := do
  .ok ⟨Timer.default, ← transientInit c.P c.s x0, files⟩

/-- `GridfunctionStream.save_in_time_routine` (dream/io.py:426-439) in the state `st`, if the
stream is on. -/
def Script.save (c : Script ι X Y) (st : RunState ι X) (t : ℚ) (it : ℕ) :
    List (GFile × (X ⊕ (ι → ℝ))) :=
  match c.stream with
  | none => []
  | some (rate, tlRate) =>
    gfuSave rate tlRate (st.levels.map fun kv => (c.fes, kv.1)) (fun _ => .inl st.x)
      (fun _ _ l => .inr ((st.levels.get? l).getD fun _ => 0)) (some t) it 0

/-- `GridfunctionStream.save_post_time_routine` (dream/io.py:453-455). -/
def Script.savePost (c : Script ι X Y) (st : RunState ι X) (t : ℚ) (it : ℕ) :
    List (GFile × (X ⊕ (ι → ℝ))) :=
  match c.stream with
  | none => []
  | some (rate, _) => if ¬ it % rate = 0 then c.save st t 0 else []

section
variable [AddCommGroup X] [Module ℝ X] [Add Y] [Zero Y]

/-- The time loop (dream/time.py:313-323) from iteration `it`: what is yielded, what is written,
and the state it leaves behind. -/
def Script.loop (c : Script ι X Y) (dt : ℝ) : (it : ℕ) → List (ℚ × ℚ) → RunState ι X →
    Except PyErr (List (ℚ × X) × List (GFile × (X ⊕ (ι → ℝ))) × RunState ι X)
  | _, [], st => .ok ([], [], st)
  | it, (t, label) :: ts, st => do
    let st ← transientRound c.P c.s dt c.N st t
    let (ys, ws, last) ← Script.loop c dt (it + 1) ts st
    .ok ((label, st.x) :: ys, c.save st label it ++ ws, last)

/-- `SolverConfiguration.solve` (dream/solver.py:435-437), i.e. the whole of
`TransientConfig.start_solution_routine` (dream/time.py:303-326). The time parameter is left at
the last time; without any step `t` is unbound after the loop. -/
def Session.solve (c : Script ι X Y) (S : Session ι X) :
    Except PyErr (List (ℚ × X) × Session ι X) := do
  let ts ← S.timer.run false 1
  let (ys, ws, st) ← c.loop S.timer.step 0 ts S.run
  match ts.getLast? with
  | none => .error .unboundLocal
  | some (t, label) =>
    .ok (ys,
      { timer := { S.timer with t := t }, run := st,
        files := (c.save S.run S.timer.t 0 ++ ws ++ c.savePost st label (ts.length - 1)).foldl
          (fun d w => d.set w.1 w.2) S.files })

/-- `GridfunctionStream.load_routine(t)` (dream/io.py:389-395): all unknowns are overwritten, and
with them the level `'n+1'`; the older levels are not. -/
def Session.loadState (c : Script ι X Y) (S : Session ι X) (t : ℚ) : Except PyErr (Session ι X) :=
  match S.files.get? (.state (some t)) with
  | some (.inl x) => .ok { S with run := ⟨x, S.run.levels.set "n+1" (c.P.comp x)⟩ }
  | some (.inr _) => .error .runtime
  | none => .error .fileNotFound

/-- The loop of `GridfunctionStream.load_time_levels` (dream/io.py:420-424) over the levels. -/
def Session.loadLevelsLoop (c : Script ι X Y) (files : Dict GFile (X ⊕ (ι → ℝ))) (t : ℚ) :
    List String → RunState ι X → Except PyErr (RunState ι X)
  | [], st => .ok st
  | l :: ls, st =>
    match files.get? (.level t c.fes l) with
    | some (.inr v) =>
      Session.loadLevelsLoop c files t ls
        ⟨if l = "n+1" then c.put v st.x else st.x, st.levels.set l v⟩
    | some (.inl _) => .error .runtime
    | none => .error .fileNotFound

/-- `GridfunctionStream.load_time_levels(t)` (dream/io.py:415-424). -/
def Session.loadLevels (c : Script ι X Y) (S : Session ι X) (t : ℚ) :
    Except PyErr (Session ι X) := do
  .ok { S with run := ← Session.loadLevelsLoop c S.files t (S.run.levels.map Prod.fst) S.run }

/-- The statements of a script. -/
inductive Stmt
  | interval (s e : ℚ)
  | step (dt : ℚ)
  | loadState (t : ℚ)
  | loadLevels (t : ℚ)
  | solve

/-- One statement: what is yielded, and the process after it. -/
def Session.exec (c : Script ι X Y) (S : Session ι X) :
    Stmt → Except PyErr (List (ℚ × X) × Session ι X)
  | .interval s e => do .ok ([], { S with timer := ← S.timer.setInterval s e })
  | .step dt => .ok ([], { S with timer := S.timer.setStep dt })
  | .loadState t => do .ok ([], ← S.loadState c t)
  | .loadLevels t => do .ok ([], ← S.loadLevels c t)
  | .solve => S.solve c

/-- A script: everything its runs yield, one after the other, and the process after it. The first
exception ends it. -/
def Session.script (c : Script ι X Y) : List Stmt → Session ι X →
    Except PyErr (List (ℚ × X) × Session ι X)
  | [], S => .ok ([], S)
  | a :: as, S => do
    let (ys, S) ← S.exec c a
    let (zs, S) ← Session.script c as S
    .ok (ys ++ zs, S)

end
end Dream
