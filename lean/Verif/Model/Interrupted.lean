import Verif.Model.Session

/-!
# dream/time.py, dream/io.py: runs that are interrupted

The gridfunction files that are left behind if the process ends at some point of the transient
solution routine (it is killed, the machine fails, the caller abandons the generator), and what a
user does who then resumes the run from these files. The routine itself is that of
`Model/Session.lean`.
-/

noncomputable section

namespace Dream

variable {ι X Y : Type}

section
variable [AddCommGroup X] [Module ℝ X] [Add Y] [Zero Y]

/-- What the time loop (dream/time.py:313-325) writes from iteration `it`, the files of a step
together: `save_in_time_routine` after each step, then `save_post_time_routine` with the variables
of the last iteration. An exception in a step ends it. -/
def Script.stages (c : Script ι X Y) (dt : ℝ) : (it : ℕ) → List (ℚ × ℚ) → Option ℚ →
    RunState ι X → List (List (GFile × (X ⊕ (ι → ℝ))))
  | it, [], last, st =>
    match last with
    | none => []
    | some label => [c.savePost st label (it - 1)]
  | it, (t, label) :: ts, _, st =>
    match transientRound c.P c.s dt c.N st t with
    | .error _ => []
    | .ok st => c.save st label it :: Script.stages c dt (it + 1) ts (some label) st

/-- What `TransientConfig.start_solution_routine` (dream/time.py:303-326) writes, in its order:
`save_pre_time_routine`, then the loop. Stage `0` is before the first step, stage `k + 1` belongs
to step `k`, the one after the last step is `save_post_time_routine`. -/
def Session.stages (c : Script ι X Y) (S : Session ι X) : List (List (GFile × (X ⊕ (ι → ℝ)))) :=
  c.save S.run S.timer.t 0 ::
    match S.timer.run false 1 with
    | .error _ => []
    | .ok ts => c.stages S.timer.step 0 ts none S.run

/-- The files a process leaves that ends, in the solution routine (dream/time.py:303-326), after
`writes` files of the given stage have been written. `torn` says what becomes of the file whose
writing had begun (`gfu.Save`, dream/io.py:441-448): `none` if none had, else what the file then
contains, `none` if it does not exist at all. -/
def Session.killed (c : Script ι X Y) (S : Session ι X) (stage writes : ℕ)
    (torn : Option (Option (X ⊕ (ι → ℝ)))) : Dict GFile (X ⊕ (ι → ℝ)) :=
  let now := (S.stages c).getD stage []
  let d := (((S.stages c).take stage).flatten ++ now.take writes).foldl
    (fun d w => d.set w.1 w.2) S.files
  match now[writes]?, torn with
  | some w, some (some v) => d.set w.1 v
  | some w, some none => d.erase w.1
  | _, _ => d

/-- An interruption, and how the user resumes the run: the process ends in `stage`, after `writes`
files of it; a new process, whose initial conditions lead to `initial`, loads what was saved at the
step number `step` of the interrupted process, whose label is `label`. -/
structure Crash (ι X : Type) where
  stage : ℕ
  writes : ℕ
  torn : Option (Option (X ⊕ (ι → ℝ)))
  initial : X
  step : ℕ
  label : ℚ

/-- The run of the process `S`, which starts at the time `t`, is interrupted and resumed, again and
again, and then completed. A new process sets the step and the rest of the interval, calls
`load_routine` and `load_time_levels` (dream/io.py:389-424), and solves. Of what the processes
yield, only that of the last one is returned. -/
def Session.resumed (c : Script ι X Y) (h tEnd : ℚ) : ℚ → List (Crash ι X) → Session ι X →
    Except PyErr (List (ℚ × X) × Session ι X)
  | _, [], S => S.solve c
  | t, k :: ks, S => do
    let T ← c.start k.initial (S.killed c k.stage k.writes k.torn)
    let (_, T) ← Session.script c [.step h, .interval (t + ((k.step : ℚ) + 1) * h) tEnd,
      .loadState k.label, .loadLevels k.label] T
    Session.resumed c h tEnd (t + ((k.step : ℚ) + 1) * h) ks T

end
end Dream
