import Verif.Model.Transient

/-!
# dream/solver.py, dream/time.py, dream/config.py: when settings are read

A transient solver whose settings are changed, whose parts are replaced and which is initialised
and run in any order. Objects matter here: parameters are objects that the symbolic forms refer
to, gridfunctions are created anew by every `initialize`, and the nonlinear solver keeps the form
and the gridfunction it was given by the last assembly.
-/

noncomputable section

namespace Dream

variable {ι X Y O A : Type}

/-- What the settings decide. `O` are all options that are read while spaces and forms are set up
(order, Riemann solver, viscosity, scaling, conditions, …: dream/solver.py:358-405), `A` those
read when the form is assembled (static condensation, compilation: dream/time.py:118-135).
`spatial o v` are the spatial forms with options `o` and parameter values `v` (the time is a
parameter too), `mass` the time form, `comp` the variable differentiated in time, `initial` the
initial state, `lin` the linear solver. -/
structure Kit (ι X Y O A : Type) where
  spatial : O → (String → ℚ) → X → Y
  mass : O → (ι → ℝ) → Y
  comp : X → ι → ℝ
  initial : O → (String → ℚ) → X
  lin : A → (X → Y) → LinOracle X

/-- The discretised problem for given options and parameter values. -/
def Kit.problem (K : Kit ι X Y O A) (o : O) (v : String → ℚ) : Problem ι X Y where
  spatial := fun _ => K.spatial o v
  mass := K.mass o
  comp := K.comp

/-- The options of a nonlinear solver and its method (dream/solver.py:145-171); they are read
while solving. -/
structure NlOpts where
  damping : ℝ
  crit : ℝ
  maxIter : ℤ

/-- `cfg.blf` (dream/solver.py:400-405): the options that were read, the parameter objects that
occur in it (parameter `n` in its version `ver n`), and the gridfunctions of the time levels (by
the number of the `initialize` that made them). -/
structure FormObj (O : Type) where
  opts : O
  ver : String → ℕ
  mem : ℕ
  scheme : Scheme

/-- What `DirectNonlinearSolver.initialize` stores (dream/solver.py:228-236): the assembled form
and the gridfunction. -/
structure AsmObj (O A : Type) where
  form : FormObj O
  asm : A
  unk : ℕ

/-- A nonlinear solver object with its method. `methodReady` says whether `method.initialize` was
called (dream/solver.py:133-135). -/
structure NlObj (O A : Type) where
  o : NlOpts
  attrs : Option (AsmObj O A)
  methodReady : Bool

/-- A time scheme object; `mem` are its level gridfunctions, made by `TimeSchemes.initialize`
(dream/time.py:86-96). -/
structure SchemeObj where
  kind : Scheme
  mem : Option ℕ

/-- The solver. `cells n k` is the value of the `k`-th object made for parameter `n`, `ver n` the
object in use; `start`, `stop`, `digit` belong to the timer. -/
structure Life (ι X O A : Type) where
  cells : String → ℕ → ℚ
  ver : String → ℕ
  start : ℚ
  stop : ℚ
  digit : ℕ
  opts : O
  asm : A
  nl : NlObj O A
  scheme : SchemeObj
  mem : ℕ → Option (RunState ι X)
  nMem : ℕ
  gfu : Option ℕ
  forms : Option (FormObj O)

/-- The solver before anything was set up, with parameter values `v`. -/
def Life.fresh (v : String → ℚ) (o : O) (a : A) (n : NlOpts) (s : Scheme) : Life ι X O A where
  cells := fun p _ => if p = "step" then 1 / 10000 else if p = "t" then 0 else v p
  ver := fun _ => 0
  start := 0
  stop := 1
  digit := setDigit (1 / 10000)
  opts := o
  asm := a
  nl := ⟨n, none, false⟩
  scheme := ⟨s, none⟩
  mem := fun _ => none
  nMem := 0
  gfu := none
  forms := none

/-- Overwrite the gridfunctions of the `g`-th `initialize`. -/
def Life.store (L : Life ι X O A) (g : ℕ) (st : RunState ι X) : Life ι X O A :=
  { L with mem := fun i => if i = g then some st else L.mem i }

/-- The values of parameter objects. -/
def Life.values (L : Life ι X O A) (ver : String → ℕ) (n : String) : ℚ := L.cells n (ver n)

/-- `parameter.__set__` (dream/config.py:194-202): the object in use gets a new value. Setting the
time step also sets the digits of the labels (dream/time.py:31-34, 59-61). -/
def Life.setParam (L : Life ι X O A) (nv : String × ℚ) : Life ι X O A :=
  { L with
    cells := fun n k => if n = nv.1 ∧ k = L.ver n then nv.2 else L.cells n k
    digit := if nv.1 = "step" then setDigit nv.2 else L.digit }

/-- `time.timer = 'timer'` or a new `Timer` (dream/config.py:223-225, dream/time.py:17-38): new
parameter objects with the default values. -/
def Life.newTimer (L : Life ι X O A) : Life ι X O A :=
  { L with
    ver := fun n => if n = "step" ∨ n = "t" then L.ver n + 1 else L.ver n
    cells := fun n k =>
      if n = "step" ∧ k = L.ver n + 1 then 1 / 10000
      else if n = "t" ∧ k = L.ver n + 1 then 0 else L.cells n k
    start := 0
    stop := 1
    digit := setDigit (1 / 10000) }

/-- `SolverConfiguration.initialize` (dream/solver.py:358-405, dream/time.py:86-105, 295-301): new
gridfunctions for the unknowns and for the levels of the scheme in use, and new forms. -/
def Life.initialize (K : Kit ι X Y O A) (L : Life ι X O A) : Except PyErr (Life ι X O A) := do
  let v := L.values L.ver
  let st ← transientInit (K.problem L.opts v) L.scheme.kind (K.initial L.opts v)
  .ok { L.store L.nMem st with
    nMem := L.nMem + 1
    gfu := some L.nMem
    scheme := { L.scheme with mem := some L.nMem }
    forms := some ⟨L.opts, L.ver, L.nMem, L.scheme.kind⟩ }

/-- `ImplicitSchemes.assemble` (dream/time.py:118-142): without `initialize` there are no
`cfg.fes`, `cfg.blf`, `cfg.gfu`. -/
def Life.assemble (L : Life ι X O A) : Except PyErr (Life ι X O A) :=
  match L.forms, L.gfu with
  | some f, some g => .ok { L with nl := ⟨L.nl.o, some ⟨f, L.asm, g⟩, true⟩ }
  | _, _ => .error .attributeError

/-- `if reassemble: self.assemble()` (dream/time.py:306-307). -/
def Life.begin (reassemble : Bool) (L : Life ι X O A) : Except PyErr (Life ι X O A) :=
  if reassemble then L.assemble else .ok L

section
variable [AddCommGroup X] [Module ℝ X] [Add Y] [Zero Y]

/-- `for _ in scheme.solve_current_time_level(t)` (dream/time.py:164-166, 315-316,
dream/solver.py:195-211, 228-253): the nonlinear solver works with the form and the gridfunction it
was given. Missing attributes raise when they are first read: those of the solver in the first
iteration, those of the method at the first update, which a NaN prevents. -/
def Life.solveLevel (K : Kit ι X Y O A) (L : Life ι X O A) : Except PyErr (Life ι X O A) :=
  if L.nl.o.maxIter ≤ 0 then .ok L else
  match L.nl.attrs with
  | none => .error .attributeError
  | some a =>
    match L.mem a.unk, L.mem a.form.mem with
    | some st, some lv => do
      let P := K.problem a.form.opts (L.values a.form.ver)
      let dt : ℝ := (L.values a.form.ver "step" : ℚ)
      let _ ← P.residual a.form.scheme dt lv.levels 0 st.x
      let F := fun x => valueOr 0 (P.residual a.form.scheme dt lv.levels 0 x)
      if L.nl.methodReady = false ∧ ((K.lin a.asm F) 0 st.x).2 ≠ none then .error .attributeError
      else
        let N : Newton X Y := ⟨K.lin a.asm, L.nl.o.damping, L.nl.o.crit, L.nl.o.maxIter⟩
        .ok (L.store a.unk ⟨(N.solve F st.x).u, st.levels⟩)
    | _, _ => .error .attributeError

/-- `scheme.update_gridfunctions` (dream/time.py:110-113); the newest level is the component of
the unknowns of the same `initialize`. -/
def Life.shift (K : Kit ι X Y O A) (L : Life ι X O A) : Except PyErr (Life ι X O A) :=
  match L.scheme.mem with
  | none => .error .attributeError
  | some g =>
    match L.mem g with
    | none => .error .attributeError
    | some st => do
      let lv ← timeStep L.scheme.kind.levelNames st.levels (K.comp st.x)
      .ok (L.store g ⟨st.x, lv⟩)

/-- What the user sees: `cfg.gfu`. -/
def Life.visible (L : Life ι X O A) : Except PyErr X :=
  match L.gfu with
  | none => .error .attributeError
  | some g =>
    match L.mem g with
    | none => .error .attributeError
    | some st => .ok st.x

/-- `get_fields` (dream/solver.py:407-413, dream/compressible/formulations/conservative.py:854-870): the fields are
expressions in the gridfunctions in use, here these gridfunctions themselves. -/
def Life.getFields (L : Life ι X O A) : Except PyErr ℕ :=
  match L.gfu with
  | none => .error .attributeError
  | some g => .ok g

/-- What fields over the gridfunctions of the `g`-th `initialize` show when they are evaluated (by
`vtk`, sensors or pictures). -/
def Life.show (L : Life ι X O A) (g : ℕ) : Except PyErr X :=
  match L.mem g with
  | none => .error .attributeError
  | some st => .ok st.x

/-- The time loop (dream/time.py:313-323) over the times of the timer: set the time, solve, shift,
yield; then the user's code between two yields assigns parameters (`hook`). -/
def Life.loop (K : Kit ι X Y O A) (hook : ℕ → List (String × ℚ)) : ℕ → List ℚ → Life ι X O A →
    Except PyErr (List (ℚ × X) × Life ι X O A)
  | _, [], L => .ok ([], L)
  | k, t :: ts, L => do
    let L := L.setParam ("t", t)
    let L ← L.solveLevel K
    let L ← L.shift K
    let x ← L.visible
    let label := pyRoundDigits t L.digit
    let (ys, L) ← Life.loop K hook (k + 1) ts ((hook k).foldl Life.setParam L)
    .ok ((label, x) :: ys, L)

/-- The label under which `start_solution_routine` saves the state before the first step:
`io.save_pre_time_routine(self.timer.t.Get())` (dream/time.py:309-310). -/
def Life.preLabel (L : Life ι X O A) : ℚ := L.values L.ver "t"

/-- The times the timer sets (dream/time.py:40-49); the step is read once. -/
def Life.times (start stop step : ℚ) : Except PyErr (List ℚ) := do
  let ts ← (Timer.mk start stop step 0 0).run false 1
  .ok (ts.map Prod.fst)

/-- `start_solution_routine(reassemble)` of `TransientConfig` (dream/time.py:304-326) run to its
end; `t` is unbound after an empty loop. Streams are left out. -/
def Life.solve (K : Kit ι X Y O A) (reassemble : Bool) (hook : ℕ → List (String × ℚ))
    (L : Life ι X O A) : Except PyErr (List (ℚ × X) × Life ι X O A) := do
  let L ← L.begin reassemble
  let ts ← Life.times L.start L.stop (L.values L.ver "step")
  let r ← Life.loop K hook 0 ts L
  if ts.isEmpty then .error .unboundLocal else .ok r

/-- What a user does with a solver: assign a parameter or the interval, change options of the
three kinds, replace the nonlinear solver, its method, the scheme or the timer, initialise, solve.
-/
inductive Deed (O A : Type)
  | param (n : String) (v : ℚ)
  | interval (s e : ℚ)
  | opts (o : O)
  | asm (a : A)
  | nlOpts (o : NlOpts)
  | newNl (o : NlOpts)
  | newMethod (damping : ℝ)
  | newScheme (s : Scheme)
  | newTimer
  | initialize
  | solve (reassemble : Bool) (hook : ℕ → List (String × ℚ))

/-- One deed (assignments: dream/config.py:163-167, 194-202, 219-300). -/
def Life.exec (K : Kit ι X Y O A) (L : Life ι X O A) :
    Deed O A → Except PyErr (List (ℚ × X) × Life ι X O A)
  | .param n v => .ok ([], L.setParam (n, v))
  | .interval s e => do
    let tm ← (Timer.mk L.start L.stop 1 0 0).setInterval s e
    .ok ([], { L with start := tm.start, stop := tm.stop })
  | .opts o => .ok ([], { L with opts := o })
  | .asm a => .ok ([], { L with asm := a })
  | .nlOpts o => .ok ([], { L with nl := { L.nl with o := o } })
  | .newNl o => .ok ([], { L with nl := ⟨o, none, false⟩ })
  | .newMethod d => .ok ([], { L with nl :=
      { L.nl with o := { L.nl.o with damping := d }, methodReady := false } })
  | .newScheme s => .ok ([], { L with scheme := ⟨s, none⟩ })
  | .newTimer => .ok ([], L.newTimer)
  | .initialize => do .ok ([], ← L.initialize K)
  | .solve r hook => L.solve K r hook

/-- A sequence of deeds: everything that is yielded, and the solver after it. -/
def Life.script (K : Kit ι X Y O A) : List (Deed O A) → Life ι X O A →
    Except PyErr (List (ℚ × X) × Life ι X O A)
  | [], L => .ok ([], L)
  | d :: ds, L => do
    let (ys, L) ← L.exec K d
    let (zs, L) ← Life.script K ds L
    .ok (ys ++ zs, L)

end
end Dream
