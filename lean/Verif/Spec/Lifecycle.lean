import Verif.Model.Lifecycle
import Verif.Spec.Transient

/-!
# What changed settings ought to do: a solver without objects

Settings are just values. Parameters, the interval, the options of the nonlinear solver and those
read when assembling are used as they are when a run needs them; all other options as they were at
the last `initialize`. Nothing can be stale, nothing can be missing after `initialize`.
-/

noncomputable section

namespace Dream.Spec

open Dream

variable {ι X Y O A : Type}

/-- `used`: options at the last `initialize`, and the last two states. -/
structure Direct (X O A : Type) where
  vals : String → ℚ
  start : ℚ
  stop : ℚ
  digit : ℕ
  opts : O
  asm : A
  nl : NlOpts
  scheme : Scheme
  used : Option (O × X × X)

/-- The solver before anything was set up. -/
def Direct.fresh (v : String → ℚ) (o : O) (a : A) (n : NlOpts) (s : Scheme) : Direct X O A where
  vals := fun p => if p = "step" then 1 / 10000 else if p = "t" then 0 else v p
  start := 0
  stop := 1
  digit := setDigit (1 / 10000)
  opts := o
  asm := a
  nl := n
  scheme := s
  used := none

/-- A parameter gets a value. -/
def Direct.setParam (P : Direct X O A) (nv : String × ℚ) : Direct X O A :=
  { P with
    vals := fun n => if n = nv.1 then nv.2 else P.vals n
    digit := if nv.1 = "step" then setDigit nv.2 else P.digit }

/-- The difference quotient of a scheme. -/
def quotientOf : Scheme → (dt new cur prev : ℝ) → ℝ
  | .implicitEuler => _root_.Spec.backwardEuler
  | .bdf2 => _root_.Spec.backward2

/-- The times of a run: `start + step`, `start + 2 step`, … as many as fit, rounded. -/
def grid (start stop step : ℚ) : Except PyErr (List ℚ) :=
  if step = 0 then .error .zeroDivision
  else .ok ((List.range (pyRound ((stop - start) / step)).toNat).map fun k : ℕ =>
    start + (k + 1) * step)

section
variable [AddCommGroup X] [Module ℝ X] [Add Y]

/-- The next state: Newton's method, started from the last state, for the equations with options
`o` and the present values of all parameters. -/
def Direct.next (K : Kit ι X Y O A) (P : Direct X O A) (o : O) (prev cur : X) : X :=
  let N : Newton X Y := ⟨K.lin P.asm, P.nl.damping, P.nl.crit, P.nl.maxIter⟩
  (N.solve (fun z => K.spatial o P.vals z + K.mass o fun i =>
    quotientOf P.scheme (P.vals "step" : ℚ) (K.comp z i) (K.comp cur i) (K.comp prev i)) cur).u

/-- The time loop; between two yields the user assigns the parameters of `hook`. -/
def Direct.loop (K : Kit ι X Y O A) (hook : ℕ → List (String × ℚ)) (o : O) :
    ℕ → List ℚ → (prev cur : X) → Direct X O A → List (ℚ × X) × Direct X O A
  | _, [], prev, cur, P => ([], { P with used := some (o, prev, cur) })
  | k, t :: ts, prev, cur, P =>
    let P := P.setParam ("t", t)
    let new := P.next K o prev cur
    let (ys, Q) := Direct.loop K hook o (k + 1) ts cur new ((hook k).foldl Direct.setParam P)
    ((pyRoundDigits t P.digit, new) :: ys, Q)

/-- One deed. A new nonlinear solver or method is just new options; a new timer has the default
values. -/
def Direct.exec (K : Kit ι X Y O A) (P : Direct X O A) :
    Deed O A → Except PyErr (List (ℚ × X) × Direct X O A)
  | .param n v => .ok ([], P.setParam (n, v))
  | .interval s e =>
    if s < 0 ∨ e < 0 ∨ e ≤ s then .error .valueError else .ok ([], { P with start := s, stop := e })
  | .opts o => .ok ([], { P with opts := o })
  | .asm a => .ok ([], { P with asm := a })
  | .nlOpts o => .ok ([], { P with nl := o })
  | .newNl o => .ok ([], { P with nl := o })
  | .newMethod d => .ok ([], { P with nl := { P.nl with damping := d } })
  | .newScheme s => .ok ([], { P with scheme := s })
  | .newTimer => .ok ([], { ((P.setParam ("step", 1 / 10000)).setParam ("t", 0)) with
      start := 0, stop := 1 })
  | .initialize =>
    let x0 := K.initial P.opts P.vals
    .ok ([], { P with used := some (P.opts, x0, x0) })
  | .solve _ hook =>
    match P.used with
    | none => .error .attributeError
    | some (o, prev, cur) => do
      let ts ← grid P.start P.stop (P.vals "step")
      if ts.isEmpty then .error .unboundLocal
      else .ok (Direct.loop K hook o 0 ts prev cur P)

/-- A sequence of deeds. -/
def Direct.script (K : Kit ι X Y O A) : List (Deed O A) → Direct X O A →
    Except PyErr (List (ℚ × X) × Direct X O A)
  | [], P => .ok ([], P)
  | d :: ds, P => do
    let (ys, P) ← P.exec K d
    let (zs, P) ← Direct.script K ds P
    .ok (ys ++ zs, P)

end

/-- The discipline under which the code is such a solver. `bound`: scheme and timer are those of
the last `initialize`; `ready`: nothing was done since the last assembly that calls for another. A
run needs `bound`, and without reassembling also `ready`. -/
def Disciplined : (bound ready : Bool) → List (Deed O A) → Prop
  | _, _, [] => True
  | b, r, d :: ds =>
    match d with
    | .param _ _ | .interval _ _ | .opts _ | .nlOpts _ => Disciplined b r ds
    | .asm _ | .newNl _ | .newMethod _ => Disciplined b false ds
    | .newScheme _ | .newTimer => Disciplined false false ds
    | .initialize => Disciplined true false ds
    | .solve re _ => b = true ∧ (re = true ∨ r = true) ∧ Disciplined b true ds

end Dream.Spec
