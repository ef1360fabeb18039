import Verif.Model.Transient
import Verif.Spec.Transient
import Verif.Props.Nonlinear
import Mathlib.Algebra.Module.Equiv.Basic
import Mathlib.Analysis.Calculus.Deriv.Pow
import Mathlib.Analysis.Calculus.Deriv.Mul
import Mathlib.Analysis.Calculus.Deriv.Add
import Mathlib.Tactic.FieldSimp
import Mathlib.Tactic.Ring
import Mathlib.Tactic.NormNum
import Mathlib.Tactic.Linarith

/-!
# C61, C62: whole solution routines
-/

set_option linter.unusedSectionVars false

noncomputable section

namespace Dream

variable {ι X Y : Type}

/-- The difference quotient a scheme stands for. -/
def Scheme.quotient : Scheme → (dt new cur prev : ℝ) → ℝ
  | .implicitEuler => Spec.backwardEuler
  | .bdf2 => Spec.backward2

/-- The level dictionary that belongs to the last two states. -/
def Scheme.levelsOf (s : Scheme) (prev cur : ι → ℝ) : Levels (ι → ℝ) :=
  match s with
  | .implicitEuler => [("n", cur), ("n+1", cur)]
  | .bdf2 => [("n-1", prev), ("n", cur), ("n+1", cur)]

theorem init_levelsOf (P : Problem ι X Y) (s : Scheme) (x0 : X) :
    transientInit P s x0 = .ok ⟨x0, s.levelsOf (P.comp x0) (P.comp x0)⟩ := by
  cases s <;> rfl

theorem timeStep_levelsOf (s : Scheme) (prev cur new : ι → ℝ) :
    timeStep s.levelNames (s.levelsOf prev cur) new = .ok (s.levelsOf cur new) := by
  cases s <;> rfl

theorem temporal_levelsOf (s : Scheme) (dt : ℝ) (prev cur new : ι → ℝ) :
    s.temporal dt (s.levelsOf prev cur) new
      = .ok fun i => s.quotient dt (new i) (cur i) (prev i) := by
  cases s <;> rfl

/-- The equation of one step in textbook form. -/
def Problem.stepEquation [Add Y] (P : Problem ι X Y) (q : ℝ → ℝ → ℝ → ℝ) (t : ℚ)
    (cur prev x : X) : Y :=
  P.spatial t x + P.mass fun i => q (P.comp x i) (P.comp cur i) (P.comp prev i)

theorem residual_levelsOf [Add Y] (P : Problem ι X Y) (s : Scheme) (dt : ℝ) (t : ℚ)
    (prev cur x : X) :
    P.residual s dt (s.levelsOf (P.comp prev) (P.comp cur)) t x
      = .ok (P.stepEquation (s.quotient dt) t cur prev x) := by
  simp only [Problem.residual, temporal_levelsOf]
  rfl

section Run
variable [AddCommGroup X] [Module ℝ X] [AddCommGroup Y]

theorem round_levelsOf (P : Problem ι X Y) (s : Scheme) (dt : ℝ) (N : Newton X Y) (t : ℚ)
    (prev cur : X) :
    transientRound P s dt N ⟨cur, s.levelsOf (P.comp prev) (P.comp cur)⟩ t
      = .ok ⟨(N.solve (P.stepEquation (s.quotient dt) t cur prev) cur).u,
          s.levelsOf (P.comp cur)
            (P.comp (N.solve (P.stepEquation (s.quotient dt) t cur prev) cur).u)⟩ := by
  have hF : (fun x => valueOr 0 (P.residual s dt (s.levelsOf (P.comp prev) (P.comp cur)) t x))
      = P.stepEquation (s.quotient dt) t cur prev := by
    funext x
    rw [residual_levelsOf]
    rfl
  simp only [transientRound, residual_levelsOf]
  show (do
    let l ← timeStep s.levelNames (s.levelsOf (P.comp prev) (P.comp cur)) _
    (.ok ⟨_, l⟩ : Except PyErr (RunState ι X))) = _
  rw [timeStep_levelsOf]
  rfl

theorem loop_levelsOf (P : Problem ι X Y) (s : Scheme) (dt : ℝ) (N : Newton X Y)
    (ts : List (ℚ × ℚ)) (prev cur : X) :
    transientLoop P s dt N ts ⟨cur, s.levelsOf (P.comp prev) (P.comp cur)⟩
      = .ok ((ts.map Prod.snd).zip (Spec.trajectory
          (fun t cur prev => (N.solve (P.stepEquation (s.quotient dt) t cur prev) cur).u)
          prev cur (ts.map Prod.fst))) := by
  induction ts generalizing prev cur with
  | nil => rfl
  | cons a ts ih =>
    obtain ⟨t, label⟩ := a
    simp only [transientLoop, round_levelsOf]
    show (do
      let rest ← transientLoop P s dt N ts ⟨_, s.levelsOf (P.comp cur) (P.comp _)⟩
      (.ok ((label, _) :: rest) : Except PyErr (List (ℚ × X)))) = _
    rw [ih]
    rfl

/-- **C61** For every problem, scheme, solver, timer and initial state: the transient routine
raises only if the timer does; otherwise it yields every label of the timer together with the
state of the textbook recursion, in which the new state is what Newton's method, started from the
last state, makes of `spatial(t, u) + mass(difference quotient of u, last and last but one
state) = 0`; before the first step both old states are the initial state. -/
theorem C61_textbook_recursion (P : Problem ι X Y) (s : Scheme) (N : Newton X Y) (tm : Timer)
    (x0 : X) (ts : List (ℚ × ℚ)) (hts : tm.run false 1 = .ok ts) :
    transientRun P s N tm x0
      = .ok ((ts.map Prod.snd).zip (Spec.trajectory
          (fun t cur prev =>
            (N.solve (fun x => P.spatial t x + P.mass fun i =>
              s.quotient tm.step (P.comp x i) (P.comp cur i) (P.comp prev i)) cur).u)
          x0 x0 (ts.map Prod.fst))) := by
  simp only [transientRun, init_levelsOf, hts]
  exact loop_levelsOf P s tm.step N ts x0 x0

theorem C61_timer_error (P : Problem ι X Y) (s : Scheme) (N : Newton X Y) (tm : Timer)
    (x0 : X) (e : PyErr) (hts : tm.run false 1 = .error e) :
    transientRun P s N tm x0 = .error e := by
  simp only [transientRun, init_levelsOf, hts]
  rfl

theorem trajectory_length {T : Type} (next : T → X → X → X) (prev cur : X) (ts : List T) :
    (Spec.trajectory next prev cur ts).length = ts.length := by
  induction ts generalizing prev cur with
  | nil => rfl
  | cons t ts ih => simp [Spec.trajectory, ih]

/-- **C61** Divergence does not stop a run: whatever the linear solver returns, also if every
single error is NaN, all labels of the timer are yielded. -/
theorem C61_all_labels_yielded (P : Problem ι X Y) (s : Scheme) (N : Newton X Y) (tm : Timer)
    (x0 : X) (ts : List (ℚ × ℚ)) (hts : tm.run false 1 = .ok ts) :
    ∃ ys, transientRun P s N tm x0 = .ok ys ∧ ys.map Prod.fst = ts.map Prod.snd := by
  refine ⟨_, C61_textbook_recursion P s N tm x0 ts hts, ?_⟩
  rw [List.map_fst_zip]
  rw [trajectory_length]
  simp

theorem iterates_fixed (du : ℕ → X → X) (upd : X → X → X) (x0 x1 : X)
    (h1 : upd x0 (du 0 x0) = x1) (h2 : ∀ i, upd x1 (du i x1) = x1) (k : ℕ) (hk : 1 ≤ k) :
    Spec.iterates du upd x0 k = x1 := by
  induction k with
  | zero => omega
  | succ k ih =>
    rcases Nat.eq_zero_or_pos k with h | h
    · subst h; exact h1
    · simp only [Spec.iterates]
      rw [ih h]
      exact h2 k

/-- The linear solver solves linear systems: if the residual is affine with an invertible linear
part, the increment is the solution of the linear system, and the error is a number. -/
def Newton.Exact [Module ℝ Y] (N : Newton X Y) : Prop :=
  ∀ (F : X → Y) (L : X ≃ₗ[ℝ] Y) (b : Y), (∀ x, F x = L x + b) →
    ∀ it x, ∃ e : ℝ, N.lin F it x = (L.symm (F x), some e)

theorem solve_affine [Module ℝ Y] (N : Newton X Y) (hN : N.Exact) (hd : N.damping = 1) (hm : 1 ≤ N.maxIter)
    (F : X → Y) (L : X ≃ₗ[ℝ] Y) (b : Y) (hF : ∀ x, F x = L x + b) (x0 : X) :
    F (N.solve F x0).u = 0 := by
  have hlin : ∀ it x, (N.lin F it x).1 = L.symm (F x) := by
    intro it x
    obtain ⟨e, he⟩ := hN F L b hF it x
    rw [he]
  have hne : ∀ it x, (N.lin F it x).2 ≠ none := by
    intro it x
    obtain ⟨e, he⟩ := hN F L b hF it x
    rw [he]
    simp
  set x1 := x0 - L.symm (F x0) with hx1
  have hF1 : F x1 = 0 := by
    rw [hF x1, hx1, map_sub, L.apply_symm_apply, hF x0]
    abel
  have hw : ∀ k, 1 ≤ k →
      Spec.iterates (fun i u => (N.lin F i u).1) (newtonUpdate N.damping) x0 k = x1 := by
    intro k hk
    apply iterates_fixed _ _ _ _ _ _ k hk
    · simp [newtonUpdate, hd, hlin, hx1]
    · intro i
      simp [newtonUpdate, hd, hlin, hF1]
  obtain ⟨k, hk, _, _, h⟩ := C06_solve_outcome (N.lin F) (newtonUpdate N.damping) N.crit N.maxIter x0
  have hu : (nlSolve (N.lin F) (newtonUpdate N.damping) N.crit N.maxIter x0).u = x1 := by
    cases h with
    | diverged h1 h2 hb hl hu hn hc => exact absurd hl (hne _ _)
    | converged h1 h2 hb hl hu hn hc => rw [hu]; exact hw k h1
    | exhausted h2 hb hu hn hc => rw [hu]; exact hw k (by omega)
  show F (nlSolve _ _ _ _ _).u = 0
  rw [hu, hF1]

/-- **C61** Linear problems are solved exactly: if spatial and mass terms are affine and linear,
the linear system of a step is invertible, the linear solver is exact, the damping is one and at
least one iteration is allowed, then every yielded state satisfies the difference equation of the
scheme, for any criterion and any number of steps. -/
theorem C61_linear_exact [Module ℝ Y] (P : Problem ι X Y) (s : Scheme) (N : Newton X Y) (tm : Timer) (x0 : X)
    (hN : N.Exact) (hd : N.damping = 1) (hm : 1 ≤ N.maxIter)
    (hL : ∀ t cur prev, ∃ (L : X ≃ₗ[ℝ] Y) (b : Y), ∀ x,
      P.spatial t x + P.mass (fun i =>
        s.quotient tm.step (P.comp x i) (P.comp cur i) (P.comp prev i)) = L x + b)
    (ts : List (ℚ × ℚ)) (hts : tm.run false 1 = .ok ts) :
    ∃ xs : List X, transientRun P s N tm x0 = .ok ((ts.map Prod.snd).zip xs) ∧
      Spec.Satisfies (fun t x cur prev => P.spatial t x + P.mass (fun i =>
        s.quotient tm.step (P.comp x i) (P.comp cur i) (P.comp prev i)) = 0)
        x0 x0 (ts.map Prod.fst) xs := by
  refine ⟨_, C61_textbook_recursion P s N tm x0 ts hts, ?_⟩
  generalize ts.map Prod.fst = l
  generalize x0 = cur
  suffices h : ∀ prev cur : X, Spec.Satisfies (fun t x cur prev => P.spatial t x + P.mass (fun i =>
        s.quotient tm.step (P.comp x i) (P.comp cur i) (P.comp prev i)) = 0)
        prev cur l (Spec.trajectory (fun t cur prev =>
            (N.solve (fun x => P.spatial t x + P.mass fun i =>
              s.quotient tm.step (P.comp x i) (P.comp cur i) (P.comp prev i)) cur).u)
          prev cur l) from h cur cur
  induction l with
  | nil => intro prev cur; trivial
  | cons t l ih =>
    intro prev cur
    refine ⟨?_, ih cur _⟩
    obtain ⟨L, b, hLb⟩ := hL t cur prev
    exact solve_affine N hN hd hm _ L b hLb cur

/-! ## Pseudo time stepping -/

theorem pseudo_residual (P : Problem ι X Y) (s : Scheme) (dt : ℝ) (t : ℚ) (cur x : X) :
    P.residual s dt (s.levelsOf (P.comp cur) (P.comp x)) t x
      = .ok (P.stepEquation (s.quotient dt) t x cur x) := residual_levelsOf P s dt t cur x x

/-- One iteration in terms of the textbook equation. -/
theorem pseudoLoop_succ (P : Problem ι X Y) (s : Scheme) (ps : Pseudo) (N : Newton X Y) (t : ℚ)
    (n it : ℕ) (prev cur : X) (st : PseudoState ι X Y) (dt : ℚ)
    (hl : st.levels = s.levelsOf (P.comp prev) (P.comp cur))
    (hu : ps.update st.dt it = .ok dt) :
    pseudoLoop P s ps N t (n + 1) it st =
      (let F := P.stepEquation (s.quotient dt) t st.x cur
       let step := N.lin F it st.x
       let st1 : PseudoState ι X Y := ⟨st.x, s.levelsOf (P.comp cur) (P.comp st.x), dt,
         step.2.isNone, (match step.2 with
            | some e => open Classical in decide (e < N.crit)
            | none => false), st.trace ++ [(st.x, F st.x)]⟩
       if step.2.isNone then .ok st1
       else
         let st2 := { st1 with x := newtonUpdate N.damping st.x step.1 }
         if st1.isConverged then .ok st2
         else pseudoLoop P s ps N t n (it + 1) st2) := by
  have hF : (fun x => valueOr 0 (P.residual s dt (s.levelsOf (P.comp cur) (P.comp st.x)) t x))
      = P.stepEquation (s.quotient dt) t st.x cur := by
    funext x
    rw [residual_levelsOf]
    rfl
  conv_lhs => unfold pseudoLoop
  rw [hl, timeStep_levelsOf, hu]
  show (do
    let r ← P.residual s (dt : ℝ) (s.levelsOf (P.comp cur) (P.comp st.x)) t st.x
    _) = _
  rw [pseudo_residual]
  simp only [hF]
  rfl

theorem pseudoLoop_error (P : Problem ι X Y) (s : Scheme) (ps : Pseudo) (N : Newton X Y) (t : ℚ)
    (n it : ℕ) (prev cur : X) (st : PseudoState ι X Y) (e : PyErr)
    (hl : st.levels = s.levelsOf (P.comp prev) (P.comp cur))
    (hu : ps.update st.dt it = .error e) :
    pseudoLoop P s ps N t (n + 1) it st = .error e := by
  conv_lhs => unfold pseudoLoop
  rw [hl, timeStep_levelsOf, hu]
  rfl

theorem ie_stationary (P : Problem ι X Y) (hmass : P.mass (fun _ => 0) = 0) (dt : ℝ) (t : ℚ)
    (cur x : X) :
    P.stepEquation (Scheme.implicitEuler.quotient dt) t x cur x = P.spatial t x := by
  have : (fun i => Scheme.implicitEuler.quotient dt (P.comp x i) (P.comp x i) (P.comp cur i))
      = fun _ => (0 : ℝ) := by
    funext i
    simp [Scheme.quotient, Spec.backwardEuler]
  simp [Problem.stepEquation, this, hmass]

theorem pseudoLoop_trace (P : Problem ι X Y) (hmass : P.mass (fun _ => 0) = 0) (ps : Pseudo)
    (N : Newton X Y) (t : ℚ) (n it : ℕ) (prev cur : X) (st st' : PseudoState ι X Y)
    (hl : st.levels = Scheme.implicitEuler.levelsOf (P.comp prev) (P.comp cur))
    (htr : ∀ q ∈ st.trace, q.2 = P.spatial t q.1)
    (h : pseudoLoop P .implicitEuler ps N t n it st = .ok st') :
    ∀ q ∈ st'.trace, q.2 = P.spatial t q.1 := by
  induction n generalizing it st prev cur with
  | zero =>
    simp only [pseudoLoop, Except.ok.injEq] at h
    rw [← h]; exact htr
  | succ n ih =>
    cases hu : ps.update st.dt it with
    | error e =>
      rw [pseudoLoop_error P _ ps N t n it prev cur st e hl hu] at h
      cases h
    | ok dt =>
      rw [pseudoLoop_succ P _ ps N t n it prev cur st dt hl hu] at h
      have key : ∀ q ∈ st.trace ++ [(st.x,
          P.stepEquation (Scheme.implicitEuler.quotient dt) t st.x cur st.x)],
          q.2 = P.spatial t q.1 := by
        intro q hq
        rcases List.mem_append.1 hq with hq | hq
        · exact htr q hq
        · rw [List.mem_singleton] at hq
          subst hq
          exact ie_stationary P hmass dt t cur st.x
      simp only at h
      split_ifs at h with h1 h2
      · cases h; exact key
      · cases h; exact key
      · exact ih (it + 1) cur st.x _ rfl key h

/-- **C62** Pseudo time stepping with the implicit Euler scheme: whatever time steps are chosen
and whatever the linear solver returns, every residual that is evaluated is the residual of the
steady problem at the present state. -/
theorem C62_steady_residual_partial (P : Problem ι X Y) (hmass : P.mass (fun _ => 0) = 0) (ps : Pseudo)
    (N : Newton X Y) (t dt : ℚ) (x0 : X) (st : PseudoState ι X Y)
    (h : pseudoRun P .implicitEuler ps N t dt x0 = .ok st) :
    ∀ q ∈ st.trace, q.2 = P.spatial t q.1 := by
  simp only [pseudoRun, init_levelsOf] at h
  exact pseudoLoop_trace P hmass ps N t N.maxIter.toNat 0 x0 x0 _ st rfl (by simp) h

/-- The error of an iteration is `|⟨increment, residual⟩|` (dream/solver.py:185-187). -/
def Newton.MeasuredBy (N : Newton X Y) (ip : X → Y → ℝ) : Prop :=
  ∀ F it x, (N.lin F it x).2 = some |ip (N.lin F it x).1 (F x)|

theorem pseudoLoop_converged (P : Problem ι X Y) (hmass : P.mass (fun _ => 0) = 0) (ps : Pseudo)
    (N : Newton X Y) (ip : X → Y → ℝ) (hip : N.MeasuredBy ip) (t : ℚ) (n it : ℕ) (prev cur : X)
    (st st' : PseudoState ι X Y)
    (hl : st.levels = Scheme.implicitEuler.levelsOf (P.comp prev) (P.comp cur))
    (hc : st.isConverged = false)
    (h : pseudoLoop P .implicitEuler ps N t n it st = .ok st') (hc' : st'.isConverged = true) :
    ∃ x du, st'.x = newtonUpdate N.damping x du ∧ |ip du (P.spatial t x)| < N.crit := by
  induction n generalizing it st prev cur with
  | zero =>
    simp only [pseudoLoop, Except.ok.injEq] at h
    rw [← h, hc] at hc'
    cases hc'
  | succ n ih =>
    cases hu : ps.update st.dt it with
    | error e =>
      rw [pseudoLoop_error P _ ps N t n it prev cur st e hl hu] at h
      cases h
    | ok dt =>
      rw [pseudoLoop_succ P _ ps N t n it prev cur st dt hl hu] at h
      have hm := hip (P.stepEquation (Scheme.implicitEuler.quotient dt) t st.x cur) it st.x
      rw [ie_stationary P hmass] at hm
      simp only [hm, Option.isNone_some, Bool.false_eq_true, if_false, decide_eq_true_eq] at h
      split_ifs at h with h2
      · cases h
        exact ⟨st.x, _, rfl, h2⟩
      · exact ih (it + 1) cur st.x _ rfl (by simpa using h2) h

/-- **C62** If pseudo time stepping with implicit Euler reports convergence, the criterion is met
by the residual of the steady problem at the last but one state, and the result is one Newton
update away from it. -/
theorem C62_converged_is_steady_partial (P : Problem ι X Y) (hmass : P.mass (fun _ => 0) = 0)
    (ps : Pseudo) (N : Newton X Y) (ip : X → Y → ℝ) (hip : N.MeasuredBy ip) (t dt : ℚ) (x0 : X)
    (st : PseudoState ι X Y) (h : pseudoRun P .implicitEuler ps N t dt x0 = .ok st)
    (hc : st.isConverged = true) :
    ∃ x du, st.x = newtonUpdate N.damping x du ∧ |ip du (P.spatial t x)| < N.crit := by
  simp only [pseudoRun, init_levelsOf] at h
  exact pseudoLoop_converged P hmass ps N ip hip t N.maxIter.toNat 0 x0 x0 _ st rfl rfl h hc

/-- **C62** A steady state is left alone: if the initial state solves the steady problem and a
zero residual gives a zero increment, pseudo time stepping with either scheme stops after one
iteration, converged, at the initial state. -/
theorem C62_steady_state_kept (P : Problem ι X Y) (hmass : P.mass (fun _ => 0) = 0) (s : Scheme)
    (ps : Pseudo) (hps : ps.incrementAt ≠ 0) (N : Newton X Y) (hm : 1 ≤ N.maxIter)
    (hcrit : 0 < N.crit)
    (hN : ∀ F it x, F x = 0 → N.lin F it x = (0, some 0)) (t dt : ℚ) (x0 : X)
    (h0 : P.spatial t x0 = 0) :
    ∃ st, pseudoRun P s ps N t dt x0 = .ok st ∧ st.x = x0 ∧ st.isConverged = true ∧
      st.trace = [(x0, 0)] := by
  obtain ⟨n, hn⟩ : ∃ n, N.maxIter.toNat = n + 1 := ⟨N.maxIter.toNat - 1, by omega⟩
  have hu : ∃ dt', ps.update dt 0 = .ok dt' := by
    unfold Pseudo.update
    split_ifs <;> exact ⟨_, rfl⟩
  obtain ⟨dt', hu⟩ := hu
  have hF : P.stepEquation (s.quotient dt') t x0 x0 x0 = 0 := by
    have : (fun i => s.quotient dt' (P.comp x0 i) (P.comp x0 i) (P.comp x0 i))
        = fun _ => (0 : ℝ) := by
      funext i
      cases s
      · simp [Scheme.quotient, Spec.backwardEuler]
      · simp only [Scheme.quotient, Spec.backward2]
        ring
    simp [Problem.stepEquation, this, hmass, h0]
  refine ⟨⟨x0, s.levelsOf (P.comp x0) (P.comp x0), dt', false, true, [(x0, 0)]⟩, ?_, rfl, rfl, rfl⟩
  simp only [pseudoRun, init_levelsOf, hn]
  refine (pseudoLoop_succ P s ps N t n 0 x0 x0 _ dt' rfl hu).trans ?_
  simp [hN _ _ _ hF, hF, hcrit, newtonUpdate]

end Run

/-! ## Concrete cases -/

/-- The scalar problem `u' + g(u) = 0`. -/
def scalarProblem (g : ℝ → ℝ) : Problem Unit ℝ ℝ :=
  { spatial := fun _ x => g x, mass := fun f => f (), comp := fun x _ => x }

/-- Newton's method for one real unknown. -/
def scalarNewton (damping crit : ℝ) (maxIter : ℤ) : Newton ℝ ℝ :=
  { lin := fun F _ x => (F x / deriv F x, some |F x / deriv F x * F x|),
    damping := damping, crit := crit, maxIter := maxIter }

theorem scalarNewton_exact (d c : ℝ) (m : ℤ) : (scalarNewton d c m).Exact := by
  intro F L b hF it x
  have hL : ∀ y, L y = L 1 * y := by
    intro y
    have := L.map_smul y 1
    simp only [smul_eq_mul, mul_one] at this
    rw [this, mul_comm]
  have h1 : L 1 ≠ 0 := by
    intro h
    have := hL (L.symm 1)
    rw [L.apply_symm_apply, h, zero_mul] at this
    norm_num at this
  have hd : deriv F x = L 1 := by
    have : F = fun x => L 1 * x + b := by funext y; rw [hF, hL]
    rw [this]
    have h2 : HasDerivAt (fun x => L 1 * x + b) (L 1 * 1) x :=
      HasDerivAt.add_const b (HasDerivAt.const_mul (L 1) (hasDerivAt_id x))
    rw [HasDerivAt.deriv h2, mul_one]
  refine ⟨|F x / deriv F x * F x|, ?_⟩
  have hs : L.symm (F x) = F x / deriv F x := by
    rw [LinearEquiv.symm_apply_eq, hL, hd]
    field_simp
  rw [hs]
  rfl

/-- C61, concrete instance: two BDF2 steps of `u' + 5u = 0` from `u = 1`. -/
example : ∃ xs : List ℝ,
    transientRun (scalarProblem fun x => 5 * x) .bdf2 (scalarNewton 1 (1/100) 10)
      ⟨0, 1, 1/2, 1, 0⟩ 1 = .ok ([(1/2 : ℚ), 1].zip xs) ∧
    Spec.Satisfies (fun _ x cur prev => 5 * x + (3 * x - 4 * cur + prev) / (2 * (1/2)) = 0)
      1 1 [(1/2 : ℚ), 1] xs := by
  have hts : Timer.run ⟨0, 1, 1/2, 1, 0⟩ false 1 = .ok [(1/2, 1/2), (1, 1)] := by decide +kernel
  have := C61_linear_exact (scalarProblem fun x => 5 * x) .bdf2 (scalarNewton 1 (1/100) 10)
      ⟨0, 1, 1/2, 1, 0⟩ 1 (scalarNewton_exact _ _ _) rfl (by decide)
      (by
        intro t cur prev
        refine ⟨LinearEquiv.smulOfNeZero ℝ ℝ 8 (by norm_num), -4 * cur + prev, fun x => ?_⟩
        simp only [scalarProblem, Scheme.quotient, Spec.backward2, LinearEquiv.smulOfNeZero_apply,
          smul_eq_mul]
        push_cast
        ring) _ hts
  simpa [scalarProblem, Scheme.quotient, Spec.backward2] using this

/-- C62, concrete instance: the steady state `1` of `u' + u - 1 = 0` is kept. -/
example : ∃ st, pseudoRun (scalarProblem fun x => x - 1) .implicitEuler ⟨1, 10, 10⟩
      (scalarNewton 1 (1/100) 10) 0 (1/10) 1 = .ok st ∧ st.x = 1 ∧ st.isConverged = true ∧
      st.trace = [(1, 0)] :=
  C62_steady_state_kept _ rfl _ _ (by decide) _ (by decide) (by norm_num [scalarNewton])
    (by intro F it x h; simp [scalarNewton, h]) _ _ _ (by norm_num [scalarProblem])

/-- **C62 fails for BDF2**: undamped Newton iteration for the steady problem `4u² = 3` from
`u = 0` with pseudo time step `1/2` reports convergence after two iterations, with error zero, at
`u = 1`, where the steady residual is `1`. -/
theorem C62_fails_bdf2 : ∃ st,
    pseudoRun (scalarProblem fun x => 4 * x ^ 2 - 3) .bdf2 ⟨1, 10, 10⟩
      (scalarNewton 1 (1/100) 10) 0 (1/2) 0 = .ok st ∧ st.isConverged = true ∧ st.x = 1 ∧
      (scalarProblem fun x => 4 * x ^ 2 - 3).spatial 0 st.x = 1 := by
  set P := scalarProblem fun x => 4 * x ^ 2 - 3 with hP
  have hF : ∀ cur prev x, P.stepEquation (Scheme.bdf2.quotient ((1/2 : ℚ) : ℝ)) 0 cur prev x
      = 4 * x ^ 2 - 3 + (3 * x - 4 * cur + prev) := by
    intro cur prev x
    simp only [hP, Problem.stepEquation, scalarProblem, Scheme.quotient, Spec.backward2]
    push_cast
    ring
  have hd : ∀ cur prev x, deriv (P.stepEquation (Scheme.bdf2.quotient ((1/2 : ℚ) : ℝ)) 0 cur prev) x
      = 8 * x + 3 := by
    intro cur prev x
    have : P.stepEquation (Scheme.bdf2.quotient ((1/2 : ℚ) : ℝ)) 0 cur prev
        = fun x => 4 * x ^ 2 - 3 + (3 * x - 4 * cur + prev) := by funext y; rw [hF]
    rw [this]
    have h1 : HasDerivAt (fun x : ℝ => 4 * x ^ 2 - 3 + (3 * x - 4 * cur + prev))
        (4 * ((2 : ℕ) * x ^ (2 - 1)) + 3 * 1) x :=
      HasDerivAt.add (HasDerivAt.sub_const 3 (HasDerivAt.const_mul 4 (hasDerivAt_pow 2 x)))
        (HasDerivAt.add_const prev
          (HasDerivAt.sub_const (4 * cur) (HasDerivAt.const_mul 3 (hasDerivAt_id x))))
    rw [HasDerivAt.deriv h1]
    push_cast
    ring
  refine ⟨⟨1, Scheme.bdf2.levelsOf (P.comp 0) (P.comp 1), 1/2, false, true, [(0, -3), (1, 0)]⟩, ?_,
    rfl, rfl, ?_⟩
  · have e1 := pseudoLoop_succ P .bdf2 ⟨1, 10, 10⟩ (scalarNewton 1 (1/100) 10) 0 9 0 0 0
      { x := 0, levels := Scheme.bdf2.levelsOf (P.comp 0) (P.comp 0), dt := 1/2 } (1/2) rfl
      (by decide +kernel)
    have e2 := pseudoLoop_succ P .bdf2 ⟨1, 10, 10⟩ (scalarNewton 1 (1/100) 10) 0 8 1 0 0
      { x := 1, levels := Scheme.bdf2.levelsOf (P.comp 0) (P.comp 0), dt := 1/2,
        trace := [(0, -3)] } (1/2) rfl (by decide +kernel)
    simp only [scalarNewton, hF, hd] at e1 e2
    norm_num [newtonUpdate, -abs_mul] at e1 e2
    simp only [pseudoRun, init_levelsOf]
    refine Eq.trans ?_ (e1.trans e2)
    rfl
  · norm_num [hP, scalarProblem]

end Dream
