import Verif.Props.FreestreamViscous

/-!
# C61, C69: the solution routine leaves steady states alone
-/

set_option linter.unusedSectionVars false

noncomputable section

namespace Dream
open Matrix Spec

section General
variable {ι X Y : Type} [AddCommGroup X] [Module ℝ X] [AddCommGroup Y]

theorem Scheme.quotient_const (s : Scheme) (dt a : ℝ) : s.quotient dt a a a = 0 := by
  cases s
  · simp [Scheme.quotient, backwardEuler]
  · simp only [Scheme.quotient, backward2]
    ring

/-- A zero residual gives a zero increment, whose error is zero: `inv * 0`
(dream/solver.py:238-253). -/
def Newton.KeepsRoots (N : Newton X Y) : Prop :=
  ∀ F it x, F x = 0 → N.lin F it x = (0, some 0)

theorem nlLoop_root (N : Newton X Y) (hN : N.KeepsRoots) (F : X → Y) (n it : ℕ)
    (st : NLState X) (h : F st.u = 0) :
    (nlLoop (N.lin F) (newtonUpdate N.damping) N.crit n it st).u = st.u := by
  induction n generalizing it st with
  | zero => rfl
  | succ n ih =>
    unfold nlLoop
    have e : N.lin F it st.u = (0, some 0) := hN F it st.u h
    simp only [e, setIterationError, newtonUpdate, smul_zero, sub_zero]
    split_ifs
    · rfl
    · rfl
    · rw [ih]
      exact h

/-- Newton's method started at a root stays there, for every criterion, damping and number of
iterations. -/
theorem Newton.solve_root (N : Newton X Y) (hN : N.KeepsRoots) (F : X → Y) (x : X)
    (h : F x = 0) : (N.solve F x).u = x :=
  nlLoop_root N hN F _ _ _ h

/-- **C61** The transient routine leaves steady states alone: if the initial state satisfies the
spatial equations at all times of the run, it is yielded unchanged at every step, for both
schemes, every step size, damping, criterion and number of iterations. -/
theorem C61_steady_kept (P : Problem ι X Y) (hmass : P.mass (fun _ => 0) = 0) (s : Scheme)
    (N : Newton X Y) (hN : N.KeepsRoots) (tm : Timer) (x0 : X) (ts : List (ℚ × ℚ))
    (hts : tm.run false 1 = .ok ts) (h0 : ∀ p ∈ ts, P.spatial p.1 x0 = 0) :
    transientRun P s N tm x0 = .ok (ts.map fun p => (p.2, x0)) := by
  rw [C61_textbook_recursion P s N tm x0 ts hts]
  congr 1
  clear hts
  induction ts with
  | nil => rfl
  | cons p ts ih =>
    have e : (N.solve (fun x => P.spatial p.1 x + P.mass fun i =>
        s.quotient tm.step (P.comp x i) (P.comp x0 i) (P.comp x0 i)) x0).u = x0 := by
      apply N.solve_root hN
      simp only [Scheme.quotient_const, hmass, add_zero]
      exact h0 p (by simp)
    simp only [List.map_cons, trajectory, List.zip_cons_cons, e]
    rw [ih fun q hq => h0 q (List.mem_cons_of_mem _ hq)]

/-- **C61** Conversely: if the solver solves the equation of the first step and the first yielded
state is the initial one, the initial state is steady. -/
theorem C61_steady_necessary (P : Problem ι X Y) (hmass : P.mass (fun _ => 0) = 0) (s : Scheme)
    (N : Newton X Y) (tm : Timer) (x0 : X) (p : ℚ × ℚ) (ts : List (ℚ × ℚ))
    (hts : tm.run false 1 = .ok (p :: ts))
    (hsol : ∀ F : X → Y, F (N.solve F x0).u = 0) (ys : List (ℚ × X))
    (hy : transientRun P s N tm x0 = .ok ((p.2, x0) :: ys)) : P.spatial p.1 x0 = 0 := by
  rw [C61_textbook_recursion P s N tm x0 _ hts] at hy
  simp only [List.map_cons, trajectory, List.zip_cons_cons, Except.ok.injEq, List.cons.injEq,
    Prod.mk.injEq, true_and] at hy
  have h := hsol (fun x => P.spatial p.1 x + P.mass fun i =>
        s.quotient tm.step (P.comp x i) (P.comp x0 i) (P.comp x0 i))
  rw [hy.1] at h
  simpa only [Scheme.quotient_const, hmass, add_zero] using h

/-- C61, concrete instance: `u' + u² - 1 = 0` from the steady state 1, with damped Newton's method,
a criterion that is never met, and BDF2. -/
example : transientRun (scalarProblem fun u => u ^ 2 - 1) .bdf2 (scalarNewton (1/2) 0 7)
      ⟨0, 1, 1/2, 1, 0⟩ 1 = .ok [(1/2, 1), (1, 1)] := by
  have hts : Timer.run ⟨0, 1, 1/2, 1, 0⟩ false 1 = .ok [(1/2, 1/2), (1, 1)] := by decide +kernel
  exact C61_steady_kept _ rfl .bdf2 _ (by intro F it x h; simp [scalarNewton, h]) _ 1 _ hts
    (by intro p _; norm_num [scalarProblem])

end General

variable {X V B : Type} [Fintype V] [Fintype B] {γ : ℝ} [AddCommGroup X] [Module ℝ X]

theorem timeForm_zero {n k : ℕ} (M : HdgMesh n V B) (φ : HdgTest n k V B) :
    timeForm M (fun _ _ => 0) φ = 0 := by
  apply Finset.sum_eq_zero
  intro v _
  have : (fun _ : Fin k => (0 : ℝ)) = 0 := rfl
  simp [this]

/-- A state that solves the equations of a step in which nothing changes is steady. -/
theorem hdg_spatial_zero {n k : ℕ} (M : HdgMesh n V B) (mask : B → ℝ) (T : Set (HdgTest n k V B))
    (st : ℚ → X → HdgState n k V B) (U : X → V → Fin k → ℝ) (t : ℚ) (x : X) (s : Scheme) (dt : ℝ)
    (h : hdgStep M mask T (s.quotient dt) t (st t x) (st t x) (st t x)) :
    (hdgProblem M mask T st U).spatial t x = 0 := by
  funext φ
  have := h φ.1 φ.2
  simp only [Scheme.quotient_const] at this
  rw [timeForm_zero, zero_add] at this
  exact this

/-- **C69** The transient routine leaves uniform flow unchanged: started from a uniform gas state
with matching boundary conditions and sponge layers, it yields this very state at every step, for
every Riemann solver, scheme, mesh, damping, criterion and number of iterations. The coefficients
`x0` need not be unique: nothing is moved, not only the values. -/
theorem C69_transient {S : GasState 2} (hS : IdealGas γ S) (rs : Riemann) (M : HdgMesh 2 V B)
    (hn : ∀ b, M.normal b 0 ^ 2 + M.normal b 1 ^ 2 = 1) (mask : B → ℝ)
    (T : Set (HdgTest 2 4 V B)) (hG : Gauss M mask T)
    (st : ℚ → X → HdgState 2 4 V B) (U : X → V → Fin 4 → ℝ) (x0 : X)
    (hU : ∀ t v, (st t x0).U v = gasVec S)
    (hx : ∀ t, (st t x0).IsEuler γ rs M (fun _ => gasVec S) (fun _ => gasVec S))
    (hR : ∀ t b, Matching γ S (M.normal b) ((st t x0).R b))
    (σ : V → ℝ) (hσ : ∀ t v, spongeResidual γ (σ v) (conservativeDict S) ((st t x0).U v)
      = .ok ((st t x0).source v))
    (s : Scheme) (N : Newton X (T → ℝ)) (hN : N.KeepsRoots) (tm : Timer) (ts : List (ℚ × ℚ))
    (hts : tm.run false 1 = .ok ts) :
    transientRun (hdgProblem M mask T st U) s N tm x0 = .ok (ts.map fun p => (p.2, x0)) := by
  refine C61_steady_kept _ ?_ s N hN tm x0 ts hts ?_
  · funext φ
    exact timeForm_zero M φ.1
  · intro p _
    exact hdg_spatial_zero M mask T st U p.1 x0 .implicitEuler 1
      (C69_uniform hS rs M hn mask T hG .implicitEuler 1 p.1 (st p.1 x0) (hU p.1) (hx p.1)
        (hR p.1) σ (hσ p.1))

/-- **C69** The same for pseudo time stepping: it reports convergence after one iteration, at the
uniform state. -/
theorem C69_pseudo {S : GasState 2} (hS : IdealGas γ S) (rs : Riemann) (M : HdgMesh 2 V B)
    (hn : ∀ b, M.normal b 0 ^ 2 + M.normal b 1 ^ 2 = 1) (mask : B → ℝ)
    (T : Set (HdgTest 2 4 V B)) (hG : Gauss M mask T)
    (st : ℚ → X → HdgState 2 4 V B) (U : X → V → Fin 4 → ℝ) (x0 : X) (t dt : ℚ)
    (hU : ∀ v, (st t x0).U v = gasVec S)
    (hx : (st t x0).IsEuler γ rs M (fun _ => gasVec S) (fun _ => gasVec S))
    (hR : ∀ b, Matching γ S (M.normal b) ((st t x0).R b))
    (σ : V → ℝ) (hσ : ∀ v, spongeResidual γ (σ v) (conservativeDict S) ((st t x0).U v)
      = .ok ((st t x0).source v))
    (s : Scheme) (ps : Pseudo) (hps : ps.incrementAt ≠ 0) (N : Newton X (T → ℝ))
    (hN : N.KeepsRoots) (hm : 1 ≤ N.maxIter) (hcrit : 0 < N.crit) :
    ∃ st', pseudoRun (hdgProblem M mask T st U) s ps N t dt x0 = .ok st' ∧ st'.x = x0 ∧
      st'.isConverged = true ∧ st'.trace.length = 1 := by
  obtain ⟨st', h1, h2, h3, h4⟩ := C62_steady_state_kept (hdgProblem M mask T st U)
    (by funext φ; exact timeForm_zero M φ.1) s ps hps N hm hcrit hN t dt x0
    (hdg_spatial_zero M mask T st U t x0 .implicitEuler 1
      (C69_uniform hS rs M hn mask T hG .implicitEuler 1 t (st t x0) hU hx hR σ hσ))
  exact ⟨st', h1, h2, h3, by rw [h4]; rfl⟩

/-- **C69** The same with viscosity and the strain-heat method: the uniform state with zero
gradients is yielded unchanged at every step. -/
theorem C69_transient_viscous {cfg : FlowCfg} (ha : cfg.Accepted) (hv : cfg.visc ≠ .inviscid)
    (hM : 0 < cfg.Ma) {S : GasState 2} (hS : IdealGas cfg.γ S) (rs : Riemann) (M : HdgMesh 2 V B)
    (hn : ∀ b, M.normal b 0 ^ 2 + M.normal b 1 ^ 2 = 1) (mask : B → ℝ)
    (T : Set (HdgTest 2 4 V B)) (hG : Gauss M mask T) (T' : Set (MixedTest V B))
    (hG' : GaussMixed M T')
    (st : ℚ → X → HdgState 2 4 V B) (ms : X → MixedState V B) (U : X → V → Fin 4 → ℝ) (x0 : X)
    (hU : ∀ t v, (st t x0).U v = gasVec S)
    (hx : ∀ t, (st t x0).IsNavierStokes cfg rs M (fun _ => gasVec S) (fun _ => gasVec S) 0 0)
    (hms : ms x0 = ⟨0, fun _ => S.u, fun _ => S.T, fun _ => S.u, fun _ => S.T⟩)
    (hR : ∀ t b, MatchingViscous cfg S (M.normal b) ((st t x0).R b))
    (σ : V → ℝ) (hσ : ∀ t v, spongeResidual cfg.γ (σ v) (conservativeDict S) ((st t x0).U v)
      = .ok ((st t x0).source v))
    (s : Scheme) (N : Newton X ((T → ℝ) × (T' → ℝ))) (hN : N.KeepsRoots) (tm : Timer)
    (ts : List (ℚ × ℚ)) (hts : tm.run false 1 = .ok ts) :
    transientRun (hdgMixedProblem M mask T T' st ms U) s N tm x0
      = .ok (ts.map fun p => (p.2, x0)) := by
  refine C61_steady_kept _ ?_ s N hN tm x0 ts hts ?_
  · refine Prod.ext ?_ rfl
    funext φ
    exact timeForm_zero M φ.1
  · intro p _
    obtain ⟨h1, h2⟩ := C69_viscous ha hv hM hS rs M hn mask T hG T' hG' .implicitEuler 1 p.1
      (st p.1 x0) (hU p.1) (hx p.1) (hR p.1) σ (hσ p.1)
    refine Prod.ext (hdg_spatial_zero M mask T st U p.1 x0 .implicitEuler 1 h1) ?_
    funext P
    show mixedForm M (ms x0).Q (ms x0).u (ms x0).T (ms x0).uHat (ms x0).THat P.1 = 0
    rw [hms]
    exact h2 P.1 P.2

end Dream
