import Verif.Spec.Drift
import Verif.Props.Conservation
import Verif.Props.Triangulation

/-!
# C86: conservation does not depend on the convergence of the nonlinear solver
-/

noncomputable section

namespace Dream

open Matrix _root_.Spec

variable {ι X Y κ : Type} [AddCommGroup X] [Module ℝ X] [AddCommGroup Y]

/-! ## Amounts whose equation has no spatial part -/

/-- The tested equation `ℓ` says that the difference quotient of the linear amount `Q` vanishes. -/
structure Balances (P : Problem ι X Y) (ℓ : Y → ℝ) (Q : X → ℝ) : Prop where
  eqn : ∀ (s : Scheme) (dt : ℝ) (t : ℚ) (x cur prev : X),
    ℓ (P.spatial t x + P.mass fun i => s.quotient dt (P.comp x i) (P.comp cur i) (P.comp prev i))
      = s.quotient dt (Q x) (Q cur) (Q prev)
  linear : ∀ x y (r : ℝ), Q (x + r • y) = Q x + r * Q y

theorem nlSolve_invariant {V : Type} (lin : LinOracle V) (upd : V → V → V) (crit : ℝ) (m : ℤ)
    (u : V) (p : V → Prop) (h0 : p u)
    (hs : ∀ it x δ e, p x → lin it x = (δ, some e) → p (upd x δ)) :
    p (nlSolve lin upd crit m u).u := by
  suffices h : ∀ n it (st : NLState V), p st.u → p (nlLoop lin upd crit n it st).u from
    h _ _ _ h0
  intro n
  induction n with
  | zero => intro it st h; exact h
  | succ n ih =>
    intro it st h
    simp only [nlLoop]
    split_ifs with h1 h2
    · exact h
    · cases hl : lin it st.u with
      | mk δ e =>
        cases e with
        | none => simp [setIterationError, hl] at h1
        | some e => exact hs it _ _ e h hl
    · apply ih
      cases hl : lin it st.u with
      | mk δ e =>
        cases e with
        | none => simp [setIterationError, hl] at h1
        | some e => exact hs it _ _ e h hl

/-- The slope of the difference quotient in the new value. -/
def Scheme.slope : Scheme → ℝ → ℝ
  | .implicitEuler, dt => 1 / dt
  | .bdf2, dt => 3 / (2 * dt)

theorem quotient_add (s : Scheme) (dt a b c d : ℝ) :
    s.quotient dt (a + d) b c = s.quotient dt a b c + s.slope dt * d := by
  cases s
  · simp only [Scheme.quotient, backwardEuler, Scheme.slope]; ring
  · simp only [Scheme.quotient, backward2, Scheme.slope]; ring

/-- One Newton update of the tested equation. -/
theorem balance_update {P : Problem ι X Y} {ev : κ → Y → ℝ} {j : κ} {Q : X → ℝ}
    (hQ : Balances P (ev j) Q) {s : Scheme} {N : Newton X Y} {ε : ℝ} (hN : N.SolvesUpTo P s ev ε)
    (dt : ℝ) (t : ℚ) (cur prev : X) (it : ℕ) (x δ : X) (e : ℝ)
    (h : N.lin (fun x => P.spatial t x + P.mass fun i =>
      s.quotient dt (P.comp x i) (P.comp cur i) (P.comp prev i)) it x = (δ, some e)) :
    |s.slope dt * Q δ - s.quotient dt (Q x) (Q cur) (Q prev)| ≤ ε ∧
    s.quotient dt (Q (newtonUpdate N.damping x δ)) (Q cur) (Q prev)
      = s.quotient dt (Q x) (Q cur) (Q prev) - N.damping * (s.slope dt * Q δ) := by
  obtain ⟨d, hd, hb⟩ := hN dt t cur prev it x δ e h j
  simp only [hQ.eqn, hQ.linear, quotient_add] at hd hb
  constructor
  · have h2 : HasDerivAt (fun r : ℝ => s.quotient dt (Q x) (Q cur) (Q prev) + s.slope dt * (r * Q δ))
        (s.slope dt * (1 * Q δ)) 0 :=
      (((hasDerivAt_id (0 : ℝ)).mul_const (Q δ)).const_mul (s.slope dt)).const_add _
    rw [hd.unique h2, one_mul] at hb
    exact hb
  · have e1 : newtonUpdate N.damping x δ = x + (-N.damping) • δ := by
      rw [newtonUpdate, neg_smul, sub_eq_add_neg]
    rw [e1, hQ.linear, quotient_add]
    ring

/-- One time step: a drift of at most `dt ε`. -/
theorem step_drift {P : Problem ι X Y} {ev : κ → Y → ℝ} {j : κ} {Q : X → ℝ}
    (hQ : Balances P (ev j) Q) {s : Scheme} {N : Newton X Y} {ε : ℝ} (hε : 0 ≤ ε)
    (hN : N.SolvesUpTo P s ev ε) (hd0 : 0 ≤ N.damping) (hd1 : N.damping ≤ 1)
    (dt : ℝ) (hdt : 0 < dt) (t : ℚ) (cur prev : X) (hp : |Q cur - Q prev| ≤ dt * ε) :
    |Q (N.solve (fun x => P.spatial t x + P.mass fun i =>
      s.quotient dt (P.comp x i) (P.comp cur i) (P.comp prev i)) cur).u - Q cur| ≤ dt * ε := by
  have key : |s.quotient dt (Q (N.solve (fun x => P.spatial t x + P.mass fun i =>
      s.quotient dt (P.comp x i) (P.comp cur i) (P.comp prev i)) cur).u) (Q cur) (Q prev)| ≤ ε := by
    refine nlSolve_invariant _ _ _ _ _
      (fun x => |s.quotient dt (Q x) (Q cur) (Q prev)| ≤ ε) ?_ ?_
    · cases s
      · simp only [Scheme.quotient, backwardEuler, sub_self, zero_div, abs_zero]; exact hε
      · simp only [Scheme.quotient, backward2]
        rw [show 3 * Q cur - 4 * Q cur + Q prev = -(Q cur - Q prev) by ring, abs_div, abs_neg,
          abs_of_pos (by positivity : 0 < 2 * dt), div_le_iff₀ (by positivity)]
        nlinarith
    · intro it x δ e hx hl
      obtain ⟨h1, h2⟩ := balance_update hQ hN dt t cur prev it x δ e hl
      rw [h2]
      generalize s.quotient dt (Q x) (Q cur) (Q prev) = g at *
      generalize s.slope dt * Q δ = z at *
      have := abs_le.1 h1
      have := abs_le.1 hx
      rw [abs_le]
      constructor <;> nlinarith
  generalize (N.solve (fun x => P.spatial t x + P.mass fun i =>
      s.quotient dt (P.comp x i) (P.comp cur i) (P.comp prev i)) cur).u = x at *
  cases s
  · simp only [Scheme.quotient, backwardEuler] at key
    rw [abs_div, abs_of_pos hdt, div_le_iff₀ hdt] at key
    linarith
  · simp only [Scheme.quotient, backward2] at key
    rw [abs_div, abs_of_pos (by positivity : 0 < 2 * dt), div_le_iff₀ (by positivity)] at key
    have := abs_le.1 key
    have := abs_le.1 hp
    rw [abs_le]
    constructor <;> nlinarith

/-- One time step with exact linear solves, for any damping. -/
theorem step_exact {P : Problem ι X Y} {ev : κ → Y → ℝ} {j : κ} {Q : X → ℝ}
    (hQ : Balances P (ev j) Q) {s : Scheme} {N : Newton X Y} (hN : N.SolvesUpTo P s ev 0)
    (dt : ℝ) (hdt : dt ≠ 0) (t : ℚ) (cur prev : X) (hp : Q cur = Q prev) :
    Q (N.solve (fun x => P.spatial t x + P.mass fun i =>
      s.quotient dt (P.comp x i) (P.comp cur i) (P.comp prev i)) cur).u = Q cur := by
  have key : s.quotient dt (Q (N.solve (fun x => P.spatial t x + P.mass fun i =>
      s.quotient dt (P.comp x i) (P.comp cur i) (P.comp prev i)) cur).u) (Q cur) (Q prev) = 0 := by
    refine nlSolve_invariant _ _ _ _ _
      (fun x => s.quotient dt (Q x) (Q cur) (Q prev) = 0) ?_ ?_
    · rw [hp]
      cases s
      · simp [Scheme.quotient, backwardEuler]
      · simp only [Scheme.quotient, backward2]
        rw [show 3 * Q prev - 4 * Q prev + Q prev = 0 by ring, zero_div]
    · intro it x δ e hx hl
      obtain ⟨h1, h2⟩ := balance_update hQ hN dt t cur prev it x δ e hl
      have h3 : s.slope dt * Q δ = 0 := by
        rw [hx, sub_zero] at h1
        exact abs_nonpos_iff.1 h1
      rw [h2, h3, hx]
      ring
  generalize (N.solve (fun x => P.spatial t x + P.mass fun i =>
      s.quotient dt (P.comp x i) (P.comp cur i) (P.comp prev i)) cur).u = x at *
  cases s
  · simp only [Scheme.quotient, backwardEuler, div_eq_zero_iff, hdt, or_false] at key
    linarith
  · simp only [Scheme.quotient, backward2, div_eq_zero_iff, mul_eq_zero, hdt, or_false] at key
    rcases key with h | h
    · linarith
    · norm_num at h

theorem run_drift {P : Problem ι X Y} {ev : κ → Y → ℝ} {j : κ} {Q : X → ℝ}
    (hQ : Balances P (ev j) Q) {s : Scheme} {N : Newton X Y} {ε : ℝ} (hε : 0 ≤ ε)
    (hN : N.SolvesUpTo P s ev ε) (hd0 : 0 ≤ N.damping) (hd1 : N.damping ≤ 1)
    (tm : Timer) (hdt : 0 < tm.step) (x0 : X) (ys : List (ℚ × X))
    (h : transientRun P s N tm x0 = .ok ys) (k : ℕ) (hk : k < ys.length) :
    |Q ys[k].2 - Q x0| ≤ (k + 1) * (tm.step * ε) := by
  have hdt' : (0 : ℝ) < tm.step := by exact_mod_cast hdt
  cases hts : tm.run false 1 with
  | error e => rw [C61_timer_error P s N tm x0 e hts] at h; cases h
  | ok ts =>
    rw [C61_textbook_recursion P s N tm x0 ts hts] at h
    cases h
    suffices key : ∀ (l : List ℚ) (prev cur : X), |Q cur - Q prev| ≤ tm.step * ε →
        ∀ k (hk : k < (trajectory (fun t cur prev =>
          (N.solve (fun x => P.spatial t x + P.mass fun i =>
            s.quotient tm.step (P.comp x i) (P.comp cur i) (P.comp prev i)) cur).u)
          prev cur l).length), |Q (trajectory (fun t cur prev =>
          (N.solve (fun x => P.spatial t x + P.mass fun i =>
            s.quotient tm.step (P.comp x i) (P.comp cur i) (P.comp prev i)) cur).u)
          prev cur l)[k] - Q cur| ≤ (k + 1) * (tm.step * ε) by
      rw [List.getElem_zip]
      exact key _ x0 x0 (by simp; positivity) k _
    intro l
    induction l with
    | nil => intro prev cur _ k hk; simp [trajectory] at hk
    | cons t l ih =>
      intro prev cur hp k hk
      have h1 := step_drift hQ hε hN hd0 hd1 tm.step hdt' t cur prev hp
      cases k with
      | zero => simpa [trajectory] using h1
      | succ k =>
        simp only [trajectory, List.getElem_cons_succ]
        have h2 := ih cur _ h1 k (by simpa [trajectory] using hk)
        push_cast
        have := abs_le.1 h1
        have := abs_le.1 h2
        rw [abs_le]
        constructor <;> linarith

theorem run_exact {P : Problem ι X Y} {ev : κ → Y → ℝ} {j : κ} {Q : X → ℝ}
    (hQ : Balances P (ev j) Q) {s : Scheme} {N : Newton X Y}
    (hN : N.SolvesUpTo P s ev 0) (tm : Timer) (hdt : tm.step ≠ 0) (x0 : X) (ys : List (ℚ × X))
    (h : transientRun P s N tm x0 = .ok ys) : ∀ y ∈ ys, Q y.2 = Q x0 := by
  have hdt' : (tm.step : ℝ) ≠ 0 := by exact_mod_cast hdt
  cases hts : tm.run false 1 with
  | error e => rw [C61_timer_error P s N tm x0 e hts] at h; cases h
  | ok ts =>
    rw [C61_textbook_recursion P s N tm x0 ts hts] at h
    cases h
    suffices key : ∀ (l : List ℚ) (prev cur : X), Q cur = Q prev →
        ∀ x ∈ trajectory (fun t cur prev =>
          (N.solve (fun x => P.spatial t x + P.mass fun i =>
            s.quotient tm.step (P.comp x i) (P.comp cur i) (P.comp prev i)) cur).u)
          prev cur l, Q x = Q cur by
      intro y hy
      exact key _ x0 x0 rfl _ (List.of_mem_zip hy).2
    intro l
    induction l with
    | nil => intro prev cur _ x hx; simp [trajectory] at hx
    | cons t l ih =>
      intro prev cur hp x hx
      have h1 := step_exact hQ hN tm.step hdt' t cur prev hp
      simp only [trajectory, List.mem_cons] at hx
      rcases hx with rfl | hx
      · exact h1
      · exact (ih cur _ h1 x hx).trans h1

/-- A positive step stays positive. -/
theorem update_pos (ps : Pseudo) (hf : 0 < ps.incrementFactor) {old new : ℚ} (h0 : 0 < old)
    {it : ℕ} (h : ps.update old it = .ok new) : 0 < new := by
  have hf' : (0 : ℚ) < ps.incrementFactor := by exact_mod_cast hf
  unfold Pseudo.update at h
  split_ifs at h with h1 h2 h3 <;> simp only [Except.ok.injEq] at h <;> subst h
  · split_ifs
    · linarith
    · positivity
  · exact h0
  · exact h0

theorem pseudo_exact {P : Problem ι X Y} {ev : κ → Y → ℝ} {j : κ} {Q : X → ℝ}
    (hQ : Balances P (ev j) Q) {s : Scheme} {N : Newton X Y}
    (hN : N.SolvesUpTo P s ev 0) (ps : Pseudo) (hf : 0 < ps.incrementFactor) (t dt : ℚ)
    (hdt : 0 < dt) (x0 : X) (st : PseudoState ι X Y)
    (h : pseudoRun P s ps N t dt x0 = .ok st) : Q st.x = Q x0 := by
  simp only [pseudoRun, init_levelsOf] at h
  suffices key : ∀ n it (prev cur : X) (st st' : PseudoState ι X Y),
      st.levels = s.levelsOf (P.comp prev) (P.comp cur) → 0 < st.dt → Q cur = Q st.x →
      pseudoLoop P s ps N t n it st = .ok st' → Q st'.x = Q st.x from
    key _ 0 x0 x0 _ st rfl hdt rfl h
  intro n
  induction n with
  | zero => intro it prev cur st st' _ _ _ h; cases h; rfl
  | succ n ih =>
    intro it prev cur st st' hl hdt hc h
    cases hu : ps.update st.dt it with
    | error e =>
      simp only [pseudoLoop, hl, timeStep_levelsOf, hu] at h
      cases h
    | ok dt' =>
      have hpos := update_pos ps hf hdt hu
      have hpos' : (dt' : ℝ) ≠ 0 := by exact_mod_cast hpos.ne'
      rw [pseudoLoop_succ P s ps N t n it prev cur st dt' hl hu] at h
      simp only at h
      cases hlin : N.lin (P.stepEquation (s.quotient dt') t st.x cur) it st.x with
      | mk δ e =>
        rw [hlin] at h
        cases e with
        | none => simp at h; rw [← h]
        | some e =>
          obtain ⟨h1, h2⟩ := balance_update hQ hN dt' t st.x cur it st.x δ e hlin
          have hg : s.quotient dt' (Q st.x) (Q st.x) (Q cur) = 0 := by
            rw [hc]
            cases s
            · simp [Scheme.quotient, backwardEuler]
            · simp only [Scheme.quotient, backward2]
              rw [show 3 * Q st.x - 4 * Q st.x + Q st.x = 0 by ring, zero_div]
          have hδ : Q δ = 0 := by
            rw [hg, sub_zero] at h1
            have := abs_nonpos_iff.1 h1
            rcases mul_eq_zero.1 this with h | h
            · exfalso
              cases s <;> simp [Scheme.slope, hpos'] at h
            · exact h
          have hx : Q (newtonUpdate N.damping st.x δ) = Q st.x := by
            have e1 : newtonUpdate N.damping st.x δ = st.x + (-N.damping) • δ := by
              rw [newtonUpdate, neg_smul, sub_eq_add_neg]
            rw [e1, hQ.linear, hδ, mul_zero, add_zero]
          simp only [Option.isNone_some, Bool.false_eq_true, if_false] at h
          split_ifs at h with hcv
          · cases h; exact hx
          · exact (ih (it + 1) cur st.x _ st' rfl hpos hx.symm h).trans hx

/-! ## The discretisation on a closed domain -/

section Hdg

variable {n k : ℕ} {V B : Type} [Fintype V] [Fintype B]

/-- The amount of the `i`-th conserved quantity of the unknowns `x`. -/
def amount (M : HdgMesh n V B) (U : X → V → Fin k → ℝ) (i : Fin k) (x : X) : ℝ :=
  ∑ v, M.wV v * U x v i

/-- Tested with a constant, the spatial part vanishes: the domain is closed (no boundary replaces
the transmission condition) and there are no sponge layers. -/
theorem closed_spatial (M : HdgMesh n V B) (mask : B → ℝ) (hmask : ∀ b, mask b = 1)
    (st : HdgState n k V B) (hR : ∀ b, st.R b = 0) (hsrc : ∀ v, st.source v = 0) (i : Fin k) :
    convectionForm M mask st.F st.Fn (constantTest mask i)
      + diffusionForm M mask st.G st.Gn (constantTest mask i)
      + boundaryForm M st.R (constantTest mask i) + timeForm M st.source (constantTest mask i)
      = 0 := by
  have e2 : convectionForm M mask st.F st.Fn (constantTest mask i) = 0 := by
    simp only [convectionForm, constantTest, frobenius, Matrix.zero_apply, mul_zero,
      Finset.sum_const_zero, neg_zero, zero_add, hmask, one_smul, ← Finset.sum_add_distrib]
    exact Finset.sum_eq_zero fun b _ => by ring
  have e3 : diffusionForm M mask st.G st.Gn (constantTest mask i) = 0 := by
    simp only [diffusionForm, constantTest, frobenius, Matrix.zero_apply, mul_zero,
      Finset.sum_const_zero, zero_sub, hmask, one_smul, ← Finset.sum_neg_distrib,
      ← Finset.sum_add_distrib]
    exact Finset.sum_eq_zero fun b _ => by ring
  have e4 : boundaryForm M st.R (constantTest mask i) = 0 := by
    simp [boundaryForm, hR]
  have e5 : timeForm M st.source (constantTest (n := n) (V := V) mask i) = 0 := by
    simp [timeForm, hsrc]
  rw [e2, e3, e4, e5]
  ring

theorem quotient_amount (M : HdgMesh n V B) (U : X → V → Fin k → ℝ) (i : Fin k) (mask : B → ℝ)
    (s : Scheme) (dt : ℝ) (x cur prev : X) :
    timeForm M (fun v i => s.quotient dt (U x v i) (U cur v i) (U prev v i))
      (constantTest (n := n) mask i)
      = s.quotient dt (amount M U i x) (amount M U i cur) (amount M U i prev) := by
  have e1 : ∀ dU : V → Fin k → ℝ, timeForm M dU (constantTest mask i : HdgTest n k V B)
      = ∑ v, M.wV v * dU v i := by
    intro dU
    simp [timeForm, constantTest]
  rw [e1]
  cases s
  · simp only [Scheme.quotient, backwardEuler, amount, ← Finset.sum_sub_distrib, Finset.sum_div]
    exact Finset.sum_congr rfl fun v _ => by ring
  · simp only [Scheme.quotient, backward2, amount, Finset.mul_sum,
      ← Finset.sum_sub_distrib, ← Finset.sum_add_distrib, Finset.sum_div]
    exact Finset.sum_congr rfl fun v _ => by ring

theorem amount_linear (M : HdgMesh n V B) (U : X →ₗ[ℝ] V → Fin k → ℝ) (i : Fin k) (x y : X)
    (r : ℝ) : amount M U i (x + r • y) = amount M U i x + r * amount M U i y := by
  simp only [amount, map_add, map_smul, Pi.add_apply, Pi.smul_apply, smul_eq_mul, Finset.mul_sum,
    ← Finset.sum_add_distrib]
  exact Finset.sum_congr rfl fun v _ => by ring

theorem hdg_balances (M : HdgMesh n V B) (mask : B → ℝ) (hmask : ∀ b, mask b = 1)
    (T : Set (HdgTest n k V B)) (hT : HasConstants mask T) (st : ℚ → X → HdgState n k V B)
    (hR : ∀ t x b, (st t x).R b = 0) (hsrc : ∀ t x v, (st t x).source v = 0)
    (U : X →ₗ[ℝ] V → Fin k → ℝ) (i : Fin k) :
    Balances (hdgProblem M mask T st U) (fun y => y ⟨constantTest mask i, hT i⟩)
      (amount M U i) := by
  refine ⟨fun s dt t x cur prev => ?_, amount_linear M U i⟩
  rw [← quotient_amount M U i mask]
  simp only [hdgProblem, Pi.add_apply]
  rw [closed_spatial M mask hmask (st t x) (hR t x) (hsrc t x) i, zero_add]

theorem hdgMixed_balances (M : HdgMesh 2 V B) (mask : B → ℝ) (hmask : ∀ b, mask b = 1)
    (T : Set (HdgTest 2 4 V B)) (hT : HasConstants mask T) (T' : Set (MixedTest V B))
    (st : ℚ → X → HdgState 2 4 V B) (hR : ∀ t x b, (st t x).R b = 0)
    (hsrc : ∀ t x v, (st t x).source v = 0) (ms : X → MixedState V B)
    (U : X →ₗ[ℝ] V → Fin 4 → ℝ) (i : Fin 4) :
    Balances (hdgMixedProblem M mask T T' st ms U) (fun y => y.1 ⟨constantTest mask i, hT i⟩)
      (amount M U i) := by
  refine ⟨fun s dt t x cur prev => ?_, amount_linear M U i⟩
  have := (hdg_balances M mask hmask T hT st hR hsrc U i).eqn s dt t x cur prev
  simpa only [hdgMixedProblem, hdgProblem, Prod.fst_add] using this

/-- **C86** Exact linear solves conserve exactly: on a closed domain (all boundaries periodic or
without condition) without sponge layers, for all fluxes, both schemes, every damping, criterion,
iteration limit and number of steps, whether or not Newton's method converges and even if some of
its solves end in NaN, the total of every conserved quantity is the same in every yielded state. -/
theorem C86_conserved (M : HdgMesh n V B) (mask : B → ℝ) (hmask : ∀ b, mask b = 1)
    (T : Set (HdgTest n k V B)) (hT : HasConstants mask T) (st : ℚ → X → HdgState n k V B)
    (hR : ∀ t x b, (st t x).R b = 0) (hsrc : ∀ t x v, (st t x).source v = 0)
    (U : X →ₗ[ℝ] V → Fin k → ℝ) (s : Scheme) (N : Newton X (T → ℝ))
    (hN : N.SolvesUpTo (hdgProblem M mask T st U) s (fun φ y => y φ) 0)
    (tm : Timer) (hdt : tm.step ≠ 0) (x0 : X) (ys : List (ℚ × X))
    (h : transientRun (hdgProblem M mask T st U) s N tm x0 = .ok ys) (i : Fin k) :
    ∀ y ∈ ys, ∑ v, M.wV v * U y.2 v i = ∑ v, M.wV v * U x0 v i :=
  run_exact (ev := fun (φ : T) (y : T → ℝ) => y φ) (j := ⟨constantTest mask i, hT i⟩)
    (hdg_balances M mask hmask T hT st hR hsrc U i) hN tm hdt x0 ys h

/-- **C86** Inexact linear solves: if every increment that is used satisfies the linearised equations
up to `ε` and the damping lies between 0 and 1, the total of every conserved quantity drifts by at
most `ε` per unit of time, again without any assumption on convergence. -/
theorem C86_drift (M : HdgMesh n V B) (mask : B → ℝ) (hmask : ∀ b, mask b = 1)
    (T : Set (HdgTest n k V B)) (hT : HasConstants mask T) (st : ℚ → X → HdgState n k V B)
    (hR : ∀ t x b, (st t x).R b = 0) (hsrc : ∀ t x v, (st t x).source v = 0)
    (U : X →ₗ[ℝ] V → Fin k → ℝ) (s : Scheme) (N : Newton X (T → ℝ)) (ε : ℝ) (hε : 0 ≤ ε)
    (hN : N.SolvesUpTo (hdgProblem M mask T st U) s (fun φ y => y φ) ε)
    (hd0 : 0 ≤ N.damping) (hd1 : N.damping ≤ 1)
    (tm : Timer) (hdt : 0 < tm.step) (x0 : X) (ys : List (ℚ × X))
    (h : transientRun (hdgProblem M mask T st U) s N tm x0 = .ok ys) (i : Fin k) :
    ∀ j (hj : j < ys.length),
      |∑ v, M.wV v * U ys[j].2 v i - ∑ v, M.wV v * U x0 v i| ≤ ε * ((j + 1) * tm.step) := by
  intro j hj
  refine (run_drift (ev := fun (φ : T) (y : T → ℝ) => y φ) (j := ⟨constantTest mask i, hT i⟩)
    (hdg_balances M mask hmask T hT st hR hsrc U i) hε hN hd0 hd1 tm hdt x0 ys h j hj).trans
    (le_of_eq (by ring))

/-- **C86** The same for viscous flow with the strain-heat method. -/
theorem C86_viscous (M : HdgMesh 2 V B) (mask : B → ℝ) (hmask : ∀ b, mask b = 1)
    (T : Set (HdgTest 2 4 V B)) (hT : HasConstants mask T) (T' : Set (MixedTest V B))
    (st : ℚ → X → HdgState 2 4 V B) (hR : ∀ t x b, (st t x).R b = 0)
    (hsrc : ∀ t x v, (st t x).source v = 0) (ms : X → MixedState V B)
    (U : X →ₗ[ℝ] V → Fin 4 → ℝ) (s : Scheme) (N : Newton X ((T → ℝ) × (T' → ℝ)))
    (hN : N.SolvesUpTo (hdgMixedProblem M mask T T' st ms U) s (fun φ y => y.1 φ) 0)
    (tm : Timer) (hdt : tm.step ≠ 0) (x0 : X) (ys : List (ℚ × X))
    (h : transientRun (hdgMixedProblem M mask T T' st ms U) s N tm x0 = .ok ys) (i : Fin 4) :
    ∀ y ∈ ys, ∑ v, M.wV v * U y.2 v i = ∑ v, M.wV v * U x0 v i :=
  run_exact (ev := fun (φ : T) (y : (T → ℝ) × (T' → ℝ)) => y.1 φ) (j := ⟨constantTest mask i, hT i⟩)
    (hdgMixed_balances M mask hmask T hT T' st hR hsrc ms U i) hN tm hdt x0 ys h

/-- **C86** Pseudo time stepping moves towards a steady state with the same totals: whatever the
step control, and whether it stops by convergence, NaN or exhaustion. -/
theorem C86_pseudo (M : HdgMesh n V B) (mask : B → ℝ) (hmask : ∀ b, mask b = 1)
    (T : Set (HdgTest n k V B)) (hT : HasConstants mask T) (st : ℚ → X → HdgState n k V B)
    (hR : ∀ t x b, (st t x).R b = 0) (hsrc : ∀ t x v, (st t x).source v = 0)
    (U : X →ₗ[ℝ] V → Fin k → ℝ) (s : Scheme) (N : Newton X (T → ℝ))
    (hN : N.SolvesUpTo (hdgProblem M mask T st U) s (fun φ y => y φ) 0)
    (ps : Pseudo) (hf : 0 < ps.incrementFactor) (t dt : ℚ) (hdt : 0 < dt) (x0 : X)
    (r : PseudoState (V × Fin k) X (T → ℝ))
    (h : pseudoRun (hdgProblem M mask T st U) s ps N t dt x0 = .ok r) (i : Fin k) :
    ∑ v, M.wV v * U r.x v i = ∑ v, M.wV v * U x0 v i :=
  pseudo_exact (ev := fun (φ : T) (y : T → ℝ) => y φ) (j := ⟨constantTest mask i, hT i⟩)
    (hdg_balances M mask hmask T hT st hR hsrc U i) hN ps hf t dt hdt x0 r h

end Hdg

/-- **C86** On every triangulation without boundary (all sides have a triangle across, possibly by
periodicity), of any orders and quadrature. -/
theorem C86_triangulation {E : Type} [Fintype E] {K : Triangulation E} {R : VolumeRule}
    {S : SideRule} (hK : K.Conforming) {bcs : Conditions} (hc : K.Covered bcs)
    (hclosed : ∀ x, K.across x ≠ none) {k : ℕ} (order : E → ℕ) (orderHat : E × Fin 3 → ℕ)
    (st : ℚ → X → HdgState 2 k (E × Fin R.n) ((E × Fin 3) × Fin S.n))
    (hR : ∀ t x b, (st t x).R b = 0) (hsrc : ∀ t x v, (st t x).source v = 0)
    (U : X →ₗ[ℝ] E × Fin R.n → Fin k → ℝ) (s : Scheme)
    (N : Newton X (K.space k order orderHat R S → ℝ))
    (hN : N.SolvesUpTo (hdgProblem (K.mesh R S) ((K.mesh R S).mask bcs)
      (K.space k order orderHat R S) st U) s (fun φ y => y φ) 0)
    (tm : Timer) (hdt : tm.step ≠ 0) (x0 : X) (ys : List (ℚ × X))
    (h : transientRun (hdgProblem (K.mesh R S) ((K.mesh R S).mask bcs)
      (K.space k order orderHat R S) st U) s N tm x0 = .ok ys) (i : Fin k) :
    ∀ y ∈ ys, ∑ v, (K.mesh R S).wV v * U y.2 v i = ∑ v, (K.mesh R S).wV v * U x0 v i :=
  C86_conserved (K.mesh R S) _ (fun b => hc.mask_one b (hclosed b.1))
    _ (C84_constants hK hc order orderHat) st hR hsrc U s N hN tm hdt x0 ys h i

/-! ## Concrete instances -/

open Classical in
/-- A linear solver that returns a solution of the linearised equations where there is one, and NaN
otherwise; half steps, one iteration, and a criterion that is never met. -/
def halfNewton (ev : κ → Y → ℝ) : Newton X Y where
  lin := fun F _ x => if h : ∃ δ, SolvesLinearised ev 0 F x δ then (h.choose, some 1) else (0, none)
  damping := 1 / 2
  crit := 0
  maxIter := 1

theorem halfNewton_solves (P : Problem ι X Y) (s : Scheme) (ev : κ → Y → ℝ) :
    (halfNewton ev).SolvesUpTo P s ev 0 := by
  intro dt t cur prev it x δ e h
  simp only [halfNewton] at h
  split_ifs at h with hd
  · cases h
    exact hd.choose_spec
  · cases h

/-- A ring of two cells. -/
def ringMesh : HdgMesh 1 Bool (Bool × Bool) :=
  ⟨fun _ => 1, fun _ => 1, fun b _ => if b.2 then 1 else -1, fun _ => none⟩

/-- What the integrals see of the two cell values with the upwind flux of `f(u) = u³`. -/
def ringState (x : Bool → Fin 1 → ℝ) : HdgState 1 1 Bool (Bool × Bool) where
  U := x
  F := 0
  G := 0
  Fn := fun b _ => if b.2 then x b.1 0 ^ 3 else -x (!b.1) 0 ^ 3
  Gn := 0
  R := 0
  source := 0

/-- Piecewise constant test functions, with one value on each of the two facets. -/
def ringSpace : Set (HdgTest 1 1 Bool (Bool × Bool)) :=
  {φ | ∃ (a g : Bool → ℝ), φ = ⟨0, fun c _ => a c, fun b _ => a b.1,
    fun b _ => g (if b.2 then b.1 else !b.1)⟩}

theorem ring_constants : HasConstants (fun _ => 1) ringSpace := by
  intro i
  refine ⟨fun _ => 1, fun _ => 1, ?_⟩
  have : (Pi.single i 1 : Fin 1 → ℝ) = fun _ => 1 := by
    funext j
    rw [Subsingleton.elim j i, Pi.single_eq_same]
  simp only [constantTest, this, one_smul]
  rfl

/-- C86, concrete instance: the nonlinear equation on the ring of two cells, with damped, never
converging iterations. -/
example (s : Scheme) (tm : Timer) (hdt : tm.step ≠ 0) (x0 : Bool → Fin 1 → ℝ)
    (ys : List (ℚ × (Bool → Fin 1 → ℝ)))
    (h : transientRun (hdgProblem ringMesh (fun _ => 1) ringSpace (fun _ => ringState)
      (LinearMap.id (R := ℝ))) s (halfNewton fun φ y => y φ) tm x0 = .ok ys) :
    ∀ y ∈ ys, y.2 true 0 + y.2 false 0 = x0 true 0 + x0 false 0 := by
  intro y hy
  have := C86_conserved ringMesh (fun _ => 1) (fun _ => rfl) ringSpace ring_constants
    (fun _ => ringState) (fun _ _ _ => rfl) (fun _ _ _ => rfl) LinearMap.id s
    (halfNewton fun φ y => y φ) (halfNewton_solves _ _ _) tm hdt x0 ys h 0 y hy
  simpa [ringMesh] using this

/-- The linearised equations on the ring have a solution in every state: the instance above is not
one of NaN. -/
theorem ring_solvable (dt : ℝ) (hdt : 0 < dt) (cur prev x : Bool → Fin 1 → ℝ) :
    ∃ δ, SolvesLinearised (fun (φ : ringSpace) (y : ringSpace → ℝ) => y φ) 0
      (fun x => (hdgProblem ringMesh (fun _ => 1) ringSpace (fun _ => ringState)
        (LinearMap.id (R := ℝ))).spatial 0 x + (hdgProblem ringMesh (fun _ => 1) ringSpace
          (fun _ => ringState) (LinearMap.id (R := ℝ))).mass fun i =>
        Scheme.implicitEuler.quotient dt (x i.1 i.2) (cur i.1 i.2) (prev i.1 i.2)) x δ := by
  have hF : ∀ (φ : HdgTest 1 1 Bool (Bool × Bool)) (a g : Bool → ℝ) (hφ : φ ∈ ringSpace),
      φ = ⟨0, fun c _ => a c, fun b _ => a b.1, fun b _ => g (if b.2 then b.1 else !b.1)⟩ →
      ∀ x : Bool → Fin 1 → ℝ, ((hdgProblem ringMesh (fun _ => 1) ringSpace (fun _ => ringState)
        (LinearMap.id (R := ℝ))).spatial 0 x + (hdgProblem ringMesh (fun _ => 1) ringSpace
          (fun _ => ringState) (LinearMap.id (R := ℝ))).mass fun i =>
        Scheme.implicitEuler.quotient dt (x i.1 i.2) (cur i.1 i.2) (prev i.1 i.2)) ⟨φ, hφ⟩
      = a true * ((x true 0 - cur true 0) / dt + x true 0 ^ 3 - x false 0 ^ 3)
        + a false * ((x false 0 - cur false 0) / dt + x false 0 ^ 3 - x true 0 ^ 3) := by
    rintro _ a g hφ rfl x
    simp [hdgProblem, convectionForm, diffusionForm, boundaryForm, timeForm, frobenius, ringMesh,
      ringState, Scheme.quotient, backwardEuler, Fintype.sum_prod_type, dotProduct]
    ring
  set p := x true 0 with hp
  set q := x false 0 with hq
  set f := (p - cur true 0) / dt + p ^ 3 - q ^ 3 with hf
  set f' := (q - cur false 0) / dt + q ^ 3 - p ^ 3 with hf'
  have hD : 0 < 1 / dt ^ 2 + (3 * p ^ 2 + 3 * q ^ 2) / dt := by positivity
  set D := 1 / dt ^ 2 + (3 * p ^ 2 + 3 * q ^ 2) / dt with hDdef
  refine ⟨fun c _ => if c then ((1 / dt + 3 * q ^ 2) * f + 3 * q ^ 2 * f') / D
    else ((1 / dt + 3 * p ^ 2) * f' + 3 * p ^ 2 * f) / D, ?_⟩
  rintro ⟨φ, hφ⟩
  obtain ⟨a, g, e⟩ := hφ
  obtain ⟨d1, hd1⟩ : ∃ d, ((1 / dt + 3 * q ^ 2) * f + 3 * q ^ 2 * f') / D = d := ⟨_, rfl⟩
  obtain ⟨d2, hd2⟩ : ∃ d, ((1 / dt + 3 * p ^ 2) * f' + 3 * p ^ 2 * f) / D = d := ⟨_, rfl⟩
  rw [hd1, hd2]
  have e1 : (1 / dt + 3 * p ^ 2) * d1 - 3 * q ^ 2 * d2 = f := by
    rw [← hd1, ← hd2]
    have : (1 / dt + 3 * p ^ 2) * (((1 / dt + 3 * q ^ 2) * f + 3 * q ^ 2 * f') / D)
        - 3 * q ^ 2 * (((1 / dt + 3 * p ^ 2) * f' + 3 * p ^ 2 * f) / D)
        = f * ((1 / dt ^ 2 + (3 * p ^ 2 + 3 * q ^ 2) / dt) / D) := by ring
    rw [this, ← hDdef, div_self hD.ne', mul_one]
  have e2 : (1 / dt + 3 * q ^ 2) * d2 - 3 * p ^ 2 * d1 = f' := by
    rw [← hd1, ← hd2]
    have : (1 / dt + 3 * q ^ 2) * (((1 / dt + 3 * p ^ 2) * f' + 3 * p ^ 2 * f) / D)
        - 3 * p ^ 2 * (((1 / dt + 3 * q ^ 2) * f + 3 * q ^ 2 * f') / D)
        = f' * ((1 / dt ^ 2 + (3 * p ^ 2 + 3 * q ^ 2) / dt) / D) := by ring
    rw [this, ← hDdef, div_self hD.ne', mul_one]
  have hlin : ∀ u v : ℝ, HasDerivAt (fun r : ℝ => u + r * v) v 0 := by
    intro u v
    simpa using ((hasDerivAt_id (0 : ℝ)).mul_const v).const_add u
  have hcube : ∀ u v : ℝ, HasDerivAt (fun r : ℝ => (u + r * v) ^ 3) (3 * u ^ 2 * v) 0 := by
    intro u v
    have h : HasDerivAt (fun r : ℝ => (u + r * v) ^ 3) (((3 : ℕ) : ℝ) * (u + 0 * v) ^ (3 - 1) * v) 0 :=
      (hlin u v).pow 3
    rw [show ((3 : ℕ) : ℝ) * (u + 0 * v) ^ (3 - 1) * v = 3 * u ^ 2 * v by norm_num] at h
    exact h
  have hder := ((((hlin p d1).sub_const (cur true 0)).div_const dt).add (hcube p d1)).sub
    (hcube q d2)
  have hder' := ((((hlin q d2).sub_const (cur false 0)).div_const dt).add (hcube q d2)).sub
    (hcube p d1)
  refine ⟨a true * (d1 / dt + 3 * p ^ 2 * d1 - 3 * q ^ 2 * d2)
        + a false * (d2 / dt + 3 * q ^ 2 * d2 - 3 * p ^ 2 * d1), ?_, ?_⟩
  · refine (HasDerivAt.add (hder.const_mul (a true)) (hder'.const_mul (a false))).congr_of_eventuallyEq
      (Filter.Eventually.of_forall fun r => ?_)
    refine (hF φ a g ⟨a, g, e⟩ e _).trans ?_
    simp [← hp, ← hq]
  · refine le_of_eq (abs_eq_zero.2 (sub_eq_zero.2 (Eq.trans ?_ (hF φ a g ⟨a, g, e⟩ e x).symm)))
    rw [← hp, ← hq, ← hf, ← hf', ← e1, ← e2]
    ring

end Dream
