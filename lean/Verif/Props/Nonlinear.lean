import Verif.Model.Nonlinear
import Verif.Spec.Nonlinear
import Mathlib.Tactic.Module
import Mathlib.Tactic.Abel

/-!
# C06: the nonlinear iteration
-/

namespace Dream

theorem nlLoop_outcome {V} (lin : LinOracle V) (upd : V → V → V) (crit : ℝ) (u0 : V)
    (n it : ℕ) (st : NLState V)
    (hu : st.u = Spec.iterates (fun i u => (lin i u).1) upd u0 it)
    (hy : st.yields = List.range it) (hs : st.solves = it)
    (hn : st.isNan = false) (hc : st.isConverged = false)
    (hb : ∀ i < it, ∃ e, (lin i (Spec.iterates (fun i u => (lin i u).1) upd u0 i)).2 = some e ∧ crit ≤ e) :
    ∃ k, (nlLoop lin upd crit n it st).yields = List.range k ∧
      (nlLoop lin upd crit n it st).solves = k ∧
      Spec.Outcome (Spec.iterates (fun i u => (lin i u).1) upd u0)
        (fun i => (lin i (Spec.iterates (fun i u => (lin i u).1) upd u0 i)).2) crit (it + n) k
        (nlLoop lin upd crit n it st).u (nlLoop lin upd crit n it st).isNan
        (nlLoop lin upd crit n it st).isConverged := by
  induction n generalizing it st with
  | zero => exact ⟨it, hy, hs, .exhausted rfl hb hu hn hc⟩
  | succ n ih =>
    unfold nlLoop
    simp only
    rw [hu]
    set w := Spec.iterates (fun i u => (lin i u).1) upd u0 with hw
    cases herr : (lin it (w it)).2 with
    | none =>
      simp only [setIterationError, if_true]
      refine ⟨it + 1, by rw [hy, List.range_succ], by simp [hs], ?_⟩
      exact .diverged (by omega) (by omega) hb (by simpa using herr) rfl rfl rfl
    | some e =>
      simp only [setIterationError, hn, Bool.false_eq_true, if_false, decide_eq_true_eq]
      by_cases hlt : e < crit
      · rw [if_pos hlt]
        refine ⟨it + 1, by simp [hy, List.range_succ], by simp [hs], ?_⟩
        exact .converged (by omega) (by omega) hb ⟨e, by simpa using herr, hlt⟩ rfl rfl (by simp [hlt])
      · rw [if_neg hlt]
        have := ih (it + 1) { u := upd (w it) (lin it (w it)).1, yields := st.yields ++ [it], solves := st.solves + 1, isNan := st.isNan, isConverged := decide (e < crit) }
          rfl (by simp [hy, List.range_succ]) (by simp [hs]) hn (by simp [hlt])
          (by
            intro i hi
            rcases Nat.lt_succ_iff_lt_or_eq.1 hi with h | h
            · exact hb i h
            · subst h; exact ⟨e, herr, not_lt.1 hlt⟩)
        have e1 : it + (n + 1) = it + 1 + n := by omega
        rw [e1]
        convert this using 3
        all_goals simp [hn]

/-- **C06** Whatever the linear solves return, `solve` ends after some `k` iterations,
yields exactly `0,…,k-1`, performs exactly `k ≤ max_iterations` linear solves and ends
in one of three ways: NaN in the last step (flag set, last increment not applied), last
error below the criterion (flag set, all increments applied), or limit reached (no flag,
all increments applied). In all earlier steps the error was a number not below the
criterion. -/
theorem C06_solve_outcome {V} (lin : LinOracle V) (upd : V → V → V) (crit : ℝ) (maxIter : ℤ)
    (u0 : V) :
    ∃ k ≤ maxIter.toNat, (nlSolve lin upd crit maxIter u0).yields = List.range k ∧
      (nlSolve lin upd crit maxIter u0).solves = k ∧
      Spec.Outcome (Spec.iterates (fun i u => (lin i u).1) upd u0)
        (fun i => (lin i (Spec.iterates (fun i u => (lin i u).1) upd u0 i)).2) crit
        maxIter.toNat k
        (nlSolve lin upd crit maxIter u0).u (nlSolve lin upd crit maxIter u0).isNan
        (nlSolve lin upd crit maxIter u0).isConverged := by
  obtain ⟨k, h1, h2, h3⟩ := nlLoop_outcome lin upd crit u0 maxIter.toNat 0
    { u := u0, yields := [], solves := 0, isNan := false, isConverged := false }
    rfl rfl rfl rfl rfl (by simp)
  rw [Nat.zero_add] at h3
  refine ⟨k, ?_, h1, h2, h3⟩
  cases h3 <;> omega

/-- **C06** The two flags are never set together, and if no step ever produces NaN the
NaN flag stays down. -/
theorem C06_flags {V} (lin : LinOracle V) (upd : V → V → V) (crit : ℝ) (maxIter : ℤ) (u0 : V) :
    ¬ ((nlSolve lin upd crit maxIter u0).isNan = true ∧
        (nlSolve lin upd crit maxIter u0).isConverged = true) ∧
    ((∀ i u, (lin i u).2 ≠ none) → (nlSolve lin upd crit maxIter u0).isNan = false) := by
  obtain ⟨k, _, _, _, h⟩ := C06_solve_outcome lin upd crit maxIter u0
  cases h with
  | diverged h1 h2 hb hl hu hn hc => exact ⟨by simp [hc], fun h => absurd hl (h _ _)⟩
  | converged h1 h2 hb hl hu hn hc => exact ⟨by simp [hn], fun _ => hn⟩
  | exhausted h2 hb hu hn hc => exact ⟨by simp [hn], fun _ => hn⟩

section Affine
variable {V : Type} [AddCommGroup V] [Module ℝ V]

/-- **C06** On an affine problem with solution `ustar` and exact linear solves
(`du = u - ustar`), the error after `k` damped Newton updates is `(1-ω)^k` times the
initial error. -/
theorem C06_newton_affine_geometric (ω : ℝ) (u0 ustar : V) (k : ℕ) :
    Spec.iterates (fun _ u => u - ustar) (newtonUpdate ω) u0 k - ustar
      = (1 - ω) ^ k • (u0 - ustar) := by
  induction k with
  | zero => simp [Spec.iterates]
  | succ k ih =>
    have : Spec.iterates (fun _ u => u - ustar) (newtonUpdate ω) u0 (k + 1) - ustar
        = (1 - ω) • (Spec.iterates (fun _ u => u - ustar) (newtonUpdate ω) u0 k - ustar) := by
      simp only [Spec.iterates, newtonUpdate]
      module
    rw [this, ih, smul_smul, pow_succ']

/-- **C06** Full Newton steps solve every affine problem: with damping 1, a positive
criterion and at least two iterations, `solve` reports convergence and returns the
exact solution. `err` is any error measure that vanishes for a zero increment. -/
theorem C06_newton_affine_converges (err : V → ℝ) (herr : err 0 = 0) (crit : ℝ) (hcrit : 0 < crit)
    (maxIter : ℤ) (hmax : 2 ≤ maxIter) (u0 ustar : V) :
    (nlSolve (fun _ u => (u - ustar, some (err (u - ustar)))) (newtonUpdate 1) crit maxIter u0).u
      = ustar ∧
    (nlSolve (fun _ u => (u - ustar, some (err (u - ustar)))) (newtonUpdate 1) crit maxIter u0).isConverged
      = true := by
  obtain ⟨k, hk, _, _, h⟩ := C06_solve_outcome
    (fun _ u => (u - ustar, some (err (u - ustar)))) (newtonUpdate (1:ℝ)) crit maxIter u0
  have hw : ∀ k, 1 ≤ k → Spec.iterates (fun _ u => u - ustar) (newtonUpdate (1:ℝ)) u0 k = ustar := by
    intro k hk
    have := C06_newton_affine_geometric (1:ℝ) u0 ustar k
    rw [sub_self, zero_pow (by omega), zero_smul, sub_eq_zero] at this
    exact this
  cases h with
  | diverged h1 h2 hb hl hu hn hc => simp at hl
  | converged h1 h2 hb hl hu hn hc => exact ⟨by rw [hu]; exact hw k h1, hc⟩
  | exhausted h2 hb hu hn hc =>
    exfalso
    obtain ⟨e, he, hle⟩ := hb 1 (by omega)
    simp only at he
    rw [hw 1 le_rfl, sub_self, herr] at he
    injection he with he
    linarith

end Affine

/-- C06, concrete instances: NaN in the second step leaves the first update in place;
the affine problem `u = 3` over ℝ is solved. -/
example : (nlSolve (V := ℝ) (fun i _ => (1, if i = 1 then none else some 5)) (newtonUpdate 1) 1 10 7).u = 6 ∧
    (nlSolve (V := ℝ) (fun i _ => (1, if i = 1 then none else some 5)) (newtonUpdate 1) 1 10 7).isNan = true ∧
    (nlSolve (V := ℝ) (fun i _ => (1, if i = 1 then none else some 5)) (newtonUpdate 1) 1 10 7).solves = 2 := by
  norm_num [nlSolve, nlLoop, setIterationError, newtonUpdate, show Int.toNat 10 = 10 from rfl]

example : (nlSolve (V := ℝ) (fun _ u => (u - 3, some |(u - 3)|)) (newtonUpdate 1) (1/100) 10 7).u = 3 :=
  (C06_newton_affine_converges (fun x => |x|) (by simp) (1/100) (by norm_num) 10 (by norm_num) 7 3).1

end Dream
