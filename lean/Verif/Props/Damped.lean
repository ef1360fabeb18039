import Mathlib.Tactic.IntervalCases
import Verif.Props.Transient
import Mathlib.Data.Matrix.Mul
import Mathlib.Analysis.SpecificLimits.Basic

/-!
# C118: damped Newton iterations on linear equations
-/

noncomputable section

namespace Dream
open Matrix

variable {ι : Type} [Fintype ι]

/-- The linear solver is exact, and the reported error is the one of the code, the absolute value of
the product of increment and residual (dream/solver.py:185-193, 238-253). -/
def Newton.Reports (N : Newton (ι → ℝ) (ι → ℝ)) : Prop :=
  ∀ (F : (ι → ℝ) → ι → ℝ) (L : (ι → ℝ) ≃ₗ[ℝ] (ι → ℝ)) (b : ι → ℝ), (∀ x, F x = L x + b) →
    ∀ it x, N.lin F it x = (L.symm (F x), some |L.symm (F x) ⬝ᵥ F x|)

theorem damped_update (F : (ι → ℝ) → ι → ℝ) (L : (ι → ℝ) ≃ₗ[ℝ] (ι → ℝ)) (b : ι → ℝ)
    (hF : ∀ x, F x = L x + b) (d : ℝ) (x : ι → ℝ) :
    F (newtonUpdate d x (L.symm (F x))) = (1 - d) • F x := by
  rw [hF (newtonUpdate d x _), newtonUpdate, map_sub, map_smul, LinearEquiv.apply_symm_apply, sub_smul,
    one_smul]
  conv_rhs => rw [hF x]
  rw [hF x]
  abel

theorem damped_error (F : (ι → ℝ) → ι → ℝ) (L : (ι → ℝ) ≃ₗ[ℝ] (ι → ℝ)) (x y : ι → ℝ) (c : ℝ)
    (h : F y = c • F x) :
    |L.symm (F y) ⬝ᵥ F y| = c ^ 2 * |L.symm (F x) ⬝ᵥ F x| := by
  rw [h, map_smul, smul_dotProduct, dotProduct_smul, smul_eq_mul, smul_eq_mul, ← mul_assoc, abs_mul,
    ← pow_two, abs_of_nonneg (sq_nonneg c)]

theorem damped_loop (N : Newton (ι → ℝ) (ι → ℝ)) (hN : N.Reports) (F : (ι → ℝ) → ι → ℝ)
    (L : (ι → ℝ) ≃ₗ[ℝ] (ι → ℝ)) (b : ι → ℝ) (hF : ∀ x, F x = L x + b) (n : ℕ) :
    ∀ (it : ℕ) (st : NLState (ι → ℝ)), st.isNan = false → st.isConverged = false →
    ∃ m, (nlLoop (N.lin F) (newtonUpdate N.damping) N.crit n it st).solves = st.solves + m ∧
      F (nlLoop (N.lin F) (newtonUpdate N.damping) N.crit n it st).u
        = (1 - N.damping) ^ m • F st.u ∧
      (nlLoop (N.lin F) (newtonUpdate N.damping) N.crit n it st).isNan = false ∧
      (((nlLoop (N.lin F) (newtonUpdate N.damping) N.crit n it st).isConverged = true ∧
        ∃ k, k < n ∧ m = k + 1 ∧
          (∀ j < k, N.crit ≤ ((1 - N.damping) ^ 2) ^ j * |L.symm (F st.u) ⬝ᵥ F st.u|) ∧
          ((1 - N.damping) ^ 2) ^ k * |L.symm (F st.u) ⬝ᵥ F st.u| < N.crit) ∨
       ((nlLoop (N.lin F) (newtonUpdate N.damping) N.crit n it st).isConverged = false ∧ m = n ∧
          ∀ j < n, N.crit ≤ ((1 - N.damping) ^ 2) ^ j * |L.symm (F st.u) ⬝ᵥ F st.u|)) := by
  induction n with
  | zero =>
    intro it st h1 h2
    exact ⟨0, by simp [nlLoop], by simp [nlLoop], by simpa [nlLoop] using h1,
      .inr ⟨by simpa [nlLoop] using h2, rfl, by simp⟩⟩
  | succ n ih =>
    intro it st h1 h2
    have hl := hN F L b hF it st.u
    have hu := damped_update F L b hF N.damping st.u
    have he := damped_error F L st.u (newtonUpdate N.damping st.u (L.symm (F st.u))) _ hu
    by_cases hc : |L.symm (F st.u) ⬝ᵥ F st.u| < N.crit
    · have e : nlLoop (N.lin F) (newtonUpdate N.damping) N.crit (n + 1) it st
          = { u := newtonUpdate N.damping st.u (L.symm (F st.u)), yields := st.yields ++ [it],
              solves := st.solves + 1, isNan := false, isConverged := true } := by
        simp [nlLoop, hl, setIterationError, hc, h1]
      rw [e]
      exact ⟨1, rfl, by simpa using hu, rfl, .inl ⟨rfl, 0, by omega, rfl, by simp, by simpa using hc⟩⟩
    · have e : nlLoop (N.lin F) (newtonUpdate N.damping) N.crit (n + 1) it st
          = nlLoop (N.lin F) (newtonUpdate N.damping) N.crit n (it + 1)
            { u := newtonUpdate N.damping st.u (L.symm (F st.u)), yields := st.yields ++ [it],
              solves := st.solves + 1, isNan := false, isConverged := false } := by
        simp [nlLoop, hl, setIterationError, hc, h1]
      rw [e]
      obtain ⟨m, m1, m2, m3, m4⟩ := ih (it + 1)
        { u := newtonUpdate N.damping st.u (L.symm (F st.u)), yields := st.yields ++ [it],
          solves := st.solves + 1, isNan := false, isConverged := false } rfl rfl
      have hp : ∀ j, ((1 - N.damping) ^ 2) ^ j
          * |L.symm (F (newtonUpdate N.damping st.u (L.symm (F st.u))))
            ⬝ᵥ F (newtonUpdate N.damping st.u (L.symm (F st.u)))|
          = ((1 - N.damping) ^ 2) ^ (j + 1) * |L.symm (F st.u) ⬝ᵥ F st.u| := fun j => by
        rw [he, pow_succ]; ring
      have hall : ∀ n' : ℕ, (∀ j < n', N.crit ≤ ((1 - N.damping) ^ 2) ^ (j + 1)
            * |L.symm (F st.u) ⬝ᵥ F st.u|) →
          ∀ j < n' + 1, N.crit ≤ ((1 - N.damping) ^ 2) ^ j * |L.symm (F st.u) ⬝ᵥ F st.u| := by
        intro n' h j hj
        cases j with
        | zero => simpa using not_lt.1 hc
        | succ j => exact h j (by omega)
      refine ⟨m + 1, by rw [m1]; show st.solves + 1 + m = st.solves + (m + 1); omega,
        by rw [m2, hu, smul_smul, pow_succ], m3, ?_⟩
      simp only [hp] at m4
      rcases m4 with ⟨c1, k, k1, k2, k3, k4⟩ | ⟨c1, c2, c3⟩
      · exact .inl ⟨c1, k + 1, by omega, by omega, hall k k3, k4⟩
      · exact .inr ⟨c1, by omega, hall n c3⟩

/-- **C118** On a linear equation the damped iteration with the factor `d` multiplies the residual by
`1 - d` in every iteration and the reported error by `(1 - d)²`. So the iteration ends converged after
`k + 1` solves, where `k` is the first iteration in which `(1 - d)^(2k)` times the first error is below
the criterion, or, if there is none, without convergence after the greatest number of iterations. For
every factor, criterion, limit, equation and starting point. -/
theorem C118_damped (N : Newton (ι → ℝ) (ι → ℝ)) (hN : N.Reports) (F : (ι → ℝ) → ι → ℝ)
    (L : (ι → ℝ) ≃ₗ[ℝ] (ι → ℝ)) (b : ι → ℝ) (hF : ∀ x, F x = L x + b) (x : ι → ℝ) :
    (N.solve F x).isNan = false ∧
    F (N.solve F x).u = (1 - N.damping) ^ (N.solve F x).solves • F x ∧
    (∀ k : ℕ, (k : ℤ) < N.maxIter →
      (∀ j < k, N.crit ≤ (1 - N.damping) ^ (2 * j) * |L.symm (F x) ⬝ᵥ F x|) →
      (1 - N.damping) ^ (2 * k) * |L.symm (F x) ⬝ᵥ F x| < N.crit →
      (N.solve F x).isConverged = true ∧ (N.solve F x).solves = k + 1) ∧
    ((∀ j : ℕ, (j : ℤ) < N.maxIter →
        N.crit ≤ (1 - N.damping) ^ (2 * j) * |L.symm (F x) ⬝ᵥ F x|) →
      (N.solve F x).isConverged = false ∧ (N.solve F x).solves = N.maxIter.toNat) := by
  obtain ⟨m, m1, m2, m3, m4⟩ := damped_loop N hN F L b hF N.maxIter.toNat 0
    { u := x, yields := [], solves := 0, isNan := false, isConverged := false } rfl rfl
  change (N.solve F x).solves = 0 + m at m1
  change F (N.solve F x).u = (1 - N.damping) ^ m • F x at m2
  change (N.solve F x).isNan = false at m3
  change ((N.solve F x).isConverged = true ∧ ∃ k, k < N.maxIter.toNat ∧ m = k + 1 ∧
          (∀ j < k, N.crit ≤ ((1 - N.damping) ^ 2) ^ j * |L.symm (F x) ⬝ᵥ F x|) ∧
          ((1 - N.damping) ^ 2) ^ k * |L.symm (F x) ⬝ᵥ F x| < N.crit) ∨
       ((N.solve F x).isConverged = false ∧ m = N.maxIter.toNat ∧
          ∀ j < N.maxIter.toNat, N.crit ≤ ((1 - N.damping) ^ 2) ^ j * |L.symm (F x) ⬝ᵥ F x|) at m4
  simp only [← pow_mul] at m4
  rw [zero_add] at m1
  refine ⟨m3, by rw [m1]; exact m2, fun k hk h1 h2 => ?_, fun h => ?_⟩
  · rcases m4 with ⟨c1, k', k1, k2, k3, k4⟩ | ⟨-, -, c3⟩
    · refine ⟨c1, ?_⟩
      have : k' = k := by
        rcases lt_trichotomy k' k with hlt | heq | hgt
        · exact absurd k4 (not_lt.2 (h1 k' hlt))
        · exact heq
        · exact absurd h2 (not_lt.2 (k3 k hgt))
      rw [m1, k2, this]
    · exact absurd h2 (not_lt.2 (c3 k (by omega)))
  · rcases m4 with ⟨-, k', k1, k2, k3, k4⟩ | ⟨c1, c2, -⟩
    · exact absurd k4 (not_lt.2 (h k' (by omega)))
    · exact ⟨c1, by rw [m1, c2]⟩

/-- **C118** With a factor between 0 and 2 the iteration converges if it is allowed enough iterations;
with any other factor it never does unless the first error is already below the criterion, and the
residual is as large as at the beginning or larger. -/
theorem C118_factors (L : (ι → ℝ) ≃ₗ[ℝ] (ι → ℝ)) (b : ι → ℝ) (F : (ι → ℝ) → ι → ℝ)
    (hF : ∀ x, F x = L x + b) (x : ι → ℝ) (d crit : ℝ) (hcrit : 0 < crit) :
    (0 < d → d < 2 → ∃ m : ℕ, ∀ N : Newton (ι → ℝ) (ι → ℝ), N.Reports → N.damping = d →
      N.crit = crit → (m : ℤ) ≤ N.maxIter → (N.solve F x).isConverged = true ∧
        (N.solve F x).solves ≤ m) ∧
    (d ≤ 0 ∨ 2 ≤ d → crit ≤ |L.symm (F x) ⬝ᵥ F x| → ∀ N : Newton (ι → ℝ) (ι → ℝ), N.Reports →
      N.damping = d → N.crit = crit → (N.solve F x).isConverged = false ∧
        ∀ i, |F x i| ≤ |F (N.solve F x).u i|) := by
  constructor
  · intro h0 h2
    have hq : (1 - d) ^ 2 < 1 := by nlinarith
    have hlim := (tendsto_pow_atTop_nhds_zero_of_lt_one (sq_nonneg (1 - d)) hq).mul_const
      |L.symm (F x) ⬝ᵥ F x|
    rw [zero_mul] at hlim
    have hex : ∃ k : ℕ, ((1 - d) ^ 2) ^ k * |L.symm (F x) ⬝ᵥ F x| < crit :=
      ((hlim.eventually (gt_mem_nhds hcrit))).exists
    classical
    refine ⟨Nat.find hex + 1, fun N hN hd hc hm => ?_⟩
    have h := (C118_damped N hN F L b hF x).2.2.1 (Nat.find hex) (by push_cast at hm; omega)
      (fun j hj => by
        rw [hd, hc, pow_mul]
        exact not_lt.1 (Nat.find_min hex hj))
      (by rw [hd, hc, pow_mul]; exact Nat.find_spec hex)
    exact ⟨h.1, h.2.le⟩
  · intro h0 he N hN hd hc
    have hq : 1 ≤ |1 - d| := by
      rcases h0 with h0 | h0
      · rw [abs_of_nonneg (by linarith)]; linarith
      · rw [abs_of_nonpos (by linarith)]; linarith
    obtain ⟨-, h2, -, h4⟩ := C118_damped N hN F L b hF x
    refine ⟨(h4 fun j _ => ?_).1, fun i => ?_⟩
    · rw [hd, hc, pow_mul, ← sq_abs]
      have := one_le_pow₀ (n := j) (one_le_pow₀ (n := 2) hq)
      nlinarith [abs_nonneg (L.symm (F x) ⬝ᵥ F x)]
    · rw [h2, hd, Pi.smul_apply, smul_eq_mul, abs_mul, abs_pow]
      have := one_le_pow₀ (n := (N.solve F x).solves) hq
      nlinarith [abs_nonneg (F x i)]

/-- **C118** Without damping the solution is found by the first iteration; the second one is needed to
notice, unless the error was below the criterion at once. -/
theorem C118_undamped (N : Newton (ι → ℝ) (ι → ℝ)) (hN : N.Reports) (hd : N.damping = 1)
    (hc : 0 < N.crit) (hm : 2 ≤ N.maxIter) (F : (ι → ℝ) → ι → ℝ) (L : (ι → ℝ) ≃ₗ[ℝ] (ι → ℝ))
    (b : ι → ℝ) (hF : ∀ x, F x = L x + b) (x : ι → ℝ) :
    F (N.solve F x).u = 0 ∧ (N.solve F x).isConverged = true ∧
    (N.solve F x).solves = if |L.symm (F x) ⬝ᵥ F x| < N.crit then 1 else 2 := by
  obtain ⟨-, h2, h3, -⟩ := C118_damped N hN F L b hF x
  have key : (N.solve F x).isConverged = true ∧
      (N.solve F x).solves = if |L.symm (F x) ⬝ᵥ F x| < N.crit then 1 else 2 := by
    split_ifs with h
    · exact h3 0 (by push_cast; omega) (by simp) (by simpa using h)
    · exact h3 1 (by push_cast; omega) (fun j hj => by
        rw [Nat.lt_one_iff.1 hj]; simpa using not_lt.1 h) (by rw [hd]; simpa using hc)
  refine ⟨?_, key.1, key.2⟩
  have hpos : (N.solve F x).solves ≠ 0 := by
    rw [key.2]; split_ifs <;> omega
  rw [h2, hd, sub_self, zero_pow hpos, zero_smul]

open Classical in
/-- A solver that reports as the code does; what it does on equations that are not linear is of no
matter here. -/
def halfway (d crit : ℝ) (m : ℤ) : Newton (ι → ℝ) (ι → ℝ) where
  lin := fun F _ x =>
    if h : ∃ (L : (ι → ℝ) ≃ₗ[ℝ] (ι → ℝ)) (b : ι → ℝ), ∀ x, F x = L x + b then
      (h.choose.symm (F x), some |h.choose.symm (F x) ⬝ᵥ F x|)
    else (0, none)
  damping := d
  crit := crit
  maxIter := m

theorem halfway_reports (d crit : ℝ) (m : ℤ) : (halfway (ι := ι) d crit m).Reports := by
  intro F L b hF it x
  have h : ∃ (L : (ι → ℝ) ≃ₗ[ℝ] (ι → ℝ)) (b : ι → ℝ), ∀ x, F x = L x + b := ⟨L, b, hF⟩
  have hL : h.choose = L := by
    obtain ⟨b', hb'⟩ := h.choose_spec
    ext1 y
    have e0 : b' = b := by
      have := (hb' 0).symm.trans (hF 0)
      simpa using this
    have := (hb' y).symm.trans (hF y)
    rw [e0] at this
    exact add_right_cancel this
  simp only [halfway, dif_pos h, hL]

/-- `x - 1 = 0` from `0` with the factor `1/2` and the criterion `1/10`: the errors are `1`, `1/4`,
`1/16`, so three solves, and `1/8` of the residual is left. -/
example : ((halfway (ι := Unit) (1 / 2) (1 / 10) 10).solve (fun x => x + fun _ => -1) 0).solves = 3 ∧
    ((halfway (ι := Unit) (1 / 2) (1 / 10) 10).solve (fun x => x + fun _ => -1) 0).isConverged = true := by
  have h := (C118_damped (halfway (ι := Unit) (1 / 2) (1 / 10) 10) (halfway_reports _ _ _)
    (fun x => x + fun _ => -1) (LinearEquiv.refl ℝ _) (fun _ => -1) (fun x => rfl) 0).2.2.1 2
  simp only [halfway, LinearEquiv.refl_symm, LinearEquiv.refl_apply] at h ⊢
  refine (h (by norm_num) (fun j hj => ?_) ?_).symm
  · interval_cases j <;> norm_num [dotProduct]
  · norm_num [dotProduct]

end Dream
