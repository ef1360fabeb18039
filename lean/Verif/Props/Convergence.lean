import Verif.Props.Stability
import Verif.Props.Timer
import Verif.Spec.Convergence
import Mathlib.Analysis.Calculus.Deriv.MeanValue
import Mathlib.Analysis.Calculus.Deriv.Pow
import Mathlib.Analysis.SpecialFunctions.ExpDeriv
import Mathlib.Algebra.Order.BigOperators.Ring.Finset

/-!
# C87: computed solutions converge to the exact solution of the semi-discrete equations
-/

noncomputable section

namespace Dream

open _root_.Spec

variable {ι : Type} [Fintype ι]

/-! ## Taylor's formula, expanded backwards in time -/

theorem back_bound {f f' : ℝ → ℝ} {a b C : ℝ} {n : ℕ}
    (hf : ∀ s ∈ Set.Icc a b, HasDerivWithinAt f (f' s) (Set.Icc a b) s)
    (hb : ∀ s ∈ Set.Icc a b, |f' s| ≤ C * (b - s) ^ n) (h0 : f b = 0) :
    ∀ s ∈ Set.Icc a b, |f s| ≤ C * (b - s) ^ (n + 1) / (n + 1) := by
  have key : ∀ (g g' : ℝ → ℝ), (∀ s ∈ Set.Icc a b, HasDerivWithinAt g (g' s) (Set.Icc a b) s) →
      (∀ s ∈ Set.Icc a b, |g' s| ≤ C * (b - s) ^ n) → g b = 0 →
      ∀ s ∈ Set.Icc a b, g s ≤ C * (b - s) ^ (n + 1) / (n + 1) := by
    intro g g' hg hgb hg0 s hs
    have hn : ((n : ℝ) + 1) ≠ 0 := by positivity
    have hd : ∀ s ∈ Set.Icc a b, HasDerivWithinAt
        (fun s => C * (b - s) ^ (n + 1) / (n + 1) - g s) (-(C * (b - s) ^ n) - g' s)
        (Set.Icc a b) s := by
      intro s hs
      have h1 : HasDerivAt (fun s : ℝ => C * (b - s) ^ (n + 1) / (n + 1))
          (C * (((n + 1 : ℕ) : ℝ) * (b - s) ^ n * (-1)) / (n + 1)) s :=
        (((((hasDerivAt_id s).const_sub b).pow (n + 1)).const_mul C).div_const _)
      have h2 : C * (((n + 1 : ℕ) : ℝ) * (b - s) ^ n * (-1)) / (n + 1) = -(C * (b - s) ^ n) := by
        push_cast
        field_simp
      rw [h2] at h1
      exact h1.hasDerivWithinAt.sub (hg s hs)
    have hanti : AntitoneOn (fun s => C * (b - s) ^ (n + 1) / (n + 1) - g s) (Set.Icc a b) := by
      refine antitoneOn_of_hasDerivWithinAt_nonpos (convex_Icc a b)
        (fun s hs => (hd s hs).continuousWithinAt)
        (fun s hs => (hd s (interior_subset hs)).mono interior_subset) (fun s hs => ?_)
      have := hgb s (interior_subset hs)
      have := neg_abs_le (g' s)
      linarith
    have := hanti hs ⟨hs.1.trans hs.2, le_rfl⟩ hs.2
    simp only [sub_self, hg0] at this
    have e : C * (0 : ℝ) ^ (n + 1) / (n + 1) = 0 := by rw [zero_pow (by omega)]; simp
    linarith
  intro s hs
  refine abs_le.2 ⟨?_, key f f' hf hb h0 s hs⟩
  have := key (fun s => -f s) (fun s => -f' s) (fun s hs => (hf s hs).neg)
    (fun s hs => by rw [abs_neg]; exact hb s hs) (by simp [h0]) s hs
  linarith

theorem taylor1 {f f1 : ℝ → ℝ} {a b K : ℝ}
    (h1 : ∀ s ∈ Set.Icc a b, HasDerivWithinAt f (f1 s) (Set.Icc a b) s)
    (hK : ∀ s ∈ Set.Icc a b, |f1 s| ≤ K) (s : ℝ) (hs : s ∈ Set.Icc a b) :
    |f s - f b| ≤ K * (b - s) := by
  have := back_bound (n := 0) (f := fun s => f s - f b) (f' := f1) (C := K)
    (fun s hs => (h1 s hs).sub_const _) (fun s hs => by simpa using hK s hs) (by simp) s hs
  simpa using this

theorem taylor2 {f f1 f2 : ℝ → ℝ} {a b K : ℝ}
    (h1 : ∀ s ∈ Set.Icc a b, HasDerivWithinAt f (f1 s) (Set.Icc a b) s)
    (h2 : ∀ s ∈ Set.Icc a b, HasDerivWithinAt f1 (f2 s) (Set.Icc a b) s)
    (hK : ∀ s ∈ Set.Icc a b, |f2 s| ≤ K) (s : ℝ) (hs : s ∈ Set.Icc a b) :
    |f s - f b + f1 b * (b - s)| ≤ K * (b - s) ^ 2 / 2 := by
  have hlin : ∀ s, HasDerivWithinAt (fun s => f1 b * (b - s)) (-f1 b) (Set.Icc a b) s := by
    intro s
    have := (((hasDerivAt_id s).const_sub b).const_mul (f1 b)).hasDerivWithinAt (s := Set.Icc a b)
    simpa using this
  have := back_bound (n := 1) (f := fun s => f s - f b + f1 b * (b - s))
    (f' := fun s => f1 s - f1 b) (C := K)
    (fun s hs => ((h1 s hs).sub_const (f b)).add (hlin s))
    (fun s hs => by simpa using taylor1 h2 hK s hs) (by simp) s hs
  norm_num at this ⊢
  exact this

theorem taylor3 {f f1 f2 f3 : ℝ → ℝ} {a b K : ℝ}
    (h1 : ∀ s ∈ Set.Icc a b, HasDerivWithinAt f (f1 s) (Set.Icc a b) s)
    (h2 : ∀ s ∈ Set.Icc a b, HasDerivWithinAt f1 (f2 s) (Set.Icc a b) s)
    (h3 : ∀ s ∈ Set.Icc a b, HasDerivWithinAt f2 (f3 s) (Set.Icc a b) s)
    (hK : ∀ s ∈ Set.Icc a b, |f3 s| ≤ K) (s : ℝ) (hs : s ∈ Set.Icc a b) :
    |f s - f b + f1 b * (b - s) - f2 b * (b - s) ^ 2 / 2| ≤ K * (b - s) ^ 3 / 6 := by
  have hq : ∀ s, HasDerivWithinAt (fun s => f1 b * (b - s) - f2 b * (b - s) ^ 2 / 2)
      (-f1 b + f2 b * (b - s)) (Set.Icc a b) s := by
    intro s
    have e1 := ((hasDerivAt_id s).const_sub b).const_mul (f1 b)
    have e2 := (((((hasDerivAt_id s).const_sub b).pow 2).const_mul (f2 b)).div_const 2)
    have := (e1.sub e2).hasDerivWithinAt (s := Set.Icc a b)
    have e : f1 b * -1 - f2 b * (((2 : ℕ) : ℝ) * (b - s) ^ (2 - 1) * -1) / 2
        = -f1 b + f2 b * (b - s) := by
      push_cast
      ring
    rw [← e]
    exact this
  have := back_bound (n := 2)
    (f := fun s => f s - f b + (f1 b * (b - s) - f2 b * (b - s) ^ 2 / 2))
    (f' := fun s => f1 s - f1 b + f2 b * (b - s)) (C := K / 2)
    (fun s hs => by
      have := ((h1 s hs).sub_const (f b)).add (hq s)
      have e : f1 s - f1 b + f2 b * (b - s) = f1 s + (-f1 b + f2 b * (b - s)) := by ring
      rw [e]
      exact this)
    (fun s hs => by
      have := taylor2 h2 h3 hK s hs
      linarith) (by simp) s hs
  norm_num at this
  have e : f s - f b + f1 b * (b - s) - f2 b * (b - s) ^ 2 / 2
      = f s - f b + (f1 b * (b - s) - f2 b * (b - s) ^ 2 / 2) := by ring
  rw [e]
  linarith

/-! ## The weighted root mean square -/

theorem dot_cauchy (w u v : ι → ℝ) (hw : ∀ i, 0 ≤ w i) : dot w u v ≤ rms w u * rms w v := by
  have h := Finset.sum_mul_sq_le_sq_mul_sq Finset.univ (fun i => √(w i) * u i)
    (fun i => √(w i) * v i)
  have e : ∀ a b : ι → ℝ, ∑ i, (√(w i) * a i) * (√(w i) * b i) = dot w a b := by
    intro a b
    refine Finset.sum_congr rfl fun i _ => ?_
    have := Real.mul_self_sqrt (hw i)
    linear_combination (a i * b i) * this
  have e2 : ∀ a : ι → ℝ, ∑ i, (√(w i) * a i) ^ 2 = dot w a a := by
    intro a
    rw [← e a a]
    exact Finset.sum_congr rfl fun i _ => by ring
  rw [e, e2, e2] at h
  rw [rms, rms, ← Real.sqrt_mul (dot_nonneg w u hw)]
  exact Real.le_sqrt_of_sq_le h

theorem rms_sq (w u : ι → ℝ) (hw : ∀ i, 0 ≤ w i) : rms w u ^ 2 = dot w u u :=
  Real.sq_sqrt (dot_nonneg w u hw)

theorem rms_nonneg (w u : ι → ℝ) : 0 ≤ rms w u := Real.sqrt_nonneg _

/-- A componentwise bound. -/
theorem rms_bound (w u : ι → ℝ) (hw : ∀ i, 0 ≤ w i) (K : ℝ) (hK : 0 ≤ K) (h : ∀ i, |u i| ≤ K) :
    rms w u ≤ K * rms w 1 := by
  rw [rms, rms, ← Real.sqrt_sq hK, ← Real.sqrt_mul (sq_nonneg K)]
  refine Real.sqrt_le_sqrt ?_
  simp only [dot, Finset.mul_sum, Pi.one_apply]
  refine Finset.sum_le_sum fun i _ => ?_
  have : u i * u i ≤ K ^ 2 := by
    rw [← abs_mul_abs_self]
    nlinarith [h i, abs_nonneg (u i)]
  nlinarith [hw i]

/-! ## Propagation of errors -/

/-- `y` satisfies the equation of a step up to the defect `τ`. -/
def DefectStep (S : Submodule ℝ (ι → ℝ)) (w : ι → ℝ) (a : ℚ → (ι → ℝ) → (ι → ℝ) → ℝ)
    (q : ℝ → ℝ → ℝ → ℝ) (t : ℚ) (y cur prev τ : ι → ℝ) : Prop :=
  y ∈ S ∧ ∀ φ ∈ S, dot w (fun i => q (y i) (cur i) (prev i)) φ + a t y φ = dot w τ φ

theorem dot_sub_left (w u v φ : ι → ℝ) : dot w (u - v) φ = dot w u φ - dot w v φ := by
  simp only [dot, ← Finset.sum_sub_distrib, Pi.sub_apply]
  exact Finset.sum_congr rfl fun i _ => by ring

theorem dot_smul_left (w u φ : ι → ℝ) (c : ℝ) : dot w (c • u) φ = c * dot w u φ := by
  simp only [dot, Finset.mul_sum, Pi.smul_apply, smul_eq_mul]
  exact Finset.sum_congr rfl fun i _ => by ring

theorem dot_neg_left (w u φ : ι → ℝ) : dot w (-u) φ = -dot w u φ := by
  simp only [dot, ← Finset.sum_neg_distrib, Pi.neg_apply]
  exact Finset.sum_congr rfl fun i _ => by ring

theorem rms_neg (w u : ι → ℝ) : rms w (-u) = rms w u := by
  simp [rms, dot]

theorem ie_error (S : Submodule ℝ (ι → ℝ)) (w : ι → ℝ) (hw : ∀ i, 0 ≤ w i)
    (a : ℚ → (ι → ℝ) → (ι → ℝ) → ℝ) (ha : Dissipative S a) (dt : ℝ) (hdt : 0 < dt) (t : ℚ)
    (x cur prev y cur' prev' τ : ι → ℝ)
    (hx : weakStep S w a (Scheme.implicitEuler.quotient dt) t x cur prev)
    (hy : DefectStep S w a (Scheme.implicitEuler.quotient dt) t y cur' prev' τ) :
    rms w (x - y) ≤ rms w (cur - cur') + dt * rms w τ := by
  have hxy : x - y ∈ S := S.sub_mem hx.1 hy.1
  have e1 := hx.2 _ hxy
  have e2 := hy.2 _ hxy
  have e3 := ha t x hx.1 y hy.1
  have key : dt * (dot w (fun i => Scheme.implicitEuler.quotient dt (x i) (cur i) (prev i)) (x - y)
      - dot w (fun i => Scheme.implicitEuler.quotient dt (y i) (cur' i) (prev' i)) (x - y))
      = dot w (x - y) (x - y) - dot w (cur - cur') (x - y) := by
    simp only [dot, ← Finset.sum_sub_distrib, Finset.mul_sum]
    apply Finset.sum_congr rfl
    intro i _
    simp only [Scheme.quotient, backwardEuler, Pi.sub_apply]
    field_simp
    ring
  have h1 : dot w (x - y) (x - y) ≤ dot w (cur - cur') (x - y) - dt * dot w τ (x - y) := by
    have : dt * (dot w (fun i => Scheme.implicitEuler.quotient dt (x i) (cur i) (prev i)) (x - y)
        - dot w (fun i => Scheme.implicitEuler.quotient dt (y i) (cur' i) (prev' i)) (x - y))
        ≤ dt * -dot w τ (x - y) := mul_le_mul_of_nonneg_left (by linarith) hdt.le
    linarith
  have h2 := dot_cauchy w (cur - cur') (x - y) hw
  have h3 := dot_cauchy w (-τ) (x - y) hw
  rw [dot_neg_left, rms_neg] at h3
  rw [← rms_sq w _ hw] at h1
  by_contra hlt
  push Not at hlt
  have h4 : 0 ≤ rms w (cur - cur') + dt * rms w τ :=
    add_nonneg (rms_nonneg _ _) (mul_nonneg hdt.le (rms_nonneg _ _))
  have h5 : dt * -dot w τ (x - y) ≤ dt * (rms w τ * rms w (x - y)) :=
    mul_le_mul_of_nonneg_left h3 hdt.le
  nlinarith [rms_nonneg w (x - y)]

/-- The energy norm of BDF2 for the errors `e` and `e0` of two successive states. -/
def bdf2Norm (w e e0 : ι → ℝ) : ℝ := √(dot w e e + dot w ((2 : ℝ) • e - e0) ((2 : ℝ) • e - e0))

theorem rms_le_bdf2Norm (w e e0 : ι → ℝ) (hw : ∀ i, 0 ≤ w i) : rms w e ≤ bdf2Norm w e e0 :=
  Real.sqrt_le_sqrt (le_add_of_nonneg_right (dot_nonneg w _ hw))

theorem bdf2_error (S : Submodule ℝ (ι → ℝ)) (w : ι → ℝ) (hw : ∀ i, 0 ≤ w i)
    (a : ℚ → (ι → ℝ) → (ι → ℝ) → ℝ) (ha : Dissipative S a) (dt : ℝ) (hdt : 0 < dt) (t : ℚ)
    (x cur prev y cur' prev' τ : ι → ℝ)
    (hx : weakStep S w a (Scheme.bdf2.quotient dt) t x cur prev)
    (hy : DefectStep S w a (Scheme.bdf2.quotient dt) t y cur' prev' τ) :
    bdf2Norm w (x - y) (cur - cur') ≤ bdf2Norm w (cur - cur') (prev - prev') + 4 * dt * rms w τ := by
  have hxy : x - y ∈ S := S.sub_mem hx.1 hy.1
  have e1 := hx.2 _ hxy
  have e2 := hy.2 _ hxy
  have e3 := ha t x hx.1 y hy.1
  have nn : ∀ e e0 : ι → ℝ, 0 ≤ dot w e e + dot w ((2 : ℝ) • e - e0) ((2 : ℝ) • e - e0) :=
    fun e e0 => add_nonneg (dot_nonneg w _ hw) (dot_nonneg w _ hw)
  have hsq : ∀ e e0 : ι → ℝ, bdf2Norm w e e0 ^ 2
      = dot w e e + dot w ((2 : ℝ) • e - e0) ((2 : ℝ) • e - e0) := fun e e0 => Real.sq_sqrt (nn e e0)
  have key : 4 * dt * (dot w (fun i => Scheme.bdf2.quotient dt (x i) (cur i) (prev i)) (x - y)
      - dot w (fun i => Scheme.bdf2.quotient dt (y i) (cur' i) (prev' i)) (x - y))
      = bdf2Norm w (x - y) (cur - cur') ^ 2 - bdf2Norm w (cur - cur') (prev - prev') ^ 2
        + dot w (x - y - (2 : ℝ) • (cur - cur') + (prev - prev'))
            (x - y - (2 : ℝ) • (cur - cur') + (prev - prev')) := by
    rw [hsq, hsq]
    simp only [dot, ← Finset.sum_sub_distrib, ← Finset.sum_add_distrib, Finset.mul_sum]
    apply Finset.sum_congr rfl
    intro i _
    simp only [Scheme.quotient, backward2, Pi.sub_apply, Pi.add_apply, Pi.smul_apply, smul_eq_mul]
    field_simp
    ring
  have h0 := dot_nonneg w (x - y - (2 : ℝ) • (cur - cur') + (prev - prev')) hw
  have h3 := dot_cauchy w (-τ) (x - y) hw
  rw [dot_neg_left, rms_neg] at h3
  have h1 : 4 * dt * (dot w (fun i => Scheme.bdf2.quotient dt (x i) (cur i) (prev i)) (x - y)
      - dot w (fun i => Scheme.bdf2.quotient dt (y i) (cur' i) (prev' i)) (x - y))
      ≤ 4 * dt * (rms w τ * rms w (x - y)) :=
    mul_le_mul_of_nonneg_left (by linarith) (by positivity)
  have h4 : rms w τ * rms w (x - y) ≤ rms w τ * bdf2Norm w (x - y) (cur - cur') :=
    mul_le_mul_of_nonneg_left (rms_le_bdf2Norm w _ _ hw) (rms_nonneg _ _)
  have h5 : 4 * dt * (rms w τ * rms w (x - y))
      ≤ 4 * dt * (rms w τ * bdf2Norm w (x - y) (cur - cur')) :=
    mul_le_mul_of_nonneg_left h4 (by positivity)
  obtain ⟨A, hA⟩ : ∃ A, bdf2Norm w (x - y) (cur - cur') = A := ⟨_, rfl⟩
  obtain ⟨B, hB⟩ : ∃ B, bdf2Norm w (cur - cur') (prev - prev') = B := ⟨_, rfl⟩
  have hB0 : 0 ≤ B := hB ▸ Real.sqrt_nonneg _
  have hA0 : 0 ≤ A := hA ▸ Real.sqrt_nonneg _
  have hD0 : 0 ≤ 4 * dt * rms w τ := mul_nonneg (by positivity) (rms_nonneg _ _)
  rw [hA, hB]
  rw [hA, hB] at key
  rw [hA] at h5
  by_contra hlt
  push Not at hlt
  nlinarith

theorem ie_errors (S : Submodule ℝ (ι → ℝ)) (w : ι → ℝ) (hw : ∀ i, 0 ≤ w i)
    (a : ℚ → (ι → ℝ) → (ι → ℝ) → ℝ) (ha : Dissipative S a) (dt : ℝ) (hdt : 0 < dt) (ts : List ℚ)
    (prev cur : ι → ℝ) (xs : List (ι → ℝ)) (y τ : ℕ → ι → ℝ) (D : ℝ)
    (hx : Satisfies (weakStep S w a (Scheme.implicitEuler.quotient dt)) prev cur ts xs)
    (hy : ∀ k (hk : k < ts.length), DefectStep S w a (Scheme.implicitEuler.quotient dt) ts[k]
      (y (k + 1)) (y k) (y k) (τ k))
    (hτ : ∀ k, k < ts.length → rms w (τ k) ≤ D) :
    ∀ k (hk : k < xs.length), rms w (xs[k] - y (k + 1)) ≤ rms w (cur - y 0) + (k + 1) * (dt * D) := by
  induction ts generalizing prev cur xs y τ with
  | nil => cases xs <;> simp_all [Satisfies]
  | cons t ts ih =>
    cases xs with
    | nil => simp
    | cons x xs =>
      obtain ⟨h1, h2⟩ := hx
      have hy0 : DefectStep S w a (Scheme.implicitEuler.quotient dt) t (y 1) (y 0) prev (τ 0) :=
        hy 0 (by simp)
      have e0 := ie_error S w hw a ha dt hdt t x cur prev (y 1) (y 0) prev (τ 0) h1 hy0
      have d0 := mul_le_mul_of_nonneg_left (hτ 0 (by simp)) hdt.le
      intro k hk
      cases k with
      | zero =>
        simp only [List.getElem_cons_zero, Nat.cast_zero, zero_add, one_mul]
        linarith
      | succ k =>
        have := ih cur x xs (fun k => y (k + 1)) (fun k => τ (k + 1)) h2
          (fun k hk => hy (k + 1) (by simpa using hk)) (fun k hk => hτ (k + 1) (by simpa using hk))
          k (by simpa using hk)
        simp only [List.getElem_cons_succ]
        push_cast
        simp only [zero_add] at this
        linarith

theorem bdf2_errors (S : Submodule ℝ (ι → ℝ)) (w : ι → ℝ) (hw : ∀ i, 0 ≤ w i)
    (a : ℚ → (ι → ℝ) → (ι → ℝ) → ℝ) (ha : Dissipative S a) (dt : ℝ) (hdt : 0 < dt) (ts : List ℚ)
    (prev cur : ι → ℝ) (xs : List (ι → ℝ)) (y τ : ℕ → ι → ℝ) (D : ℕ → ℝ)
    (hx : Satisfies (weakStep S w a (Scheme.bdf2.quotient dt)) prev cur ts xs)
    (hy : ∀ k (hk : k < ts.length), DefectStep S w a (Scheme.bdf2.quotient dt) ts[k]
      (y (k + 2)) (y (k + 1)) (y k) (τ k))
    (hτ : ∀ k, k < ts.length → rms w (τ k) ≤ D k) :
    ∀ k (hk : k < xs.length), rms w (xs[k] - y (k + 2))
      ≤ bdf2Norm w (cur - y 1) (prev - y 0) + 4 * dt * ∑ j ∈ Finset.range (k + 1), D j := by
  induction ts generalizing prev cur xs y τ D with
  | nil => cases xs <;> simp_all [Satisfies]
  | cons t ts ih =>
    cases xs with
    | nil => simp
    | cons x xs =>
      obtain ⟨h1, h2⟩ := hx
      have e0 := bdf2_error S w hw a ha dt hdt t x cur prev (y 2) (y 1) (y 0) (τ 0) h1
        (hy 0 (by simp))
      have d0 := mul_le_mul_of_nonneg_left (hτ 0 (by simp)) (by positivity : 0 ≤ 4 * dt)
      intro k hk
      cases k with
      | zero =>
        have := rms_le_bdf2Norm w (x - y 2) (cur - y 1) hw
        simp only [List.getElem_cons_zero, zero_add, Finset.range_one, Finset.sum_singleton]
        linarith
      | succ k =>
        have := ih cur x xs (fun k => y (k + 1)) (fun k => τ (k + 1))
          (fun k => D (k + 1)) h2
          (fun k hk => hy (k + 1) (by simpa using hk)) (fun k hk => hτ (k + 1) (by simpa using hk))
          k (by simpa using hk)
        simp only [List.getElem_cons_succ]
        rw [Finset.sum_range_succ']
        simp only [zero_add] at this
        linarith

/-! ## The theorems -/

theorem convergence_stepTimes_length (t0 dt : ℚ) (n : ℕ) : (stepTimes t0 dt n).length = n := by
  simp [stepTimes]

theorem stepTimes_get (t0 dt : ℚ) (n k : ℕ) (hk : k < (stepTimes t0 dt n).length) :
    (stepTimes t0 dt n)[k] = t0 + (k + 1) * dt := by
  simp [stepTimes]

theorem satisfies_length {X T : Type} {eqn : T → X → X → X → Prop} {p c : X} {ts : List T}
    {xs : List X} (h : Satisfies eqn p c ts xs) : xs.length = ts.length := by
  induction ts generalizing p c xs with
  | nil => cases xs <;> simp_all [Satisfies]
  | cons t ts ih =>
    cases xs with
    | nil => simp [Satisfies] at h
    | cons x xs => simp [ih h.2]

theorem time_mem {t0 dt : ℚ} (hdt : 0 < dt) {n k : ℕ} (hk : k ≤ n) :
    ((t0 + k * dt : ℚ) : ℝ) ∈ Set.Icc (t0 : ℝ) (t0 + n * dt) := by
  have h1 : (0 : ℝ) < dt := by exact_mod_cast hdt
  have h2 : (k : ℝ) ≤ n := by exact_mod_cast hk
  have h3 : (0 : ℝ) ≤ k := by positivity
  push_cast
  constructor <;> nlinarith

/-- A solution of the semi-discrete equations satisfies the equation of a step up to the error of
the difference quotient. -/
theorem exact_defect {S : Submodule ℝ (ι → ℝ)} {w : ι → ℝ} {a : ℚ → (ι → ℝ) → (ι → ℝ) → ℝ}
    {u u' : ℝ → ι → ℝ} {t0 t1 : ℝ} (hu : SolvesOn S w a u u' t0 t1) (q : ℝ → ℝ → ℝ → ℝ) (t : ℚ)
    (ht : (t : ℝ) ∈ Set.Icc t0 t1) (cur prev : ι → ℝ) :
    DefectStep S w a q t (u t) cur prev (fun i => q (u t i) (cur i) (prev i) - u' t i) := by
  refine ⟨hu.space _ ht, fun φ hφ => ?_⟩
  have := hu.eqn t ht φ hφ
  have e : dot w (fun i => q (u t i) (cur i) (prev i) - u' t i) φ
      = dot w (fun i => q (u t i) (cur i) (prev i)) φ - dot w (u' t) φ := dot_sub_left w _ _ φ
  rw [e]
  linarith

/-- **C87** Implicit Euler converges with order one: for every dissipative (possibly nonlinear)
problem, every solution `u` of the semi-discrete equations with second derivative bounded by `K`,
every step and number of steps, the computed states differ from `u` by at most
`K/2 · dt · (elapsed time)`. -/
theorem C87_implicit_euler (S : Submodule ℝ (ι → ℝ)) (w : ι → ℝ) (hw : ∀ i, 0 ≤ w i)
    (a : ℚ → (ι → ℝ) → (ι → ℝ) → ℝ) (ha : Dissipative S a) (t0 dt : ℚ) (hdt : 0 < dt) (n : ℕ)
    (u u' u'' : ℝ → ι → ℝ) (K : ℝ) (hu : SolvesOn S w a u u' t0 (t0 + n * dt))
    (hK : BoundedDeriv u' u'' t0 (t0 + n * dt) K) (xs : List (ι → ℝ))
    (h : Satisfies (weakStep S w a (Scheme.implicitEuler.quotient dt)) (u t0) (u t0)
      (stepTimes t0 dt n) xs) :
    xs.length = n ∧ ∀ k (hk : k < xs.length),
      rms w (xs[k] - u (t0 + (k + 1) * dt)) ≤ K / 2 * rms w 1 * dt * ((k + 1) * dt) := by
  have hl : xs.length = n := (satisfies_length h).trans (convergence_stepTimes_length ..)
  have hdt' : (0 : ℝ) < dt := by exact_mod_cast hdt
  refine ⟨hl, fun k hk => ?_⟩
  have hK0 : ∀ i : ι, 0 ≤ K := fun i =>
    (abs_nonneg _).trans (hK.bound _ (time_mem hdt (Nat.zero_le n)) i)
  have key := ie_errors S w hw a ha dt hdt' (stepTimes t0 dt n) (u t0) (u t0) xs
    (fun k => u ((t0 + k * dt : ℚ) : ℝ))
    (fun k i => Scheme.implicitEuler.quotient dt (u ((t0 + ((k + 1 : ℕ) : ℚ) * dt : ℚ) : ℝ) i)
      (u ((t0 + k * dt : ℚ) : ℝ) i) (u ((t0 + k * dt : ℚ) : ℝ) i)
      - u' ((t0 + ((k + 1 : ℕ) : ℚ) * dt : ℚ) : ℝ) i) (K / 2 * rms w 1 * dt) h ?_ ?_ k hk
  · have e0 : u ((t0 + ((0 : ℕ) : ℚ) * dt : ℚ) : ℝ) = u t0 := by simp
    have e1 : rms w (u t0 - u ((t0 + ((0 : ℕ) : ℚ) * dt : ℚ) : ℝ)) = 0 := by
      rw [e0, sub_self]
      simp [rms, dot]
    simp only [e1, zero_add] at key
    push_cast at key
    refine key.trans (le_of_eq (by ring))
  · intro k hk
    rw [convergence_stepTimes_length] at hk
    have := exact_defect hu (Scheme.implicitEuler.quotient dt) (t0 + ((k + 1 : ℕ) : ℚ) * dt)
      (time_mem hdt (Nat.succ_le_of_lt hk)) (u ((t0 + k * dt : ℚ) : ℝ)) (u ((t0 + k * dt : ℚ) : ℝ))
    rw [stepTimes_get]
    have e : (t0 + ((k : ℚ) + 1) * dt) = t0 + ((k + 1 : ℕ) : ℚ) * dt := by push_cast; ring
    rw [e]
    exact this
  · intro k hk
    rw [convergence_stepTimes_length] at hk
    by_cases hι : Nonempty ι
    · have hK1 := hK0 hι.some
      refine (rms_bound w _ hw (K / 2 * dt) (by positivity) fun i => ?_).trans
        (le_of_eq (by ring))
      have hsub : Set.Icc ((t0 + k * dt : ℚ) : ℝ) ((t0 + ((k + 1 : ℕ) : ℚ) * dt : ℚ) : ℝ)
          ⊆ Set.Icc (t0 : ℝ) (t0 + n * dt) := Set.Icc_subset_Icc
        (time_mem hdt hk.le).1 (time_mem hdt (Nat.succ_le_of_lt hk)).2
      have := taylor2 (f := fun s => u s i) (f1 := fun s => u' s i) (f2 := fun s => u'' s i) (K := K)
        (fun s hs => (hu.deriv s (hsub hs) i).mono hsub)
        (fun s hs => (hK.deriv s (hsub hs) i).mono hsub) (fun s hs => hK.bound s (hsub hs) i)
        ((t0 + k * dt : ℚ) : ℝ) ⟨le_rfl, by push_cast; nlinarith⟩
      have e : ((t0 + ((k + 1 : ℕ) : ℚ) * dt : ℚ) : ℝ) - ((t0 + k * dt : ℚ) : ℝ) = dt := by
        push_cast; ring
      rw [e] at this
      simp only [Scheme.quotient, backwardEuler]
      obtain ⟨A, hA⟩ : ∃ A, u ((t0 + ((k + 1 : ℕ) : ℚ) * dt : ℚ) : ℝ) i = A := ⟨_, rfl⟩
      obtain ⟨B, hB⟩ : ∃ B, u ((t0 + k * dt : ℚ) : ℝ) i = B := ⟨_, rfl⟩
      obtain ⟨C, hC⟩ : ∃ C, u' ((t0 + ((k + 1 : ℕ) : ℚ) * dt : ℚ) : ℝ) i = C := ⟨_, rfl⟩
      rw [hA, hB, hC] at this ⊢
      have e2 : (A - B) / dt - C = -(B - A + C * dt) / dt := by field_simp; ring
      rw [e2, abs_div, abs_neg, abs_of_pos hdt', div_le_iff₀ hdt']
      linarith
    · have : ∀ v : ι → ℝ, rms w v = 0 := fun v => by
        have := not_nonempty_iff.1 hι
        simp [rms, dot]
      simp [this]

/-- The error of the two-step difference quotient. -/
theorem bdf2_truncation {u u' u'' u''' : ℝ → ι → ℝ} {a b t K : ℝ}
    (h1 : ∀ t ∈ Set.Icc a b, ∀ i, HasDerivWithinAt (fun s => u s i) (u' t i) (Set.Icc a b) t)
    (h2 : ∀ t ∈ Set.Icc a b, ∀ i, HasDerivWithinAt (fun s => u' s i) (u'' t i) (Set.Icc a b) t)
    (h3 : BoundedDeriv u'' u''' a b K) (dt : ℝ) (hdt : 0 < dt) (ha : a ≤ t - 2 * dt) (hb : t ≤ b)
    (i : ι) :
    |Scheme.bdf2.quotient dt (u t i) (u (t - dt) i) (u (t - 2 * dt) i) - u' t i| ≤ K * dt ^ 2 := by
  have hsub : Set.Icc (t - 2 * dt) t ⊆ Set.Icc a b := Set.Icc_subset_Icc ha hb
  have key := taylor3 (f := fun s => u s i) (f1 := fun s => u' s i) (f2 := fun s => u'' s i)
    (f3 := fun s => u''' s i) (K := K) (fun s hs => (h1 s (hsub hs) i).mono hsub)
    (fun s hs => (h2 s (hsub hs) i).mono hsub) (fun s hs => (h3.deriv s (hsub hs) i).mono hsub)
    (fun s hs => h3.bound s (hsub hs) i)
  have k1 := key (t - dt) ⟨by linarith, by linarith⟩
  have k2 := key (t - 2 * dt) ⟨le_rfl, by linarith⟩
  have e1 : t - (t - dt) = dt := by ring
  have e2 : t - (t - 2 * dt) = 2 * dt := by ring
  rw [e1] at k1
  rw [e2] at k2
  simp only [Scheme.quotient, backward2]
  obtain ⟨A, hA⟩ : ∃ A, u t i = A := ⟨_, rfl⟩
  obtain ⟨B, hB⟩ : ∃ B, u (t - dt) i = B := ⟨_, rfl⟩
  obtain ⟨C, hC⟩ : ∃ C, u (t - 2 * dt) i = C := ⟨_, rfl⟩
  obtain ⟨D, hD⟩ : ∃ D, u' t i = D := ⟨_, rfl⟩
  obtain ⟨E, hE⟩ : ∃ E, u'' t i = E := ⟨_, rfl⟩
  rw [hA, hB, hD, hE] at k1
  rw [hA, hC, hD, hE] at k2
  rw [hA, hB, hC, hD]
  have e : (3 * A - 4 * B + C) / (2 * dt) - D
      = (-4 * (B - A + D * dt - E * dt ^ 2 / 2)
          + (C - A + D * (2 * dt) - E * (2 * dt) ^ 2 / 2)) / (2 * dt) := by
    field_simp
    ring
  rw [e, abs_div, abs_of_pos (by positivity : 0 < 2 * dt), div_le_iff₀ (by positivity)]
  have := abs_le.1 k1
  have := abs_le.1 k2
  rw [abs_le]
  constructor <;> nlinarith

theorem rms_empty (hι : ¬Nonempty ι) (w v : ι → ℝ) : rms w v = 0 := by
  have := not_nonempty_iff.1 hι
  simp [rms, dot]

/-- **C87** BDF2 with exact starting values converges with order two: if the two states before the
first step are those of the solution, the computed states differ from it by at most
`4 K dt² · (elapsed time)`, where `K` bounds the third derivative. -/
theorem C87_bdf2_started_partial (S : Submodule ℝ (ι → ℝ)) (w : ι → ℝ) (hw : ∀ i, 0 ≤ w i)
    (a : ℚ → (ι → ℝ) → (ι → ℝ) → ℝ) (ha : Dissipative S a) (t0 dt : ℚ) (hdt : 0 < dt) (n : ℕ)
    (u u' u'' u''' : ℝ → ι → ℝ) (K : ℝ)
    (hu : SolvesOn S w a u u' t0 (t0 + (n + 1 : ℕ) * dt))
    (hu'' : ∀ t ∈ Set.Icc (t0 : ℝ) (t0 + (n + 1 : ℕ) * dt), ∀ i,
      HasDerivWithinAt (fun s => u' s i) (u'' t i) (Set.Icc (t0 : ℝ) (t0 + (n + 1 : ℕ) * dt)) t)
    (hK : BoundedDeriv u'' u''' t0 (t0 + (n + 1 : ℕ) * dt) K) (xs : List (ι → ℝ))
    (h : Satisfies (weakStep S w a (Scheme.bdf2.quotient dt)) (u t0) (u (t0 + dt))
      (stepTimes (t0 + dt) dt n) xs) :
    xs.length = n ∧ ∀ k (hk : k < xs.length),
      rms w (xs[k] - u (t0 + (k + 2) * dt)) ≤ 4 * K * rms w 1 * dt ^ 2 * ((k + 1) * dt) := by
  have hl : xs.length = n := (satisfies_length h).trans (convergence_stepTimes_length ..)
  have hdt' : (0 : ℝ) < dt := by exact_mod_cast hdt
  refine ⟨hl, fun k hk => ?_⟩
  have key := bdf2_errors S w hw a ha dt hdt' (stepTimes (t0 + dt) dt n) (u t0) (u (t0 + dt)) xs
    (fun k => u ((t0 + k * dt : ℚ) : ℝ))
    (fun k i => Scheme.bdf2.quotient dt (u ((t0 + ((k + 2 : ℕ) : ℚ) * dt : ℚ) : ℝ) i)
      (u ((t0 + ((k + 1 : ℕ) : ℚ) * dt : ℚ) : ℝ) i) (u ((t0 + k * dt : ℚ) : ℝ) i)
      - u' ((t0 + ((k + 2 : ℕ) : ℚ) * dt : ℚ) : ℝ) i) (fun _ => K * dt ^ 2 * rms w 1) h ?_ ?_ k hk
  · have e0 : u t0 - u ((t0 + ((0 : ℕ) : ℚ) * dt : ℚ) : ℝ) = 0 := by simp
    have e1 : u (t0 + dt) - u ((t0 + ((1 : ℕ) : ℚ) * dt : ℚ) : ℝ) = 0 := by simp
    have e2 : bdf2Norm w 0 0 = 0 := by simp [bdf2Norm, dot]
    simp only [e0, e1, e2, zero_add, Finset.sum_const, Finset.card_range, nsmul_eq_mul] at key
    push_cast at key
    refine key.trans (le_of_eq (by ring))
  · intro k hk
    rw [convergence_stepTimes_length] at hk
    have := exact_defect hu (Scheme.bdf2.quotient dt) (t0 + ((k + 2 : ℕ) : ℚ) * dt)
      (time_mem hdt (by omega)) (u ((t0 + ((k + 1 : ℕ) : ℚ) * dt : ℚ) : ℝ))
      (u ((t0 + k * dt : ℚ) : ℝ))
    rw [stepTimes_get]
    have e : (t0 + dt + ((k : ℚ) + 1) * dt) = t0 + ((k + 2 : ℕ) : ℚ) * dt := by push_cast; ring
    rw [e]
    exact this
  · intro k hk
    rw [convergence_stepTimes_length] at hk
    by_cases hι : Nonempty ι
    · have hK1 : 0 ≤ K := (abs_nonneg _).trans
        (hK.bound _ (time_mem hdt (Nat.zero_le (n + 1))) hι.some)
      refine rms_bound w _ hw (K * dt ^ 2) (by positivity) fun i => ?_
      have ht := time_mem (t0 := t0) hdt (show k + 2 ≤ n + 1 by omega)
      have h0 := time_mem (t0 := t0) hdt (show k ≤ n + 1 by omega)
      have e1 : ((t0 + ((k + 1 : ℕ) : ℚ) * dt : ℚ) : ℝ)
          = ((t0 + ((k + 2 : ℕ) : ℚ) * dt : ℚ) : ℝ) - dt := by push_cast; ring
      have e2 : ((t0 + (k : ℚ) * dt : ℚ) : ℝ)
          = ((t0 + ((k + 2 : ℕ) : ℚ) * dt : ℚ) : ℝ) - 2 * dt := by push_cast; ring
      rw [e1, e2]
      rw [e2] at h0
      exact bdf2_truncation hu.deriv hu'' hK dt hdt' h0.1 ht.2 i
    · simp [rms_empty hι]

/-- **C87** BDF2 as the solver starts it, with both levels equal to the initial state: the computed
states differ from the solution by at most `10 K₁ dt + 4 K₃ dt² · (elapsed time)`, where `K₁` and
`K₃` bound the first and third derivative. This is order one only; that it is no better is
`C87_fails_bdf2_order_two`. -/
theorem C87_bdf2_order_one_partial (S : Submodule ℝ (ι → ℝ)) (w : ι → ℝ) (hw : ∀ i, 0 ≤ w i)
    (a : ℚ → (ι → ℝ) → (ι → ℝ) → ℝ) (ha : Dissipative S a) (t0 dt : ℚ) (hdt : 0 < dt) (n : ℕ)
    (u u' u'' u''' : ℝ → ι → ℝ) (K1 K3 : ℝ) (hu : SolvesOn S w a u u' t0 (t0 + n * dt))
    (hu' : BoundedDeriv u u' t0 (t0 + n * dt) K1)
    (hu'' : ∀ t ∈ Set.Icc (t0 : ℝ) (t0 + n * dt), ∀ i,
      HasDerivWithinAt (fun s => u' s i) (u'' t i) (Set.Icc (t0 : ℝ) (t0 + n * dt)) t)
    (hK : BoundedDeriv u'' u''' t0 (t0 + n * dt) K3) (xs : List (ι → ℝ))
    (h : Satisfies (weakStep S w a (Scheme.bdf2.quotient dt)) (u t0) (u t0)
      (stepTimes t0 dt n) xs) :
    xs.length = n ∧ ∀ k (hk : k < xs.length), rms w (xs[k] - u (t0 + (k + 1) * dt))
      ≤ (10 * K1 * dt + 4 * K3 * dt ^ 2 * (k * dt)) * rms w 1 := by
  have hl : xs.length = n := (satisfies_length h).trans (convergence_stepTimes_length ..)
  have hdt' : (0 : ℝ) < dt := by exact_mod_cast hdt
  refine ⟨hl, fun k hk => ?_⟩
  obtain ⟨y, hy⟩ : ∃ y : ℕ → ι → ℝ, y = fun k => u ((t0 + ((k - 1 : ℕ) : ℚ) * dt : ℚ) : ℝ) := ⟨_, rfl⟩
  have y0 : y 0 = u t0 := by simp [hy]
  have y1 : y 1 = u t0 := by simp [hy]
  have y2 : ∀ k, y (k + 1) = u ((t0 + (k : ℚ) * dt : ℚ) : ℝ) := fun k => by simp [hy]
  have key := bdf2_errors S w hw a ha dt hdt' (stepTimes t0 dt n) (u t0) (u t0) xs y
    (fun k i => Scheme.bdf2.quotient dt (y (k + 2) i) (y (k + 1) i) (y k i)
      - u' ((t0 + ((k + 1 : ℕ) : ℚ) * dt : ℚ) : ℝ) i)
    (fun k => if k = 0 then 5 / 2 * K1 * rms w 1 else K3 * dt ^ 2 * rms w 1) h ?_ ?_ k hk
  · have e2 : bdf2Norm w 0 0 = 0 := by simp [bdf2Norm, dot]
    rw [y0, y1, sub_self, e2, Finset.sum_range_succ'] at key
    simp only [if_true, Nat.add_eq_zero_iff, one_ne_zero, and_false, if_false, Finset.sum_const,
      Finset.card_range, nsmul_eq_mul, zero_add] at key
    rw [show k + 2 = (k + 1) + 1 from rfl, y2] at key
    push_cast at key
    refine key.trans (le_of_eq (by ring))
  · intro k hk
    rw [convergence_stepTimes_length] at hk
    have := exact_defect hu (Scheme.bdf2.quotient dt) (t0 + ((k + 1 : ℕ) : ℚ) * dt)
      (time_mem hdt (by omega)) (y (k + 1)) (y k)
    rw [stepTimes_get]
    have e : (t0 + ((k : ℚ) + 1) * dt) = t0 + ((k + 1 : ℕ) : ℚ) * dt := by push_cast; ring
    rw [e]
    rw [← y2 (k + 1)] at this
    exact this
  · intro k hk
    rw [convergence_stepTimes_length] at hk
    by_cases hι : Nonempty ι
    · have ht := time_mem (t0 := t0) hdt (show k + 1 ≤ n by omega)
      cases k with
      | zero =>
        have hK1 : 0 ≤ K1 := (abs_nonneg _).trans
          (hu'.bound _ (time_mem hdt (Nat.zero_le n)) hι.some)
        rw [if_pos rfl]
        refine rms_bound w _ hw (5 / 2 * K1) (by positivity) fun i => ?_
        rw [y2 1, y2 0, y0]
        have hsub : Set.Icc (t0 : ℝ) ((t0 + ((0 + 1 : ℕ) : ℚ) * dt : ℚ) : ℝ)
            ⊆ Set.Icc (t0 : ℝ) (t0 + n * dt) := Set.Icc_subset_Icc le_rfl ht.2
        have b1 := taylor1 (f := fun s => u s i) (f1 := fun s => u' s i) (K := K1)
          (fun s hs => (hu'.deriv s (hsub hs) i).mono hsub) (fun s hs => hu'.bound s (hsub hs) i)
          t0 ⟨le_rfl, ht.1⟩
        have b2 := hu'.bound _ ht i
        have e : ((t0 + ((0 + 1 : ℕ) : ℚ) * dt : ℚ) : ℝ) - t0 = dt := by push_cast; ring
        rw [e] at b1
        have e0 : ((t0 + ((0 : ℕ) : ℚ) * dt : ℚ) : ℝ) = t0 := by simp
        rw [e0]
        simp only [Scheme.quotient, backward2, zero_add] at b1 b2 ⊢
        obtain ⟨A, hA⟩ : ∃ A, u ((t0 + ((1 : ℕ) : ℚ) * dt : ℚ) : ℝ) i = A := ⟨_, rfl⟩
        obtain ⟨B, hB⟩ : ∃ B, u t0 i = B := ⟨_, rfl⟩
        obtain ⟨C, hC⟩ : ∃ C, u' ((t0 + ((1 : ℕ) : ℚ) * dt : ℚ) : ℝ) i = C := ⟨_, rfl⟩
        rw [hA, hB] at b1
        rw [hC] at b2
        rw [hA, hB, hC]
        have e2 : (3 * A - 4 * B + B) / (2 * dt) - C = (-(3 / 2) * (B - A) - C * dt) / dt := by
          field_simp; ring
        rw [e2, abs_div, abs_of_pos hdt', div_le_iff₀ hdt']
        have := abs_le.1 b1
        have := abs_le.1 b2
        rw [abs_le]
        constructor <;> nlinarith
      | succ k =>
        have hK1 : 0 ≤ K3 := (abs_nonneg _).trans
          (hK.bound _ (time_mem hdt (Nat.zero_le n)) hι.some)
        rw [if_neg (by omega)]
        refine rms_bound w _ hw (K3 * dt ^ 2) (by positivity) fun i => ?_
        have h0 := time_mem (t0 := t0) hdt (show k ≤ n by omega)
        rw [show k + 1 + 2 = (k + 2) + 1 from rfl, show k + 1 + 1 = (k + 1) + 1 from rfl, y2, y2, y2]
        have e1 : ((t0 + ((k + 1 : ℕ) : ℚ) * dt : ℚ) : ℝ)
            = ((t0 + ((k + 2 : ℕ) : ℚ) * dt : ℚ) : ℝ) - dt := by push_cast; ring
        have e2 : ((t0 + (k : ℚ) * dt : ℚ) : ℝ)
            = ((t0 + ((k + 2 : ℕ) : ℚ) * dt : ℚ) : ℝ) - 2 * dt := by push_cast; ring
        rw [e1, e2]
        rw [e2] at h0
        exact bdf2_truncation hu.deriv hu'' hK dt hdt' h0.1 ht.2 i
    · have : ∀ v : ι → ℝ, rms w v = 0 := rms_empty hι w
      simp [this]

/-! ## Complete runs -/

theorem timer_steps (tm : Timer) (hdt : 0 < tm.step) (n : ℕ)
    (hn : tm.stop = tm.start + n * tm.step) :
    ∃ ts, tm.run false 1 = .ok ts ∧ ts.map Prod.fst = stepTimes tm.start tm.step n := by
  have hh : ((1 : ℕ) : ℚ) * tm.step ≠ 0 := by simpa using hdt.ne'
  refine ⟨_, tm.run_eq false 1 hh, ?_⟩
  have hq : (tm.stop - tm.start) / (((1 : ℕ) : ℚ) * tm.step) = (n : ℕ) := by
    rw [hn]; push_cast; field_simp; ring
  rw [hq, pyRound_natCast, List.map_map]
  have e : ((n : ℤ) + 1 - (1 - false.toNat : ℕ)).toNat = n := by simp
  rw [e, stepTimes]
  refine List.map_congr_left fun k _ => ?_
  simp only [Function.comp_apply, Bool.toNat_false]
  push_cast
  ring

/-- **C87** Complete runs: for every linear dissipative problem `w u' + B(t) u + b(t) = 0`, exact
linear solver, positive step dividing the interval and exact solution `u` with bounded derivatives,
a transient run from `u(start)` visits the states of `u` up to `K₂/2 · dt · (elapsed time)` with
implicit Euler and up to `10 K₁ dt + 4 K₃ dt² · (elapsed time)` with BDF2. -/
theorem C87_runs_partial (w : ι → ℝ) (hw : ∀ i, 0 < w i) (B : ℚ → (ι → ℝ) →ₗ[ℝ] (ι → ℝ))
    (hB : ∀ t x, 0 ≤ ∑ i, B t x i * x i) (b : ℚ → ι → ℝ)
    (N : Newton (ι → ℝ) (ι → ℝ)) (hN : N.Exact) (hd : N.damping = 1) (hm : 1 ≤ N.maxIter)
    (tm : Timer) (hdt : 0 < tm.step) (n : ℕ) (hn : tm.stop = tm.start + n * tm.step)
    (u u' u'' u''' : ℝ → ι → ℝ) (K1 K2 K3 : ℝ)
    (h1 : BoundedDeriv u u' tm.start tm.stop K1) (h2 : BoundedDeriv u' u'' tm.start tm.stop K2)
    (h3 : BoundedDeriv u'' u''' tm.start tm.stop K3)
    (hu : ∀ t : ℚ, tm.start ≤ t → t ≤ tm.stop → ∀ i, w i * u' t i + B t (u t) i + b t i = 0) :
    ∃ ts, tm.run false 1 = .ok ts ∧ ts.map Prod.fst = stepTimes tm.start tm.step n ∧
    (∃ xs : List (ι → ℝ),
      transientRun (linearProblem w B b) .implicitEuler N tm (u tm.start)
        = .ok ((ts.map Prod.snd).zip xs) ∧ xs.length = n ∧
      ∀ k (hk : k < xs.length), rms w (xs[k] - u (tm.start + (k + 1) * tm.step))
        ≤ K2 / 2 * rms w 1 * tm.step * ((k + 1) * tm.step)) ∧
    (∃ xs : List (ι → ℝ),
      transientRun (linearProblem w B b) .bdf2 N tm (u tm.start)
        = .ok ((ts.map Prod.snd).zip xs) ∧ xs.length = n ∧
      ∀ k (hk : k < xs.length), rms w (xs[k] - u (tm.start + (k + 1) * tm.step))
        ≤ (10 * K1 * tm.step + 4 * K3 * tm.step ^ 2 * (k * tm.step)) * rms w 1) := by
  obtain ⟨ts, hts, hfst⟩ := timer_steps tm hdt n hn
  have hdt' : (0 : ℝ) < tm.step := by exact_mod_cast hdt
  have hmono : Dissipative ⊤ (fun t x φ => ∑ i, (B t x i + b t i) * φ i) := by
    intro t x _ y _
    have := hB t (x - y)
    rw [← Finset.sum_sub_distrib]
    refine le_of_le_of_eq this (Finset.sum_congr rfl fun i _ => ?_)
    rw [map_sub]
    simp only [Pi.sub_apply]
    ring
  have hstop : (tm.stop : ℝ) = tm.start + n * tm.step := by rw [hn]; push_cast; ring
  have hs : SolvesOn ⊤ w (fun t x φ => ∑ i, (B t x i + b t i) * φ i) u u' tm.start
      (tm.start + n * tm.step) := by
    rw [← hstop]
    refine ⟨h1.deriv, fun _ _ => trivial, fun t ht φ _ => ?_⟩
    have ht1 : tm.start ≤ t := by exact_mod_cast ht.1
    have ht2 : t ≤ tm.stop := by exact_mod_cast ht.2
    simp only [dot, ← Finset.sum_add_distrib]
    refine Finset.sum_eq_zero fun i _ => ?_
    have := hu t ht1 ht2 i
    calc w i * (u' t i * φ i) + (B t (u t) i + b t i) * φ i
        = (w i * u' t i + B t (u t) i + b t i) * φ i := by ring
      _ = 0 := by rw [this, zero_mul]
  rw [hstop] at h1 h2 h3
  refine ⟨ts, hts, hfst, ?_, ?_⟩
  · obtain ⟨xs, hx, hx'⟩ := C61_linear_exact (linearProblem w B b) .implicitEuler N tm
      (u tm.start) hN hd hm (linear_invertible w hw B hB b _ _ hdt') ts hts
    rw [hfst] at hx'
    have := C87_implicit_euler ⊤ w (fun i => (hw i).le) _ hmono tm.start tm.step hdt n u u' u'' K2
      hs h2 xs (satisfies_weak w B b _ _ _ _ _ hx')
    exact ⟨xs, hx, this⟩
  · obtain ⟨xs, hx, hx'⟩ := C61_linear_exact (linearProblem w B b) .bdf2 N tm
      (u tm.start) hN hd hm (linear_invertible w hw B hB b _ _ hdt') ts hts
    rw [hfst] at hx'
    have := C87_bdf2_order_one_partial ⊤ w (fun i => (hw i).le) _ hmono tm.start tm.step hdt n
      u u' u'' u''' K1 K3 hs h1 h2.deriv h3 xs (satisfies_weak w B b _ _ _ _ _ hx')
    exact ⟨xs, hx, this⟩

/-- **C87** Refinement: as the number of steps grows, the greatest error of the run with either
scheme tends to zero; a tolerance `ε` is met by all runs with at least `n₀` steps. -/
theorem C87_runs_converge_partial (w : ι → ℝ) (hw : ∀ i, 0 < w i)
    (B : ℚ → (ι → ℝ) →ₗ[ℝ] (ι → ℝ)) (hB : ∀ t x, 0 ≤ ∑ i, B t x i * x i) (b : ℚ → ι → ℝ)
    (N : Newton (ι → ℝ) (ι → ℝ)) (hN : N.Exact) (hd : N.damping = 1) (hm : 1 ≤ N.maxIter)
    (t0 T : ℚ) (hT : 0 < T) (digit : ℕ → ℕ) (t : ℚ) (u u' u'' u''' : ℝ → ι → ℝ) (K1 K2 K3 : ℝ)
    (h1 : BoundedDeriv u u' t0 (t0 + T) K1) (h2 : BoundedDeriv u' u'' t0 (t0 + T) K2)
    (h3 : BoundedDeriv u'' u''' t0 (t0 + T) K3)
    (hu : ∀ t : ℚ, t0 ≤ t → t ≤ t0 + T → ∀ i, w i * u' t i + B t (u t) i + b t i = 0)
    (s : Scheme) (ε : ℝ) (hε : 0 < ε) :
    ∃ n0 : ℕ, ∀ n ≥ n0, 1 ≤ n → ∃ labels : List ℚ, ∃ xs : List (ι → ℝ),
      transientRun (linearProblem w B b) s N ⟨t0, t0 + T, T / n, digit n, t⟩ (u t0)
        = .ok (labels.zip xs) ∧ xs.length = n ∧ labels.length = n ∧
      ∀ k (hk : k < xs.length), rms w (xs[k] - u (t0 + (k + 1) * (T / n))) ≤ ε := by
  have hT' : (0 : ℝ) < T := by exact_mod_cast hT
  have hr := rms_nonneg w (1 : ι → ℝ)
  obtain ⟨C, hC⟩ : ∃ C : ℝ, C = (|K2| * T + 10 * |K1| + 4 * |K3| * T ^ 2) * rms w 1 * T := ⟨_, rfl⟩
  have hC0 : 0 ≤ C := by rw [hC]; positivity
  obtain ⟨n0, hn0⟩ := exists_nat_ge (C / ε)
  refine ⟨n0, fun n hn hn1 => ?_⟩
  have hnq : (0 : ℚ) < n := by exact_mod_cast hn1
  have hnr : (0 : ℝ) < n := by exact_mod_cast hn1
  have hnr1 : (1 : ℝ) ≤ n := by exact_mod_cast hn1
  have hstep : (0 : ℚ) < T / n := by positivity
  have hstop : (t0 + T : ℚ) = t0 + n * (T / n) := by field_simp
  have e : ((t0 + T : ℚ) : ℝ) = t0 + T := by push_cast; ring
  have hsmall : C / n ≤ ε := by
    rw [div_le_iff₀ hnr]
    have := (div_le_iff₀ hε).1 hn0
    have hn' : (n0 : ℝ) ≤ n := by exact_mod_cast hn
    nlinarith
  obtain ⟨ts, hts, hfst, ⟨xs, hx, hl, hbound⟩, ⟨ys, hy, hl', hbound'⟩⟩ :=
    C87_runs_partial w hw B hB b N hN hd hm ⟨t0, t0 + T, T / n, digit n, t⟩ hstep n hstop
      u u' u'' u''' K1 K2 K3 (e ▸ h1) (e ▸ h2) (e ▸ h3) hu
  have hlab : (ts.map Prod.snd).length = n := by
    have := congrArg List.length hfst
    rw [convergence_stepTimes_length] at this
    simpa using this
  have hdtr : ((T / n : ℚ) : ℝ) = T / n := by push_cast; ring
  have hd0 : (0 : ℝ) < (T : ℝ) / n := by positivity
  have hd1 : (T : ℝ) / n ≤ T := div_le_self hT'.le hnr1
  have hk : ∀ k : ℕ, k < n → ((k : ℝ) + 1) * (T / n) ≤ T := by
    intro k hk
    have : ((k : ℝ) + 1) ≤ n := by exact_mod_cast hk
    calc ((k : ℝ) + 1) * (T / n) ≤ n * (T / n) := by gcongr
      _ = T := by field_simp
  cases s
  · refine ⟨_, xs, hx, hl, hlab, fun k hk' => ?_⟩
    have hb := hbound k hk'
    simp only [hdtr] at hb
    refine hb.trans (le_trans ?_ hsmall)
    have hkk := hk k (hl ▸ hk')
    have hk0 : 0 ≤ ((k : ℝ) + 1) * (T / n) := by positivity
    calc K2 / 2 * rms w 1 * (T / n) * (((k : ℝ) + 1) * (T / n))
        ≤ |K2| * rms w 1 * (T / n) * T := by
          gcongr
          have := le_abs_self K2
          have := abs_nonneg K2
          linarith
      _ ≤ C / n := by
          rw [hC]
          have : 0 ≤ (10 * |K1| + 4 * |K3| * T ^ 2) * rms w 1 * T / n := by positivity
          calc |K2| * rms w 1 * (T / n) * T
              ≤ |K2| * rms w 1 * (T / n) * T
                + (10 * |K1| + 4 * |K3| * T ^ 2) * rms w 1 * T / n := by linarith
            _ = _ := by ring
  · refine ⟨_, ys, hy, hl', hlab, fun k hk' => ?_⟩
    have hb := hbound' k hk'
    simp only [hdtr] at hb
    refine hb.trans (le_trans ?_ hsmall)
    have hkk := hk k (hl' ▸ hk')
    have hk0 : 0 ≤ (k : ℝ) * (T / n) := by positivity
    have hk1 : (k : ℝ) * (T / n) ≤ T := by nlinarith
    calc (10 * K1 * (T / n) + 4 * K3 * (T / n) ^ 2 * (k * (T / n))) * rms w 1
        ≤ (10 * |K1| * (T / n) + 4 * |K3| * ((T / n) * T) * T) * rms w 1 := by
          gcongr
          · exact le_abs_self _
          · exact le_abs_self _
          · rw [sq]; gcongr
      _ ≤ C / n := by
          rw [hC]
          have : 0 ≤ |K2| * T * rms w 1 * T / n := by positivity
          calc (10 * |K1| * (T / n) + 4 * |K3| * ((T / n) * T) * T) * rms w 1
              ≤ (10 * |K1| * (T / n) + 4 * |K3| * ((T / n) * T) * T) * rms w 1
                + |K2| * T * rms w 1 * T / n := by linarith
            _ = _ := by ring

/-! ## BDF2 is not of order two -/

theorem ramp_steps (dt : ℝ) (hdt : 0 < dt) (ts : List ℚ) (prev cur : Unit → ℝ) (q : ℝ)
    (hq : cur () - prev () = dt * (1 - q)) (xs : List (Unit → ℝ))
    (h : Satisfies (fun (_ : ℚ) x cur prev =>
      ∀ i, 1 * Scheme.bdf2.quotient dt (x i) (cur i) (prev i) = (1 : ℝ)) prev cur ts xs) :
    ∀ k (hk : k < xs.length),
      xs[k] () = cur () + (k + 1) * dt - dt * q * (1 - (1 / 3) ^ (k + 1)) / 2 := by
  induction ts generalizing xs prev cur q with
  | nil => cases xs <;> simp_all [Satisfies]
  | cons t ts ih =>
    cases xs with
    | nil => simp
    | cons x xs =>
      have h1 := h.1 ()
      simp only [Scheme.quotient, backward2, one_mul] at h1
      rw [div_eq_one_iff_eq (by positivity)] at h1
      have hx : x () - cur () = dt * (1 - q / 3) := by linarith
      intro k hk
      cases k with
      | zero => simp; linarith
      | succ k =>
        have := ih cur x (q / 3) hx xs h.2 k (by simpa using hk)
        rw [List.getElem_cons_succ, this]
        push_cast
        have e : (1 / 3 : ℝ) ^ (k + 1 + 1) = (1 / 3) ^ (k + 1) / 3 := by rw [pow_succ]; ring
        rw [e]
        linarith

/-- **C87** fails for BDF2 in the order claimed: on `u' = 1` from `u(0) = 0`, whose solution
`u(t) = t` has vanishing second and third derivatives, the run with `n` steps on `[0, 1]` is off by
at least a third of the step after every step, whatever `n`: both starting levels are the initial
state. -/
theorem C87_fails_bdf2_order_two (N : Newton (Unit → ℝ) (Unit → ℝ)) (hN : N.Exact)
    (hd : N.damping = 1) (hm : 1 ≤ N.maxIter) :
    (∀ (n : ℕ), 1 ≤ n → ∀ (digit : ℕ) (t : ℚ), ∃ labels : List ℚ, ∃ xs : List (Unit → ℝ),
      transientRun (linearProblem (fun _ => 1) (fun _ => 0) (fun _ _ => -1)) .bdf2 N
        ⟨0, 1, 1 / n, digit, t⟩ (fun _ => 0) = .ok (labels.zip xs) ∧ xs.length = n ∧
      labels.length = n ∧
      ∀ k (hk : k < xs.length), (1 / n : ℝ) / 3 ≤ |xs[k] () - (k + 1) * (1 / n)|) ∧
    ¬∃ C : ℝ, ∀ n : ℕ, 1 ≤ n → ∀ (labels : List ℚ) (xs : List (Unit → ℝ)),
      transientRun (linearProblem (fun _ => 1) (fun _ => 0) (fun _ _ => -1)) .bdf2 N
        ⟨0, 1, 1 / n, 0, 0⟩ (fun _ => 0) = .ok (labels.zip xs) → xs.length = n →
      labels.length = n →
      ∀ k (hk : k < xs.length), |xs[k] () - (k + 1) * (1 / n)| ≤ C * (1 / n) ^ 2 := by
  have main : ∀ (n : ℕ), 1 ≤ n → ∀ (digit : ℕ) (t : ℚ), ∃ labels : List ℚ,
      ∃ xs : List (Unit → ℝ),
      transientRun (linearProblem (fun _ => 1) (fun _ => 0) (fun _ _ => -1)) .bdf2 N
        ⟨0, 1, 1 / n, digit, t⟩ (fun _ => 0) = .ok (labels.zip xs) ∧ xs.length = n ∧
      labels.length = n ∧
      ∀ k (hk : k < xs.length), (1 / n : ℝ) / 3 ≤ |xs[k] () - (k + 1) * (1 / n)| := by
    intro n hn digit t
    have hnq : (0 : ℚ) < n := by exact_mod_cast hn
    have hnr : (0 : ℝ) < n := by exact_mod_cast hn
    obtain ⟨ts, hts, hfst⟩ := timer_steps ⟨0, 1, 1 / n, digit, t⟩ (by positivity) n
      (by simp; field_simp)
    have hdt : (0 : ℝ) < ((1 / n : ℚ) : ℝ) := by push_cast; positivity
    obtain ⟨xs, hx, hx'⟩ := C61_linear_exact
      (linearProblem (fun _ => 1) (fun _ => 0) (fun _ _ => -1)) .bdf2 N ⟨0, 1, 1 / n, digit, t⟩
      (fun _ => 0) hN hd hm
      (linear_invertible _ (fun _ => one_pos) _ (by simp) _ _ _ hdt) ts hts
    have hlen : ts.length = n := by
      have := congrArg List.length hfst
      rw [convergence_stepTimes_length] at this
      simpa using this
    have hl : xs.length = n := by
      rw [satisfies_length hx', List.length_map, hlen]
    refine ⟨_, xs, hx, hl, by simpa using hlen, fun k hk => ?_⟩
    have e : ((1 / n : ℚ) : ℝ) = 1 / n := by push_cast; ring
    have hsat : Satisfies (fun (_ : ℚ) x cur prev => ∀ i : Unit,
        1 * Scheme.bdf2.quotient ((1 / n : ℚ) : ℝ) (x i) (cur i) (prev i) = (1 : ℝ))
        (fun _ => 0) (fun _ => 0) (ts.map Prod.fst) xs := by
      convert hx' using 6 with t x cur prev
      rw [funext_iff]
      refine forall_congr' fun i => ?_
      simp only [linearProblem, Pi.add_apply, LinearMap.zero_apply, Pi.zero_apply]
      constructor <;> intro h <;> linarith
    have key := ramp_steps _ hdt _ (fun _ => 0) (fun _ => 0) 1 (by simp) xs hsat k hk
    rw [e] at key
    rw [key]
    have h3 : (1 / 3 : ℝ) ^ (k + 1) ≤ 1 / 3 := by
      rw [pow_succ]
      have : (1 / 3 : ℝ) ^ k ≤ 1 := pow_le_one₀ (by norm_num) (by norm_num)
      linarith
    have hq : (0 : ℝ) < 1 / n := by positivity
    rw [abs_of_nonpos (by nlinarith)]
    nlinarith
  refine ⟨main, ?_⟩
  rintro ⟨C, hC⟩
  obtain ⟨n, hn⟩ := exists_nat_gt (max (3 * C) 0)
  have hn0 : (0 : ℝ) < n := (le_max_right _ _).trans_lt hn
  have hnC : 3 * C < n := (le_max_left _ _).trans_lt hn
  have hn1 : 1 ≤ n := by
    have : 0 < n := by exact_mod_cast hn0
    exact this
  obtain ⟨labels, xs, hrun, hl, hl', hbig⟩ := main n hn1 0 0
  have h0 : 0 < xs.length := by omega
  have h1 := hC n hn1 labels xs hrun hl hl' 0 h0
  have h2 := (hbig 0 h0).trans h1
  rw [show C * (1 / (n : ℝ)) ^ 2 = C / n * (1 / n) by ring,
    show (1 / (n : ℝ)) / 3 = 1 / 3 * (1 / n) by ring] at h2
  have h3 := le_of_mul_le_mul_right h2 (by positivity)
  rw [le_div_iff₀ hn0] at h3
  linarith

/-! ## Concrete instances -/

theorem decay_deriv (c : ℝ) (a b t : ℝ) :
    HasDerivWithinAt (fun s => c * Real.exp (-s)) (-c * Real.exp (-t)) (Set.Icc a b) t := by
  have h : HasDerivAt (fun s => c * Real.exp (-s)) (c * (Real.exp (-t) * -1)) t :=
    ((Real.hasDerivAt_exp (-t)).comp t (hasDerivAt_neg t)).const_mul c
  rw [show c * (Real.exp (-t) * -1) = -c * Real.exp (-t) by ring] at h
  exact h.hasDerivWithinAt

theorem decay_bounded (c : ℝ) (hc : |c| = 1) :
    BoundedDeriv (fun s (_ : Unit) => c * Real.exp (-s)) (fun s _ => -c * Real.exp (-s))
      ((0 : ℚ) : ℝ) ((1 : ℚ) : ℝ) 1 := by
  refine ⟨fun t _ _ => decay_deriv c _ _ t, fun t ht _ => ?_⟩
  have h0 : (0 : ℝ) ≤ t := by exact_mod_cast ht.1
  rw [abs_mul, abs_neg, hc, one_mul, abs_of_pos (Real.exp_pos _)]
  exact Real.exp_le_one_iff.2 (by linarith)

/-- C87, concrete instance: the decay `u' + u = 0` with solution `exp(-t)`, ten steps on `[0, 1]`
with either scheme. -/
example := C87_runs_partial (ι := Unit) (fun _ => 1) (fun _ => one_pos) (fun _ => LinearMap.id)
  (fun t x => by simpa using mul_self_nonneg (x ())) (fun _ => 0) exactNewton exactNewton_exact rfl
  (by decide) ⟨0, 1, 1 / 10, 1, 0⟩ (by norm_num) 10 (by norm_num)
  (fun s _ => 1 * Real.exp (-s)) (fun s _ => -1 * Real.exp (-s)) (fun s _ => -(-1) * Real.exp (-s))
  (fun s _ => -(-(-1)) * Real.exp (-s)) 1 1 1 (decay_bounded 1 (by norm_num))
  (decay_bounded (-1) (by norm_num)) (decay_bounded (-(-1)) (by norm_num))
  (fun t _ _ i => by simp)

/-- C87, concrete instance: the error of BDF2 on `u' = 1` with a concrete linear solver. -/
example := C87_fails_bdf2_order_two exactNewton exactNewton_exact rfl (by decide)

/-- C87, concrete instance with exact starting values: `u' = 2 t` with solution `t²`, started from
`u(0) = 0` and `u(1) = 1`, whose two computed states are `4` and `9`. -/
example := C87_bdf2_started_partial (ι := Unit) ⊤ (fun _ => 1) (fun _ => zero_le_one)
  (fun t _ φ => -(2 * (t : ℝ)) * φ ()) (fun t x _ y _ => by simp) 0 1 one_pos 2
  (fun s _ => s ^ 2) (fun s _ => 2 * s) (fun _ _ => 2) (fun _ _ => 0) 0
  ⟨fun t _ _ => by simpa using (hasDerivAt_pow 2 t).hasDerivWithinAt, fun _ _ => trivial,
    fun t _ φ _ => by simp [dot]⟩
  (fun t _ _ => by simpa using ((hasDerivAt_id t).const_mul 2).hasDerivWithinAt)
  ⟨fun t _ _ => hasDerivWithinAt_const _ _ _, fun _ _ _ => by simp⟩
  [fun _ => 4, fun _ => 9]
  (by
    simp only [stepTimes, List.range_succ, List.range_zero, List.nil_append, List.map_append,
      List.map_cons, List.map_nil, List.cons_append, Satisfies, weakStep, dot, Scheme.quotient,
      backward2, and_true]
    refine ⟨⟨trivial, fun φ _ => ?_⟩, trivial, fun φ _ => ?_⟩ <;> simp <;> ring)

end Dream
