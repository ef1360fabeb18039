import Verif.Model.Time
import Verif.Spec.Time
import Verif.Lemmas.Levels
import Mathlib.Analysis.Calculus.Deriv.Slope
import Mathlib.Algebra.Polynomial.Derivative
import Mathlib.Algebra.Polynomial.Eval.Degree
import Mathlib.Tactic.ComputeDegree

/-!
# C04, C05, C07: time levels, schemes, pseudo time stepping
-/

namespace Dream

/-! ## C04 -/

theorem run_stateVals {V} (pre : List String) (hpre : pre ≠ []) (hnd : (pre ++ ["n+1"]).Nodup)
    (vars : List String) (u0 : String → V) (us vs : List (String → V)) :
    vs.foldlM (timeStepAll (pre ++ ["n+1"]))
      (vars.map fun v => (v, (pre ++ ["n+1"]).zip (stateVals pre.length (u0 v) (us.map (· v)))))
    = .ok (vars.map fun v =>
        (v, (pre ++ ["n+1"]).zip (stateVals pre.length (u0 v) ((us ++ vs).map (· v))))) := by
  induction vs generalizing us with
  | nil => simp; rfl
  | cons u vs ih =>
    rw [List.foldlM_cons]
    have h1 : timeStepAll (pre ++ ["n+1"])
        (vars.map fun v => (v, (pre ++ ["n+1"]).zip (stateVals pre.length (u0 v) (us.map (· v))))) u
        = .ok (vars.map fun v =>
          (v, (pre ++ ["n+1"]).zip (stateVals pre.length (u0 v) ((us ++ [u]).map (· v))))) := by
      unfold timeStepAll updateGridfunctions
      rw [List.map_map, List.mapM_map]
      apply except_mapM_ok
      intro v _
      have := timeStep_stateVals pre (u0 v) (us.map (· v)) (u v) hnd hpre
      unfold timeStep at this
      simp only [Function.comp_apply, this, List.map_append, List.map_cons, List.map_nil]
      rfl
    rw [h1]
    have := ih (us ++ [u])
    simp only [List.append_assoc, List.singleton_append] at this
    exact this

/-- **C04** For every multistep scheme whose levels are `pre` (oldest first) followed
by `'n+1'`, every set of variables, every initial state and every sequence of computed
solutions `us`: initialising and performing the steps never raises, and afterwards
level `j` places before `'n+1'` holds the solution `j` steps ago (the initial state if
the run is not that old), independently for every variable. -/
theorem C04_levels_hold_recent_solutions {V} (pre : List String) (hpre : pre ≠ [])
    (hnd : (pre ++ ["n+1"]).Nodup) (vars : List String) (zero : V) (u0 : String → V)
    (us : List (String → V)) :
    ∃ g0 g, setInitialConditionsAll (initAll (pre ++ ["n+1"]) vars zero u0) = .ok g0 ∧
      us.foldlM (timeStepAll (pre ++ ["n+1"])) g0 = .ok g ∧
      g.map Prod.fst = vars ∧
      ∀ v levels, (v, levels) ∈ g →
        levels.get? "n+1" = some (Spec.back (u0 v) (us.map (· v)) 0) ∧
        ∀ j (hj : j < pre.length),
          levels.get? (pre.reverse[j]'(by simpa using hj))
            = some (Spec.back (u0 v) (us.map (· v)) j) := by
  have hb : "n+1" ∉ pre := by
    intro h
    exact (List.nodup_append.1 hnd).2.2 _ h _ (by simp) rfl
  have h0 : setInitialConditionsAll (initAll (pre ++ ["n+1"]) vars zero u0)
      = .ok (vars.map fun v =>
        (v, (pre ++ ["n+1"]).zip (stateVals pre.length (u0 v) (([] : List (String → V)).map (· v))))) := by
    unfold setInitialConditionsAll initAll
    rw [List.mapM_map]
    apply except_mapM_ok
    intro v _
    have := setInitialConditions_eq pre (pre.map fun _ => zero) (u0 v) (by simp) hnd
    simp only [Function.comp_apply, initLevels, List.dropLast_concat, this]
    rfl
  refine ⟨_, _, h0, run_stateVals pre hpre hnd vars u0 [] us, by simp [Function.comp_def], ?_⟩
  intro v levels hmem
  simp only [List.nil_append, List.mem_map, Prod.mk.injEq] at hmem
  obtain ⟨v', _, rfl, rfl⟩ := hmem
  rw [stateVals, List.zip_append (by simp)]
  constructor
  · rw [levels_lookup_append _ _ _ (zip_keys_ne _ _ _ hb)]
    exact levels_lookup_cons_self [] _ _
  · intro j hj
    have hndp := (List.nodup_append.1 hnd).1
    have hrev : (List.range pre.length).reverse.map (Spec.back (u0 v') (us.map (· v')))
        = (List.range pre.length).map
          (fun i => Spec.back (u0 v') (us.map (· v')) (pre.length - 1 - i)) := by
      apply List.ext_getElem
      · simp
      · intro i h1 h2
        simp
    rw [hrev, List.getElem_reverse]
    have := levels_get_zip_range pre hndp
      (fun i => Spec.back (u0 v') (us.map (· v')) (pre.length - 1 - i))
      (List.zip ["n+1"] [Spec.back (u0 v') (us.map (· v')) 0])
      (pre.length - 1 - j) _ (List.getElem?_eq_getElem (by omega))
    rw [this]
    congr 2
    omega

/-- C04 for the two schemes of the package: with BDF2, after a run ending with the
solutions `…, a, b`, level `n` is `b`, level `n-1` is `a`. -/
theorem C04_bdf2 {V} (var : String) (zero u0 a b : V) (us : List V) :
    ∃ g0 g, setInitialConditionsAll (initAll bdf2Levels [var] zero fun _ => u0) = .ok g0 ∧
      (us ++ [a, b]).foldlM (fun g u => timeStepAll bdf2Levels g fun _ => u) g0 = .ok [(var, g)] ∧
      Levels.get? g "n+1" = some b ∧ Levels.get? g "n" = some b ∧ Levels.get? g "n-1" = some a := by
  obtain ⟨g0, g, h0, h1, h2, h3⟩ := C04_levels_hold_recent_solutions ["n-1", "n"] (by simp)
    (by decide) [var] zero (fun _ => u0) ((us ++ [a, b]).map fun u _ => u)
  have h1' : (us ++ [a, b]).foldlM (fun g u => timeStepAll bdf2Levels g fun _ => u) g0 = .ok g := by
    rw [List.foldlM_map] at h1; exact h1
  match g, h2 with
  | [(v, l)], h2 =>
    simp at h2
    subst h2
    obtain ⟨e1, e2⟩ := h3 v l (by simp)
    refine ⟨g0, l, h0, h1', ?_, ?_, ?_⟩
    · rw [e1]; simp [Spec.back]
    · have := e2 0 (by simp); simp [Spec.back] at this; exact this
    · have := e2 1 (by simp); simp [Spec.back] at this; exact this

/-- C04, concrete instance: three BDF2 steps from 0 with solutions 5, 7, 9. -/
example : ∃ g0 g, setInitialConditionsAll (initAll bdf2Levels ["U"] (0:ℤ) fun _ => 0) = .ok g0 ∧
      ([5] ++ [7, 9]).foldlM (fun g u => timeStepAll bdf2Levels g fun _ => u) g0 = .ok [("U", g)] ∧
      Levels.get? g "n+1" = some 9 ∧ Levels.get? g "n" = some 9 ∧ Levels.get? g "n-1" = some 7 :=
  C04_bdf2 "U" 0 0 7 9 [5]

/-! ## C05 -/

/-- **C05** Implicit Euler: the derivative is `(u - level)/step`, in both variants. -/
theorem C05_ie_forms_agree {K : Type} [Field K] (b : Bool) (dt u un : K) :
    ieDerivative dt u un = (u - ieLevel b un) / ieStep b dt := rfl

/-- **C05** BDF2: the normalised pair solves the derivative for the new value with
coefficient one, the other pair with coefficient three. -/
theorem C05_bdf2_forms_agree {K : Type} [Field K] [CharZero K] (dt u un unm1 : K) (h : dt ≠ 0) :
    bdf2Derivative dt u un unm1 = (u - bdf2Level true un unm1) / bdf2Step true dt ∧
    bdf2Derivative dt u un unm1 = (3 * u - bdf2Level false un unm1) / bdf2Step false dt := by
  unfold bdf2Derivative bdf2Level bdf2Step
  simp only [if_true, Bool.false_eq_true, if_false]
  constructor
  · have h3 : (3 : K) ≠ 0 := by norm_num
    field_simp
    ring
  · congr 1; ring

open Polynomial in
/-- **C05** Implicit Euler is exact for every polynomial of degree at most one. -/
theorem C05_ie_exact_affine (p : ℝ[X]) (hp : p.natDegree ≤ 1) (t dt : ℝ) (h : dt ≠ 0) :
    ieDerivative dt (p.eval t) (p.eval (t - dt)) = (derivative p).eval t := by
  have e : p = C (p.coeff 0) + C (p.coeff 1) * X := by
    conv_lhs => rw [p.as_sum_range_C_mul_X_pow' (n := 2) (by omega)]
    simp [Finset.sum_range_succ]
  rw [e]
  simp only [ieDerivative, eval_add, eval_C, eval_mul, eval_X, derivative_add, derivative_C,
    derivative_mul, derivative_X]
  field_simp
  simp
  ring

open Polynomial in
/-- **C05** BDF2 is exact for every polynomial of degree at most two. -/
theorem C05_bdf2_exact_quadratic (p : ℝ[X]) (hp : p.natDegree ≤ 2) (t dt : ℝ) (h : dt ≠ 0) :
    bdf2Derivative dt (p.eval t) (p.eval (t - dt)) (p.eval (t - 2 * dt)) = (derivative p).eval t := by
  have e : p = C (p.coeff 0) + C (p.coeff 1) * X + C (p.coeff 2) * X ^ 2 := by
    conv_lhs => rw [p.as_sum_range_C_mul_X_pow' (n := 3) (by omega)]
    simp [Finset.sum_range_succ]
  rw [e]
  simp only [bdf2Derivative, eval_add, eval_C, eval_mul, eval_X, eval_pow, derivative_add,
    derivative_C, derivative_mul, derivative_X, derivative_X_pow]
  field_simp
  simp
  ring

/-- **C05** Neither scheme is exact one degree higher; the defects are `-dt` for `t²`
with implicit Euler and `-2dt²` for `t³` with BDF2. -/
theorem C05_sharp (t dt : ℝ) (h : dt ≠ 0) :
    ieDerivative dt (t ^ 2) ((t - dt) ^ 2) = 2 * t - dt ∧
    bdf2Derivative dt (t ^ 3) ((t - dt) ^ 3) ((t - 2 * dt) ^ 3) = 3 * t ^ 2 - 2 * dt ^ 2 := by
  unfold ieDerivative bdf2Derivative
  constructor <;> field_simp <;> ring

open Filter Topology in
/-- **C05** Consistency for every function differentiable at `t`: both difference
quotients tend to the derivative as `dt → 0`. -/
theorem C05_consistent (u : ℝ → ℝ) (u' t : ℝ) (h : HasDerivAt u u' t) :
    Tendsto (fun dt => ieDerivative dt (u t) (u (t - dt))) (𝓝[≠] 0) (𝓝 u') ∧
    Tendsto (fun dt => bdf2Derivative dt (u t) (u (t - dt)) (u (t - 2 * dt))) (𝓝[≠] 0) (𝓝 u') := by
  have key : ∀ c : ℝ, c ≠ 0 →
      Tendsto (fun dt => (u t - u (t - c * dt)) / (c * dt)) (𝓝[≠] 0) (𝓝 u') := by
    intro c hc
    have hs := hasDerivAt_iff_tendsto_slope_zero.1 h
    have hm : Tendsto (fun dt : ℝ => -(c * dt)) (𝓝[≠] 0) (𝓝[≠] 0) := by
      apply tendsto_nhdsWithin_of_tendsto_nhds_of_eventually_within
      · have : Tendsto (fun dt : ℝ => -(c * dt)) (𝓝 0) (𝓝 (-(c * 0))) := by
          apply Continuous.tendsto; fun_prop
        rw [mul_zero, neg_zero] at this
        exact this.mono_left nhdsWithin_le_nhds
      · filter_upwards [self_mem_nhdsWithin] with x hx
        simpa [hc] using hx
    have := hs.comp hm
    refine this.congr fun dt => ?_
    simp only [Function.comp_apply, smul_eq_mul, ← sub_eq_add_neg]
    rw [inv_neg, neg_mul, ← mul_neg, neg_sub, div_eq_inv_mul]
  constructor
  · refine (key 1 one_ne_zero).congr fun dt => ?_
    simp [ieDerivative]
  · have := ((key 1 one_ne_zero).const_mul 2).sub (key 2 two_ne_zero)
    have e : 2 * u' - u' = u' := by ring
    rw [e] at this
    refine this.congr' ?_
    filter_upwards [self_mem_nhdsWithin] with dt hdt
    have : dt ≠ 0 := hdt
    unfold bdf2Derivative
    rw [one_mul]
    field_simp
    ring

/-- C05, start-up of BDF2 as implemented: since the initial state fills both old
levels, the first step solves with `(u¹-u⁰)/(2/3 dt)`, so it is not exact for the
affine solution `t ↦ t` (slope 3/2 instead of 1) although every later step is. -/
theorem C05_bdf2_first_step (dt u1 u0 : ℝ) :
    bdf2Derivative dt u1 u0 u0 = (u1 - u0) / (2 / 3 * dt) ∧
    (dt ≠ 0 → bdf2Derivative dt dt 0 0 = 3 / 2) := by
  unfold bdf2Derivative
  constructor
  · by_cases h : dt = 0
    · simp [h]
    · field_simp; ring
  · intro h; field_simp; ring

open Polynomial in
example : bdf2Derivative (1/10 : ℝ) ((1 + X + 3 * X^2 : ℝ[X]).eval 2) ((1 + X + 3 * X^2 : ℝ[X]).eval (2 - 1/10))
    ((1 + X + 3 * X^2 : ℝ[X]).eval (2 - 2 * (1/10))) = 13 := by
  rw [C05_bdf2_exact_quadratic _ (by compute_degree) 2 (1/10) (by norm_num)]
  simp; norm_num

/-! ## C07 -/

/-- **C07** With increment interval `k ≥ 1`, factor `f ≥ 1` and initial step `dt0 > 0`,
the pseudo time step after iterations `0..n-1` is `dt0` if `dt0` is not below the
maximum, and `min(max, dt0 * f^m)` with `m = (n-1)/k` increments otherwise. -/
theorem C07_pseudo_step_closed_form (p : Pseudo) (dt0 : ℚ) (k f : ℕ) (n : ℕ)
    (hk : p.incrementAt = k) (hk0 : 1 ≤ k) (hf : p.incrementFactor = f) (hf0 : 1 ≤ f)
    (hdt : 0 < dt0) :
    p.run dt0 n = .ok (if p.maxStep ≤ dt0 then dt0
      else min p.maxStep (dt0 * (f : ℚ) ^ ((n - 1) / k))) := by
  have hf1 : (1 : ℚ) ≤ f := by exact_mod_cast hf0
  induction n with
  | zero =>
    simp only [Pseudo.run]
    split_ifs with h
    · rfl
    · push Not at h; simp [h.le]
  | succ n ih =>
    simp only [Pseudo.run, ih]
    show p.update _ n = _
    unfold Pseudo.update
    rw [hk, hf]
    have hk' : (k : ℤ) ≠ 0 := by exact_mod_cast (by omega : k ≠ 0)
    by_cases hmax : p.maxStep ≤ dt0
    · simp [hmax]
    · push Not at hmax
      rw [if_neg (not_le.2 hmax), if_neg (not_le.2 hmax)]
      by_cases hlt : dt0 * (f : ℚ) ^ ((n - 1) / k) < p.maxStep
      · rw [min_eq_right hlt.le, if_pos hlt, if_neg hk']
        by_cases hn : (n : ℤ) % (k : ℤ) = 0 ∧ n > 0
        · rw [if_pos hn]
          have hdvd : k ∣ n := by
            have := Int.dvd_of_emod_eq_zero hn.1; exact_mod_cast this
          obtain ⟨m, rfl⟩ := hdvd
          have hm : 0 < m := Nat.pos_of_ne_zero (by rintro rfl; simp at hn)
          have e1 : (k * m - 1) / k = m - 1 := by
            obtain ⟨m', rfl⟩ : ∃ m', m = m' + 1 := ⟨m - 1, by omega⟩
            have : k * (m' + 1) - 1 = k * m' + (k - 1) := by
              rw [Nat.mul_add]; omega
            rw [this, Nat.mul_add_div (by omega), Nat.div_eq_of_lt (by omega)]; simp
          have e2 : (k * m + 1 - 1) / k = m := by simp; exact Nat.mul_div_cancel_left _ (by omega)
          rw [e1, e2]
          have e3 : dt0 * (f : ℚ) ^ (m - 1) * ((f : ℤ) : ℚ) = dt0 * (f : ℚ) ^ m := by
            obtain ⟨m', rfl⟩ : ∃ m', m = m' + 1 := ⟨m - 1, by omega⟩
            simp; ring
          rw [e3]
          simp only [Except.ok.injEq]
          by_cases hgt : dt0 * (f : ℚ) ^ m > p.maxStep
          · rw [if_pos hgt, min_eq_left hgt.le]
          · push Not at hgt
            rw [if_neg (not_lt.2 hgt), min_eq_right hgt]
        · rw [if_neg hn]
          have e : (n + 1 - 1) / k = (n - 1) / k := by
            simp only [Nat.add_sub_cancel]
            rcases Nat.eq_zero_or_pos n with h0 | h0
            · subst h0; simp
            · have hnd : ¬ k ∣ n := by
                intro h
                apply hn
                exact ⟨Int.emod_eq_zero_of_dvd (by exact_mod_cast h), h0⟩
              obtain ⟨m, rfl⟩ : ∃ m, n = m + 1 := ⟨n - 1, by omega⟩
              rw [Nat.add_sub_cancel, Nat.succ_div_of_not_dvd hnd]
          rw [e, min_eq_right hlt.le]
      · push Not at hlt
        rw [min_eq_left hlt, if_neg (lt_irrefl _)]
        have hmono : (n - 1) / k ≤ (n + 1 - 1) / k := Nat.div_le_div_right (by omega)
        have : dt0 * (f : ℚ) ^ ((n - 1) / k) ≤ dt0 * (f : ℚ) ^ ((n + 1 - 1) / k) :=
          mul_le_mul_of_nonneg_left (pow_le_pow_right₀ hf1 hmono) hdt.le
        rw [min_eq_left (hlt.trans this)]

/-- **C07** The pseudo time step never decreases, never exceeds
`max(dt0, max_time_step)`, and changes only at positive multiples of the increment
interval. -/
theorem C07_pseudo_step_monotone_bounded (p : Pseudo) (dt0 : ℚ) (k f : ℕ)
    (hk : p.incrementAt = k) (hk0 : 1 ≤ k) (hf : p.incrementFactor = f) (hf0 : 1 ≤ f)
    (hdt : 0 < dt0) :
    ∃ s : ℕ → ℚ, (∀ n, p.run dt0 n = .ok (s n)) ∧ s 0 = dt0 ∧ Monotone s ∧
      (∀ n, s n ≤ max dt0 p.maxStep) ∧ ∀ n, s (n + 1) ≠ s n → n > 0 ∧ k ∣ n := by
  have hf1 : (1 : ℚ) ≤ f := by exact_mod_cast hf0
  refine ⟨_, fun n => C07_pseudo_step_closed_form p dt0 k f n hk hk0 hf hf0 hdt, ?_, ?_, ?_, ?_⟩
  · split_ifs with h
    · rfl
    · push Not at h; simp [h.le]
  · intro a b hab
    beta_reduce
    split_ifs with h
    · exact le_rfl
    · apply min_le_min_left
      apply mul_le_mul_of_nonneg_left _ hdt.le
      exact pow_le_pow_right₀ hf1 (Nat.div_le_div_right (by omega))
  · intro n
    split_ifs with h
    · exact le_max_left _ _
    · exact (min_le_left _ _).trans (le_max_right _ _)
  · intro n hne
    by_contra hcon
    apply hne
    have e : (n + 1 - 1) / k = (n - 1) / k := by
      simp only [Nat.add_sub_cancel]
      rcases Nat.eq_zero_or_pos n with h0 | h0
      · subst h0; simp
      · have hnd : ¬ k ∣ n := fun h => hcon ⟨h0, h⟩
        obtain ⟨m, rfl⟩ : ∃ m, n = m + 1 := ⟨n - 1, by omega⟩
        rw [Nat.add_sub_cancel, Nat.succ_div_of_not_dvd hnd]
    simp only [e]

/-- C07 on the default options with `dt0 = 1/10000`: after 100 iterations the step has
been multiplied 9 times and is capped at 1. -/
example : ({ maxStep := 1, incrementAt := 10, incrementFactor := 10 } : Pseudo).run (1/10000) 100
    = .ok 1 := by
  rw [C07_pseudo_step_closed_form _ _ 10 10 100 rfl (by norm_num) rfl (by norm_num) (by norm_num)]
  norm_num

/-- C07, boundary of validity: the option `increment_factor` is truncated to an
integer, so a factor in `[1,2)` never changes the step, and a factor in `(0,1)` sets
the step to zero at the first increment. -/
theorem C07_fractional_factor (p : Pseudo) (x dt0 : ℚ) (k : ℕ)
    (hk : p.incrementAt = k) (hk0 : 1 ≤ k) (hdt : 0 < dt0) (hmax : dt0 < p.maxStep) :
    (1 ≤ x → x < 2 → ∀ n, (p.setIncrementFactor x).run dt0 n = .ok dt0) ∧
    (0 < x → x < 1 → (p.setIncrementFactor x).update dt0 k = .ok 0) := by
  constructor
  · intro h1 h2 n
    have hfac : (p.setIncrementFactor x).incrementFactor = (1 : ℕ) := by
      have : ⌊x⌋ = 1 := by rw [Int.floor_eq_iff]; constructor <;> norm_num <;> linarith
      simp [Pseudo.setIncrementFactor, pyInt, this]
      intro h; linarith
    rw [C07_pseudo_step_closed_form (p.setIncrementFactor x) dt0 k 1 n hk hk0 hfac le_rfl hdt]
    have : ¬ p.maxStep ≤ dt0 := not_le.2 hmax
    simp [Pseudo.setIncrementFactor, this, hmax.le]
  · intro h1 h2
    have hfac : (p.setIncrementFactor x).incrementFactor = 0 := by
      have : ⌊x⌋ = 0 := by rw [Int.floor_eq_iff]; constructor <;> norm_num <;> linarith
      simp [Pseudo.setIncrementFactor, pyInt, this]
      intro h; linarith
    have hk' : (k : ℤ) ≠ 0 := by exact_mod_cast (by omega : k ≠ 0)
    have hmx : (p.setIncrementFactor x).maxStep = p.maxStep := rfl
    have hka : (p.setIncrementFactor x).incrementAt = k := hk
    unfold Pseudo.update
    rw [hfac, hmx, hka, if_pos hmax, if_neg hk', if_pos ⟨by simp, by omega⟩]
    simp
    intro h; linarith

end Dream
