import Verif.Model.Whole
import Verif.Model.Nonlinear
import Verif.Model.Time
import Verif.Props.Transient
import Mathlib.Tactic.Linarith
import Mathlib.Tactic.NormNum
import Mathlib.Algebra.Order.Floor.Ring
import Mathlib.Data.Rat.Floor

/-!
# C117: options for whole numbers
-/

namespace Dream

/-- `i` is `q` without the digits behind the point. -/
structure IsCut (q : ℚ) (i : ℤ) : Prop where
  near : |q - i| < 1
  inward : |(i : ℚ)| ≤ |q|
  sign : 0 ≤ q * i

theorem pyInt_cut (q : ℚ) : IsCut q (pyInt q) := by
  unfold pyInt
  split_ifs with h
  · have h1 := Int.floor_le q
    have h2 := Int.lt_floor_add_one q
    have h3 : (0 : ℚ) ≤ (⌊q⌋ : ℤ) := by exact_mod_cast Int.floor_nonneg.2 h
    exact ⟨by rw [abs_lt]; constructor <;> linarith, by rwa [abs_of_nonneg h3, abs_of_nonneg h],
      mul_nonneg h h3⟩
  · have h1 := Int.le_ceil q
    have h2 := Int.ceil_lt_add_one q
    have h0 : q ≤ 0 := by linarith
    have h3 : ((⌈q⌉ : ℤ) : ℚ) ≤ 0 := by exact_mod_cast Int.ceil_le.2 (by push_cast; exact h0)
    exact ⟨by rw [abs_lt]; constructor <;> linarith,
      by rw [abs_of_nonpos h3, abs_of_nonpos h0]; linarith, mul_nonneg_of_nonpos_of_nonpos h0 h3⟩

/-- There is only one such number. -/
theorem IsCut.unique {q : ℚ} {i j : ℤ} (hi : IsCut q i) (hj : IsCut q j) : i = j := by
  obtain ⟨a1, a2, a3⟩ := hi
  obtain ⟨b1, b2, b3⟩ := hj
  rw [abs_lt] at a1 b1
  rcases lt_trichotomy q 0 with h | h | h
  · have ha : (i : ℚ) ≤ 0 := by by_contra hh; push Not at hh; nlinarith
    have hb : (j : ℚ) ≤ 0 := by by_contra hh; push Not at hh; nlinarith
    rw [abs_of_nonpos ha, abs_of_neg h] at a2
    rw [abs_of_nonpos hb, abs_of_neg h] at b2
    have c1 : (i : ℚ) < j + 1 := by linarith
    have c2 : (j : ℚ) < i + 1 := by linarith
    have d1 : i < j + 1 := by exact_mod_cast c1
    have d2 : j < i + 1 := by exact_mod_cast c2
    omega
  · subst h
    have ha : |(i : ℚ)| = 0 := le_antisymm (by simpa using a2) (abs_nonneg _)
    have hb : |(j : ℚ)| = 0 := le_antisymm (by simpa using b2) (abs_nonneg _)
    have ha' : i = 0 := by exact_mod_cast abs_eq_zero.1 ha
    have hb' : j = 0 := by exact_mod_cast abs_eq_zero.1 hb
    rw [ha', hb']
  · have ha : 0 ≤ (i : ℚ) := by by_contra hh; push Not at hh; nlinarith
    have hb : 0 ≤ (j : ℚ) := by by_contra hh; push Not at hh; nlinarith
    rw [abs_of_nonneg ha, abs_of_pos h] at a2
    rw [abs_of_nonneg hb, abs_of_pos h] at b2
    have c1 : (i : ℚ) < j + 1 := by linarith
    have c2 : (j : ℚ) < i + 1 := by linarith
    have d1 : i < j + 1 := by exact_mod_cast c1
    have d2 : j < i + 1 := by exact_mod_cast c2
    omega

/-- **C117** Every finite number is accepted and stored without the digits behind the point, so whole
numbers are stored as they are; `nan` raises `ValueError`, an infinity `OverflowError`, anything else
`TypeError`. -/
theorem C117_accepted (o : WholeName) (σ : WholeName → ℤ) :
    (∀ q : ℚ, (assignWhole o (.num (.fin q)) σ).1 = .ok () ∧
      IsCut q ((assignWhole o (.num (.fin q)) σ).2 o)) ∧
    (∀ n : ℤ, (assignWhole o (.num (.fin n)) σ).2 o = n) ∧
    assignWhole o (.num .nan) σ = (.error .valueError, σ) ∧
    (∀ s, assignWhole o (.num (.inf s)) σ = (.error .overflow, σ)) ∧
    (∀ v, (∀ x, v ≠ .num x) → assignWhole o v σ = (.error .typeError, σ)) := by
  have h1 : ∀ q : ℚ, (assignWhole o (.num (.fin q)) σ).2 o = pyInt q := fun q => by
    simp [assignWhole, setWhole, PyVal.number, PyNum.toInt, bind, Except.bind]
  refine ⟨fun q => ⟨rfl, by rw [h1]; exact pyInt_cut q⟩, fun n => ?_, rfl, fun s => rfl,
    fun v hv => ?_⟩
  · rw [h1]
    exact (pyInt_cut n).unique ⟨by simp, le_rfl, mul_self_nonneg _⟩
  · cases v with
    | num x => exact absurd rfl (hv x)
    | seq xs => rfl
    | other => rfl

/-- The finite number that is assigned by a value, if it is one. -/
def finite? : PyVal → Option ℚ
  | .num (.fin q) => some q
  | _ => none

/-- **C117** After any history of assignments every option has its default, if no finite number was
ever assigned to it, and otherwise the last finite number assigned to it, without the digits behind
the point. Assignments to other options and refused ones do not matter. -/
theorem C117_history (h : List (WholeName × PyVal)) (o : WholeName) :
    ((∀ e ∈ h, e.1 = o → finite? e.2 = none) ∧ assignWholes h wholeDefault o = wholeDefault o) ∨
    ∃ h1 q h2, h = h1 ++ (o, .num (.fin q)) :: h2 ∧ (∀ e ∈ h2, e.1 = o → finite? e.2 = none) ∧
      IsCut q (assignWholes h wholeDefault o) := by
  induction h using List.reverseRecOn with
  | nil => exact .inl ⟨by simp, rfl⟩
  | append_singleton h e ih =>
    have hs : assignWholes (h ++ [e]) wholeDefault
        = (assignWhole e.1 e.2 (assignWholes h wholeDefault)).2 := by
      simp [assignWholes]
    by_cases hq : e.1 = o ∧ ∃ q, e.2 = .num (.fin q)
    · obtain ⟨ho, q, hv⟩ := hq
      refine .inr ⟨h, q, [], ?_, by simp, ?_⟩
      · rw [← ho, ← hv]
      · rw [hs, hv, ← ho]
        exact ((C117_accepted e.1 _).1 q).2
    · have hkeep : assignWholes (h ++ [e]) wholeDefault o = assignWholes h wholeDefault o := by
        rw [hs]
        unfold assignWhole
        cases hw : setWhole e.2 with
        | error _ => rfl
        | ok i =>
          have hne : o ≠ e.1 := by
            rintro rfl
            refine hq ⟨rfl, ?_⟩
            cases hv : e.2 with
            | num x =>
              cases x with
              | fin q => exact ⟨q, rfl⟩
              | nan => rw [hv] at hw; cases hw
              | inf s => rw [hv] at hw; cases hw
            | seq xs => rw [hv] at hw; cases hw
            | other => rw [hv] at hw; cases hw
          simp [hne]
      have hnone : e.1 = o → finite? e.2 = none := by
        intro ho
        match hv : e.2 with
        | .num (.fin q) => exact absurd ⟨ho, q, hv⟩ hq
        | .num .nan => rfl
        | .num (.inf _) => rfl
        | .seq _ => rfl
        | .other => rfl
      rw [hkeep]
      rcases ih with ⟨i1, i2⟩ | ⟨h1, q, h2, i1, i2, i3⟩
      · refine .inl ⟨fun e' he' => ?_, i2⟩
        rcases List.mem_append.1 he' with he' | he'
        · exact i1 e' he'
        · rw [List.mem_singleton.1 he']; exact hnone
      · refine .inr ⟨h1, q, h2 ++ [e], by rw [i1]; simp, fun e' he' => ?_, i3⟩
        rcases List.mem_append.1 he' with he' | he'
        · exact i2 e' he'
        · rw [List.mem_singleton.1 he']; exact hnone

/-- **C117** The values are not checked. Every number below one is accepted as the limit of iterations;
the solver then leaves every solution as it is, without an exception, and reports neither convergence
nor `nan`. Every number between `-1` and `1` is accepted for `increment_at`; pseudo time stepping then
raises `ZeroDivisionError` in its first iteration if the step is below the greatest. -/
theorem C117_unchecked (σ : WholeName → ℤ) (q : ℚ) :
    (q < 1 → (assignWhole .maxIterations (.num (.fin q)) σ).1 = .ok () ∧
      ∀ (V : Type) (lin : LinOracle V) (upd : V → V → V) (crit : ℝ) (u : V),
        nlSolve lin upd crit ((assignWhole .maxIterations (.num (.fin q)) σ).2 .maxIterations) u
          = { u := u, yields := [], solves := 0, isNan := false, isConverged := false }) ∧
    (|q| < 1 → (assignWhole .incrementAt (.num (.fin q)) σ).1 = .ok () ∧
      ∀ (p : Pseudo) (old : ℚ) (it : ℕ), old < p.maxStep →
        p.incrementAt = (assignWhole .incrementAt (.num (.fin q)) σ).2 .incrementAt →
        p.update old it = .error .zeroDivision) := by
  constructor
  · intro hq
    obtain ⟨h1, h2⟩ := (C117_accepted .maxIterations σ).1 q
    refine ⟨h1, fun V lin upd crit u => ?_⟩
    generalize (assignWhole .maxIterations (.num (.fin q)) σ).2 .maxIterations = i at h2
    obtain ⟨a1, a2, a3⟩ := h2
    have hi : i ≤ 0 := by
      by_contra hh
      push Not at hh
      have h1 : (1 : ℚ) ≤ i := by exact_mod_cast hh
      rw [abs_of_pos (by linarith)] at a2
      rcases le_total 0 q with h0 | h0
      · rw [abs_of_nonneg h0] at a2; linarith
      · rw [abs_lt] at a1; linarith
    unfold nlSolve
    rw [Int.toNat_of_nonpos hi]
    rfl
  · intro hq
    obtain ⟨h1, h2⟩ := (C117_accepted .incrementAt σ).1 q
    refine ⟨h1, fun p old it hold hp => ?_⟩
    have h0 : (assignWhole .incrementAt (.num (.fin q)) σ).2 .incrementAt = 0 := by
      have hc : IsCut q 0 := ⟨by simpa using hq, by simp, by simp⟩
      exact h2.unique hc
    rw [h0] at hp
    unfold Pseudo.update
    rw [if_pos hold, if_pos hp]

/-- **C117** With a limit of iterations below one a whole transient run ends as if it had succeeded: all
labels of the timer are yielded, each with the initial state, for every problem, scheme, step and
linear solver. -/
theorem C117_frozen {ι X Y : Type} [AddCommGroup X] [Module ℝ X] [AddCommGroup Y] (σ : WholeName → ℤ)
    (q : ℚ) (hq : q < 1) (P : Problem ι X Y) (s : Scheme) (N : Newton X Y)
    (hN : N.maxIter = (assignWhole .maxIterations (.num (.fin q)) σ).2 .maxIterations) (tm : Timer)
    (x0 : X) (ts : List (ℚ × ℚ)) (hts : tm.run false 1 = .ok ts) :
    transientRun P s N tm x0 = .ok (ts.map fun p => (p.2, x0)) := by
  have hstay : ∀ (F : X → Y) (x : X), (N.solve F x).u = x := fun F x => by
    rw [Newton.solve, hN, ((C117_unchecked σ q).1 hq).2]
  rw [C61_textbook_recursion P s N tm x0 ts hts]
  congr 1
  clear hts
  induction ts with
  | nil => rfl
  | cons p ts ih =>
    simp only [List.map_cons, Spec.trajectory, List.zip_cons_cons, hstay] at ih ⊢
    rw [ih]

/-- A history: the order `2.9` is cut to `2`, `nan` is refused, the other option keeps its default. -/
example : assignWholes [(.order, .num (.fin 3)), (.order, .num (.fin (29 / 10))), (.order, .num .nan)]
      wholeDefault .order = 2 ∧
    assignWholes [(.order, .num (.fin 3))] wholeDefault .maxIterations = 10 := by
  constructor
  · rcases C117_history [(.order, .num (.fin 3)), (.order, .num (.fin (29 / 10))),
        (.order, .num .nan)] .order with ⟨h, -⟩ | ⟨h1, q, h2, e, hn, hc⟩
    · exact absurd (h (.order, .num (.fin 3)) (by simp) rfl) (by simp [finite?])
    · have hq : q = 29 / 10 := by
        match h1, e with
        | [], e => 
          simp at e
          have := hn (.order, .num (.fin (29 / 10))) (by rw [← e.2]; simp) rfl
          simp [finite?] at this
        | [_], e =>
          simp at e
          exact e.2.1.symm
        | [_, _], e => simp at e
        | _ :: _ :: _ :: _, e => simp at e
      subst hq
      exact hc.unique ⟨by norm_num [abs_lt], by norm_num [abs_of_pos], by norm_num⟩
  · rcases C117_history [(.order, .num (.fin 3))] .maxIterations with ⟨-, h⟩ | ⟨h1, q, h2, e, -⟩
    · exact h
    · have : (WholeName.maxIterations, PyVal.num (.fin q)) ∈ [(WholeName.order, PyVal.num (.fin 3))] := by
        rw [e]; simp
      simp at this

example : ∀ (lin : LinOracle ℝ) (u : ℝ), (nlSolve lin (newtonUpdate 1) 1
    ((assignWhole .maxIterations (.num (.fin (1 / 2))) wholeDefault).2 .maxIterations) u).u = u :=
  fun lin u => by rw [((C117_unchecked wholeDefault (1 / 2)).1 (by norm_num)).2]

/-- The limit `1/2` and `u' + u - 1 = 0` from `0`: the run stays at `0` although `0` is not steady. -/
example (N : Newton (Unit → ℝ) (Unit → ℝ))
    (hN : N.maxIter = (assignWhole .maxIterations (.num (.fin (1 / 2))) wholeDefault).2 .maxIterations)
    (tm : Timer) (ts : List (ℚ × ℚ)) (hts : tm.run false 1 = .ok ts) :
    transientRun (⟨fun _ x => fun i => x i - 1, fun d => d, fun x => x⟩ : Problem Unit (Unit → ℝ) (Unit → ℝ))
      .implicitEuler N tm (fun _ => 0) = .ok (ts.map fun p => (p.2, fun _ => 0)) :=
  C117_frozen wholeDefault (1 / 2) (by norm_num) _ _ N hN tm _ ts hts

end Dream
