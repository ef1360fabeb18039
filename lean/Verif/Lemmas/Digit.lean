import Verif.Model.Time
import Verif.Lemmas.Round

namespace Dream

theorem length_dropWhile_le_iff {α} (p : α → Bool) (l : List α) (j : ℕ) (hj : j ≤ l.length) :
    (l.dropWhile p).length ≤ l.length - j ↔ ∀ x ∈ l.take j, p x = true := by
  induction l generalizing j with
  | nil => simp at hj; subst hj; simp
  | cons a l ih =>
    cases j with
    | zero =>
      simp only [Nat.sub_zero, List.take_zero, List.not_mem_nil, false_imp_iff, implies_true, iff_true]
      exact (List.dropWhile_suffix p).length_le
    | succ j =>
      have hj' : j ≤ l.length := by simpa using hj
      by_cases hp : p a = true
      · simp only [List.dropWhile_cons, hp, if_true, List.length_cons, List.take_succ_cons,
          List.mem_cons, forall_eq_or_imp, true_and]
        rw [← ih j hj', Nat.add_sub_add_right]
      · simp only [List.dropWhile_cons, hp, List.length_cons, List.take_succ_cons,
          List.mem_cons, forall_eq_or_imp, false_and, iff_false]
        simp
        omega

theorem pow_dvd_iff_digits (m j : ℕ) : 10 ^ j ∣ m ↔ ∀ k < j, (m / 10 ^ k) % 10 = 0 := by
  induction j with
  | zero => simp
  | succ j ih =>
    constructor
    · intro h k hk
      obtain ⟨c, rfl⟩ := h
      have : 10 ^ (j + 1) * c = 10 ^ k * (10 * (10 ^ (j - k) * c)) := by
        have : j + 1 = k + 1 + (j - k) := by omega
        rw [this]; ring
      rw [this, Nat.mul_div_cancel_left _ (by positivity)]
      simp
    · intro h
      have h1 : 10 ^ j ∣ m := ih.2 fun k hk => h k (by omega)
      obtain ⟨c, rfl⟩ := h1
      have := h j (by omega)
      rw [Nat.mul_div_cancel_left _ (by positivity)] at this
      obtain ⟨d, rfl⟩ := Nat.dvd_of_mod_eq_zero this
      exact ⟨d, by ring⟩

theorem reverse_digits (m : ℕ) :
    ((List.range 16).map fun k => (m / 10 ^ (15 - k)) % 10).reverse
      = (List.range 16).map fun k => (m / 10 ^ k) % 10 := by
  simp [List.range_succ]

theorem setDigit_le_iff_dvd (step : ℚ) (d : ℕ) (hd : d ≤ 16) :
    setDigit step ≤ d ↔ 10 ^ (16 - d) ∣ (pyRound (step * 10 ^ 16)).natAbs := by
  unfold setDigit
  simp only
  rw [reverse_digits]
  generalize (pyRound (step * 10 ^ 16)).natAbs = m
  have h := length_dropWhile_le_iff (fun x : ℕ => decide (x = 0))
    ((List.range 16).map fun k => (m / 10 ^ k) % 10) (16 - d) (by simp)
  have e : ((List.range 16).map fun k => (m / 10 ^ k) % 10).length - (16 - d) = d := by
    simp; omega
  rw [e] at h
  rw [h, pow_dvd_iff_digits, ← List.map_take, List.take_range]
  simp

/-- For a step with at most 16 decimals, `digit` is the number of decimals needed. -/
theorem setDigit_le_iff (step : ℚ) (b : ℤ) (hb : step = b / 10 ^ 16) (d : ℕ) (hd : d ≤ 16) :
    setDigit step ≤ d ↔ ∃ a : ℤ, step = a / 10 ^ d := by
  rw [setDigit_le_iff_dvd step d hd]
  have h1 : step * 10 ^ 16 = (b : ℚ) := by rw [hb]; field_simp
  rw [h1, pyRound_intCast]
  have h2 : (10 : ℚ) ^ 16 = 10 ^ (16 - d) * 10 ^ d := by
    rw [← pow_add]; congr 1; omega
  constructor
  · intro h
    have : ((10 ^ (16 - d) : ℕ) : ℤ) ∣ b := Int.natCast_dvd.2 h
    obtain ⟨c, hc⟩ := this
    refine ⟨c, ?_⟩
    have hc' : (b : ℚ) = 10 ^ (16 - d) * c := by rw [hc]; push_cast; ring
    rw [hb, hc', h2]
    field_simp
  · rintro ⟨a, ha⟩
    apply Int.natCast_dvd.1
    refine ⟨a, ?_⟩
    have : (b : ℚ) = 10 ^ (16 - d) * a := by
      rw [← h1, ha, h2]; field_simp
    push_cast
    exact_mod_cast this

theorem setDigit_le_16 (step : ℚ) : setDigit step ≤ 16 :=
  (setDigit_le_iff_dvd step 16 le_rfl).2 (by simp)

end Dream
