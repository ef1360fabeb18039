import Verif.Model.Basic

namespace Dream

theorem pyRound_abs_le (x : ℚ) : |(pyRound x : ℚ) - x| ≤ 1 / 2 := by
  have h1 := Int.floor_le x
  have h2 := Int.lt_floor_add_one x
  unfold pyRound
  simp only
  split_ifs <;> push_cast <;> rw [abs_le] <;> constructor <;> linarith

theorem pyRound_le (x : ℚ) : (pyRound x : ℚ) ≤ x + 1 / 2 := by
  have := abs_le.1 (pyRound_abs_le x); linarith [this.2]

theorem le_pyRound (x : ℚ) : x - 1 / 2 ≤ (pyRound x : ℚ) := by
  have := abs_le.1 (pyRound_abs_le x); linarith [this.1]

theorem pyRound_intCast (n : ℤ) : pyRound (n : ℚ) = n := by
  unfold pyRound; simp

theorem pyRound_natCast (n : ℕ) : pyRound (n : ℚ) = n := by
  have := pyRound_intCast n
  simpa using this

/-- In a tie the result is even. -/
theorem pyRound_tie_even (x : ℚ) (h : x - ⌊x⌋ = 1 / 2) : pyRound x % 2 = 0 := by
  unfold pyRound
  simp only [h]
  split_ifs <;> first | omega | (norm_num at *)

theorem pyRound_mono_strict {x y : ℚ} (h : x + 1 < y) : pyRound x < pyRound y := by
  have h1 := pyRound_le x
  have h2 := le_pyRound y
  have : (pyRound x : ℚ) < pyRound y := by linarith
  exact_mod_cast this

theorem pyRound_nonneg {x : ℚ} (h : 0 ≤ x) : 0 ≤ pyRound x := by
  have hf : 0 ≤ ⌊x⌋ := Int.floor_nonneg.2 h
  unfold pyRound
  simp only
  split_ifs <;> omega

theorem pyRoundDigits_of_multiple (x : ℚ) (d : ℕ) (a : ℤ) (h : x = a / 10 ^ d) :
    pyRoundDigits x d = x := by
  have h10 : (10 : ℚ) ^ d ≠ 0 := by positivity
  unfold pyRoundDigits
  have : x * 10 ^ d = (a : ℚ) := by rw [h]; field_simp
  rw [this, pyRound_intCast, h]

theorem pyRoundDigits_lt {x y : ℚ} {d : ℕ} (h : 1 / 10 ^ d < y - x) :
    pyRoundDigits x d < pyRoundDigits y d := by
  have h10 : (0 : ℚ) < 10 ^ d := by positivity
  unfold pyRoundDigits
  have : pyRound (x * 10 ^ d) < pyRound (y * 10 ^ d) := by
    apply pyRound_mono_strict
    rw [div_lt_iff₀ h10] at h
    linarith
  have h' : (pyRound (x * 10 ^ d) : ℚ) < pyRound (y * 10 ^ d) := by exact_mod_cast this
  exact div_lt_div_of_pos_right h' h10

end Dream
