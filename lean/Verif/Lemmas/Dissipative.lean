import Verif.Lemmas.ImplicitStep
import Mathlib.Analysis.InnerProductSpace.PiL2

/-!
# Implicit steps of dissipative equations

Steps of any length near a steady state whose linearisation does not increase an energy.
-/

noncomputable section

namespace Dream
open Metric Spec _root_.Spec

local notation "⟪" x ", " y "⟫" => inner ℝ x y

/-- A symmetric positive definite form is the inner product of some coordinates. -/
theorem exists_coordinates {X : Type} [AddCommGroup X] [Module ℝ X] [FiniteDimensional ℝ X]
    (F : X →ₗ[ℝ] X →ₗ[ℝ] ℝ) (hs : ∀ x y, F x y = F y x) (hp : ∀ x, x ≠ 0 → 0 < F x x) :
    ∃ e : X ≃ₗ[ℝ] EuclideanSpace ℝ (Fin (Module.finrank ℝ X)), ∀ x y, F x y = ⟪e x, e y⟫ := by
  let core : InnerProductSpace.Core ℝ X :=
    { inner := fun x y => F x y
      conj_inner_symm := fun x y => by simp [hs]
      re_inner_nonneg := fun x => by
        by_cases h : x = 0
        · simp [h]
        · exact (hp x h).le
      add_left := fun x y z => by simp
      smul_left := fun x y r => by simp
      definite := fun x h => by
        by_contra hx
        exact (hp x hx).ne' h }
  letI : NormedAddCommGroup X := core.toNormedAddCommGroup
  letI : InnerProductSpace ℝ X := InnerProductSpace.ofCore core.toCore
  refine ⟨(stdOrthonormalBasis ℝ X).repr.toLinearEquiv, fun x y => ?_⟩
  exact ((stdOrthonormalBasis ℝ X).repr.inner_map_map x y).symm

section Hilbert

variable {E : Type} [NormedAddCommGroup E] [InnerProductSpace ℝ E] [CompleteSpace E]

/-- A function that is nearly dissipative near a steady state. -/
structure NearDissipative (Φ : E → E) (y0 : E) (R L l : ℝ) : Prop where
  steady : Φ y0 = 0
  lip : ∀ a b, ‖a - y0‖ ≤ R → ‖b - y0‖ ≤ R → ‖Φ a - Φ b‖ ≤ L * ‖a - b‖
  diss : ∀ a b, ‖a - y0‖ ≤ R → ‖b - y0‖ ≤ R → ⟪Φ a - Φ b, a - b⟫ ≤ l * ‖a - b‖ ^ 2

/-- The equation of a step of any length has a solution. -/
theorem NearDissipative.exists_step {Φ : E → E} {y0 : E} {R L l : ℝ} (h : NearDissipative Φ y0 R L l)
    (hL : 0 ≤ L) {τ : ℝ} (hτ : 0 ≤ τ) (hl : τ * l ≤ 1 / 2) {y : E} (hy : ‖y - y0‖ ≤ R / 4) :
    ∃ x, ‖x - y0‖ ≤ R ∧ x = y + τ • Φ x := by
  have hR : 0 ≤ R := by
    have := norm_nonneg (y - y0)
    linarith
  obtain ⟨m, hm⟩ : ∃ m, m = 1 + τ * L := ⟨_, rfl⟩
  have hm1 : 1 ≤ m := by rw [hm]; nlinarith
  have hm0 : 0 < m := by linarith
  obtain ⟨ω, hω⟩ : ∃ ω, ω = 1 / (2 * m ^ 2) := ⟨_, rfl⟩
  have hωm : ω * m ^ 2 = 1 / 2 := by rw [hω]; field_simp
  have hω0 : 0 < ω := by rw [hω]; positivity
  have hω1 : ω ≤ 1 / 2 := by
    have h1 : 1 ≤ m ^ 2 := one_le_pow₀ hm1
    nlinarith
  let G : E → E := fun x => x - τ • Φ x
  let f : E → E := fun x => x - ω • (G x - y)
  have hf : ∀ a b, ‖a - y0‖ ≤ R → ‖b - y0‖ ≤ R → ‖f a - f b‖ ≤ (1 - ω / 4) * ‖a - b‖ := by
    intro a b ha hb
    have e : f a - f b = (a - b) - ω • (G a - G b) := by simp only [f]; module
    have eG : G a - G b = (a - b) - τ • (Φ a - Φ b) := by simp only [G]; module
    have h1 : ‖G a - G b‖ ≤ m * ‖a - b‖ := by
      rw [eG, hm]
      calc _ ≤ ‖a - b‖ + ‖τ • (Φ a - Φ b)‖ := norm_sub_le _ _
        _ ≤ ‖a - b‖ + τ * (L * ‖a - b‖) := by
            rw [norm_smul, Real.norm_of_nonneg hτ]
            have := mul_le_mul_of_nonneg_left (h.lip a b ha hb) hτ
            linarith
        _ = _ := by ring
    have h2 : 1 / 2 * ‖a - b‖ ^ 2 ≤ ⟪a - b, G a - G b⟫ := by
      rw [eG, inner_sub_right, real_inner_self_eq_norm_sq, inner_smul_right, real_inner_comm]
      have := mul_le_mul_of_nonneg_left (h.diss a b ha hb) hτ
      nlinarith [sq_nonneg ‖a - b‖]
    have h3 : ‖f a - f b‖ ^ 2 ≤ ((1 - ω / 4) * ‖a - b‖) ^ 2 := by
      rw [e, norm_sub_sq_real, inner_smul_right, norm_smul, Real.norm_of_nonneg hω0.le]
      have h4 : ‖G a - G b‖ ^ 2 ≤ m ^ 2 * ‖a - b‖ ^ 2 := by
        rw [← mul_pow]
        exact pow_le_pow_left₀ (norm_nonneg _) h1 2
      have h5 : (ω * ‖G a - G b‖) ^ 2 ≤ ω * (1 / 2) * ‖a - b‖ ^ 2 := by
        calc (ω * ‖G a - G b‖) ^ 2 = ω ^ 2 * ‖G a - G b‖ ^ 2 := by ring
          _ ≤ ω ^ 2 * (m ^ 2 * ‖a - b‖ ^ 2) := mul_le_mul_of_nonneg_left h4 (sq_nonneg _)
          _ = ω * (ω * m ^ 2) * ‖a - b‖ ^ 2 := by ring
          _ = _ := by rw [hωm]
      have h6 := mul_le_mul_of_nonneg_left h2 hω0.le
      nlinarith [mul_nonneg (sq_nonneg ω) (sq_nonneg ‖a - b‖)]
    exact (sq_le_sq₀ (norm_nonneg _) (mul_nonneg (by linarith) (norm_nonneg _))).1 h3
  have hmaps : Set.MapsTo f (closedBall y0 R) (closedBall y0 R) := by
    intro a ha
    rw [mem_closedBall, dist_eq_norm] at ha ⊢
    have h1 := hf a y0 ha (by simpa using hR)
    have h2 : f y0 - y0 = ω • (y - y0) := by
      simp only [f, G, h.steady, smul_zero]
      module
    calc ‖f a - y0‖ = ‖(f a - f y0) + (f y0 - y0)‖ := by rw [sub_add_sub_cancel]
      _ ≤ ‖f a - f y0‖ + ‖f y0 - y0‖ := norm_add_le _ _
      _ ≤ (1 - ω / 4) * R + ω * (R / 4) := by
          rw [h2, norm_smul, Real.norm_of_nonneg hω0.le]
          refine add_le_add (h1.trans (mul_le_mul_of_nonneg_left ha (by linarith)))
            (mul_le_mul_of_nonneg_left hy hω0.le)
      _ = R := by ring
  obtain ⟨q, hq⟩ : ∃ q : NNReal, (q : ℝ) = 1 - ω / 4 :=
    ⟨Real.toNNReal (1 - ω / 4), Real.coe_toNNReal _ (by linarith)⟩
  have hcon : ContractingWith q (hmaps.restrict f _ _) := by
    refine ⟨by rw [← NNReal.coe_lt_coe, hq, NNReal.coe_one]; linarith,
      LipschitzWith.of_dist_le_mul ?_⟩
    rintro ⟨a, ha⟩ ⟨b, hb⟩
    rw [mem_closedBall, dist_eq_norm] at ha hb
    simp only [Subtype.dist_eq, Set.MapsTo.val_restrict_apply, dist_eq_norm]
    rw [hq]
    exact hf a b ha hb
  obtain ⟨x, hx, hfx, -⟩ := hcon.exists_fixedPoint' isClosed_closedBall.isComplete hmaps
    (mem_closedBall_self hR) (edist_ne_top _ _)
  rw [mem_closedBall, dist_eq_norm] at hx
  refine ⟨x, hx, ?_⟩
  have h1 : x - ω • (x - τ • Φ x - y) = x := hfx
  have h2 : ω • (x - τ • Φ x - y) = 0 := by
    rw [sub_eq_self] at h1
    exact h1
  have h3 := (smul_eq_zero.1 h2).resolve_left hω0.ne'
  rw [sub_sub, sub_eq_zero] at h3
  rw [add_comm]
  exact h3

/-- It has only one. -/
theorem NearDissipative.step_unique {Φ : E → E} {y0 : E} {R L l : ℝ}
    (h : NearDissipative Φ y0 R L l) {τ : ℝ} (hτ : 0 ≤ τ) (hl : τ * l ≤ 1 / 2) {y x z : E}
    (hx : ‖x - y0‖ ≤ R) (hz : ‖z - y0‖ ≤ R) (ex : x = y + τ • Φ x) (ez : z = y + τ • Φ z) : x = z := by
  have e : x - z = τ • (Φ x - Φ z) := by
    conv_lhs => rw [ex, ez]
    module
  have h1 : ‖x - z‖ ^ 2 = τ * ⟪Φ x - Φ z, x - z⟫ := by
    rw [← real_inner_self_eq_norm_sq]
    conv_lhs => lhs; rw [e]
    rw [inner_smul_left]
    rfl
  have h2 := mul_le_mul_of_nonneg_left (h.diss x z hx hz) hτ
  have h3 : ‖x - z‖ ^ 2 ≤ 0 := by nlinarith [sq_nonneg ‖x - z‖]
  have h4 : ‖x - z‖ = 0 := pow_eq_zero_iff two_ne_zero |>.1 (le_antisymm h3 (sq_nonneg _))
  exact sub_eq_zero.1 (norm_eq_zero.1 h4)

/-- The energy a scheme controls. -/
def Scheme.energy (s : Scheme) (μ : ℝ) (a b : E) : ℝ :=
  match s with
  | .implicitEuler => ‖a‖ ^ 2
  | .bdf2 => ‖a‖ ^ 2 + ‖(2 : ℝ) • a - b‖ ^ 2 + μ / 2 * ‖a‖ ^ 2

theorem energy_ge (s : Scheme) {μ : ℝ} (hμ : 0 ≤ μ) (a b : E) : ‖a‖ ^ 2 ≤ s.energy μ a b := by
  cases s
  · exact le_rfl
  · simp only [Scheme.energy]
    have := sq_nonneg ‖(2 : ℝ) • a - b‖
    have := mul_nonneg (half_pos_of hμ) (sq_nonneg ‖a‖)
    linarith
where
  half_pos_of {μ : ℝ} (hμ : 0 ≤ μ) : 0 ≤ μ / 2 := by linarith

theorem energy_ge_extrapolate (s : Scheme) {μ : ℝ} (hμ : 0 ≤ μ) (a b : E) :
    ‖s.extrapolate a b‖ ^ 2 ≤ s.energy μ a b := by
  cases s
  · exact le_rfl
  · simp only [Scheme.energy, Scheme.extrapolate]
    have e : (4 / 3 : ℝ) • a - (1 / 3 : ℝ) • b = (2 / 3 : ℝ) • a + (1 / 3 : ℝ) • ((2 : ℝ) • a - b) := by
      module
    have h1 : ‖(4 / 3 : ℝ) • a - (1 / 3 : ℝ) • b‖ ≤ 2 / 3 * ‖a‖ + 1 / 3 * ‖(2 : ℝ) • a - b‖ := by
      rw [e]
      refine (norm_add_le _ _).trans (le_of_eq ?_)
      rw [norm_smul, norm_smul, Real.norm_of_nonneg (by norm_num), Real.norm_of_nonneg (by norm_num)]
    have h2 := pow_le_pow_left₀ (norm_nonneg _) h1 2
    refine h2.trans ?_
    have := mul_nonneg (show 0 ≤ μ / 2 by linarith) (sq_nonneg ‖a‖)
    nlinarith [sq_nonneg (‖a‖ - ‖(2 : ℝ) • a - b‖), sq_nonneg ‖a‖, sq_nonneg ‖(2 : ℝ) • a - b‖]

theorem energy_le (s : Scheme) {μ : ℝ} (hμ : 0 ≤ μ) (hμ1 : μ ≤ 1) {a b : E} {η : ℝ}
    (ha : ‖a‖ ≤ η) (hb : ‖b‖ ≤ η) : s.energy μ a b ≤ 11 * η ^ 2 := by
  have h1 := pow_le_pow_left₀ (norm_nonneg _) ha 2
  have h0 := sq_nonneg η
  cases s
  · simp only [Scheme.energy]
    linarith
  · simp only [Scheme.energy]
    have h2 : ‖(2 : ℝ) • a - b‖ ≤ 3 * η := by
      refine (norm_sub_le _ _).trans ?_
      rw [norm_smul, Real.norm_of_nonneg (by norm_num)]
      linarith
    have h3 := pow_le_pow_left₀ (norm_nonneg _) h2 2
    have h4 : μ / 2 * ‖a‖ ^ 2 ≤ 1 / 2 * η ^ 2 :=
      mul_le_mul (by linarith) h1 (sq_nonneg _) (by norm_num)
    nlinarith

/-- What a step does to the energy. -/
theorem energy_identity (s : Scheme) {dt : ℝ} {a b c g : E}
    (h : a = s.extrapolate b c + (dt / s.weight) • g) :
    s.energy 0 a b ≤ s.energy 0 b c
      + (match s with | .implicitEuler => 2 * dt | .bdf2 => 4 * dt) * ⟪g, a⟫ := by
  cases s
  · simp only [Scheme.energy, Scheme.extrapolate, Scheme.weight, div_one] at h ⊢
    have e : b = a - dt • g := by rw [h]; abel
    rw [e, norm_sub_sq_real, inner_smul_right, real_inner_comm]
    nlinarith [sq_nonneg ‖dt • g‖]
  · simp only [Scheme.energy, Scheme.extrapolate, Scheme.weight] at h ⊢
    have e : c = (4 : ℝ) • b - (3 : ℝ) • a + (2 * dt) • g := by
      have : (3 : ℝ) • a = (4 : ℝ) • b - c + (2 * dt) • g := by
        rw [h]
        module
      rw [this]
      abel
    have e2 : (2 : ℝ) • b - c = ((3 : ℝ) • a - (2 : ℝ) • b) - (2 * dt) • g := by
      rw [e]
      module
    have e3 : (2 * dt) • g = (3 : ℝ) • a - (4 : ℝ) • b + c := by rw [e]; module
    have key : ‖b‖ ^ 2 + ‖(2 : ℝ) • b - c‖ ^ 2 + 2 * ⟪(2 * dt) • g, a⟫
        = ‖a‖ ^ 2 + ‖(2 : ℝ) • a - b‖ ^ 2 + ‖a - (2 : ℝ) • b + c‖ ^ 2 := by
      rw [e3]
      simp only [← real_inner_self_eq_norm_sq, inner_sub_left, inner_sub_right, inner_add_left,
        inner_add_right, inner_smul_left, inner_smul_right]
      simp only [real_inner_comm b a, real_inner_comm c a, real_inner_comm c b]
      simp
      ring
    rw [inner_smul_left] at key
    simp only [RCLike.conj_to_real] at key
    nlinarith [sq_nonneg ‖a - (2 : ℝ) • b + c‖]

theorem extrapolate_shift (s : Scheme) (c p y0 : E) :
    s.extrapolate (c - y0) (p - y0) = s.extrapolate c p - y0 := by
  cases s <;> simp only [Scheme.extrapolate]
  module

/-- Runs whose steps are controlled by a functional. -/
theorem NearDissipative.runs {Φ : E → E} {y0 : E} {R L l : ℝ} (h : NearDissipative Φ y0 R L l)
    (hL : 0 ≤ L) (hR : 0 ≤ R) {s : Scheme} {dt : ℝ} (hdt : 0 ≤ dt) (hl : dt / s.weight * l ≤ 1 / 2)
    {μ θ : ℝ} (hμ : 0 ≤ μ) (hθ : 0 ≤ θ)
    (hF : ∀ x c p, ‖x - y0‖ ≤ R → x = s.extrapolate c p + (dt / s.weight) • Φ x →
      s.energy μ (x - y0) (c - y0) ≤ θ * s.energy μ (c - y0) (p - y0)) :
    ∀ (ts : List ℚ) (c p : E),
      (∀ k < ts.length, θ ^ k * s.energy μ (c - y0) (p - y0) ≤ (R / 4) ^ 2) →
      ∃ xs, Satisfies (implicitStep Φ s dt) p c ts xs ∧ (∀ x ∈ xs, ‖x - y0‖ ≤ R) ∧
        (∀ (k : ℕ) x, xs[k]? = some x → ‖x - y0‖ ^ 2 ≤ θ ^ (k + 1) * s.energy μ (c - y0) (p - y0)) ∧
        ∀ ys, Satisfies (implicitStep Φ s dt) p c ts ys → (∀ y ∈ ys, ‖y - y0‖ ≤ R) → ys = xs := by
  have hτ : 0 ≤ dt / s.weight := by
    cases s <;> simp only [Scheme.weight] <;> positivity
  intro ts
  induction ts with
  | nil =>
    intro c p _
    refine ⟨[], trivial, by simp, by simp, fun ys hys _ => ?_⟩
    cases ys with
    | nil => rfl
    | cons y ys => exact absurd hys (by simp [Satisfies])
  | cons t ts ih =>
    intro c p hk
    have h0 := hk 0 (by simp)
    rw [pow_zero, one_mul] at h0
    have hy : ‖s.extrapolate c p - y0‖ ≤ R / 4 := by
      rw [← extrapolate_shift]
      exact (sq_le_sq₀ (norm_nonneg _) (by linarith)).1 ((energy_ge_extrapolate s hμ _ _).trans h0)
    obtain ⟨x, hx, ex⟩ := h.exists_step hL hτ hl hy
    have hE := hF x c p hx ex
    obtain ⟨xs, i1, i2, i3, i4⟩ := ih x c fun k hk' => by
      refine le_trans ?_ (hk (k + 1) (by simpa using hk'))
      rw [pow_succ, mul_assoc]
      exact mul_le_mul_of_nonneg_left hE (pow_nonneg hθ k)
    refine ⟨x :: xs, ⟨ex, i1⟩, ?_, ?_, ?_⟩
    · intro z hz
      rcases List.mem_cons.1 hz with rfl | hz
      · exact hx
      · exact i2 z hz
    · intro k z hz
      cases k with
      | zero =>
        simp only [List.getElem?_cons_zero, Option.some.injEq] at hz
        subst hz
        rw [zero_add, pow_one]
        exact (energy_ge s hμ _ _).trans hE
      | succ k =>
        rw [List.getElem?_cons_succ] at hz
        refine (i3 k z hz).trans ?_
        rw [pow_succ θ (k + 1), mul_assoc]
        exact mul_le_mul_of_nonneg_left hE (pow_nonneg hθ _)
    · intro ys hys hn
      cases ys with
      | nil => exact absurd hys (by simp [Satisfies])
      | cons y ys =>
        obtain ⟨s1, s2⟩ := hys
        have : y = x := h.step_unique hτ hl (hn y (by simp)) hx s1 ex
        subst this
        rw [i4 ys s2 fun z hz => hn z (by simp [hz])]

/-- Steps increase the energy slowly. -/
theorem NearDissipative.growth {Φ : E → E} {y0 : E} {R L l : ℝ} (h : NearDissipative Φ y0 R L l)
    (hR : 0 ≤ R) (hl : 0 ≤ l) {s : Scheme} {dt : ℝ} (hdt : 0 ≤ dt) {x c p : E} (hx : ‖x - y0‖ ≤ R)
    (e : x = s.extrapolate c p + (dt / s.weight) • Φ x) :
    s.energy 0 (x - y0) (c - y0) * (1 - 4 * dt * l) ≤ s.energy 0 (c - y0) (p - y0) := by
  have e' : x - y0 = s.extrapolate (c - y0) (p - y0) + (dt / s.weight) • Φ x := by
    rw [extrapolate_shift]
    conv_lhs => rw [e]
    abel
  have h1 := energy_identity s e'
  have h2 : ⟪Φ x, x - y0⟫ ≤ l * ‖x - y0‖ ^ 2 := by
    have := h.diss x y0 hx (by simpa using hR)
    rwa [h.steady, sub_zero] at this
  have h3 := energy_ge s le_rfl (x - y0) (c - y0)
  have h5 : ⟪Φ x, x - y0⟫ ≤ l * s.energy 0 (x - y0) (c - y0) :=
    h2.trans (mul_le_mul_of_nonneg_left h3 hl)
  have h6 : 0 ≤ l * s.energy 0 (x - y0) (c - y0) := mul_nonneg hl ((sq_nonneg _).trans h3)
  cases s
  · simp only at h1
    nlinarith [mul_le_mul_of_nonneg_left h5 hdt, mul_nonneg hdt h6]
  · simp only at h1
    nlinarith [mul_le_mul_of_nonneg_left h5 hdt]

/-- The factor by which steps decrease the energy of a dissipative equation. -/
def Scheme.gain (s : Scheme) (dt k : ℝ) : ℝ :=
  match s with
  | .implicitEuler => 2 * dt * k
  | .bdf2 => min (4 * dt * k) 1 / 19

theorem gain_pos (s : Scheme) {dt k : ℝ} (hdt : 0 < dt) (hk : 0 < k) : 0 < s.gain dt k := by
  cases s
  · simp only [Scheme.gain]; positivity
  · simp only [Scheme.gain]
    have : 0 < min (4 * dt * k) 1 := lt_min (by positivity) one_pos
    positivity

theorem NearDissipative.decay {Φ : E → E} {y0 : E} {R L k : ℝ} (h : NearDissipative Φ y0 R L (-k))
    (hR : 0 ≤ R) (hk : 0 < k) {s : Scheme} {dt : ℝ} (hdt : 0 < dt) {x c p : E} (hx : ‖x - y0‖ ≤ R)
    (e : x = s.extrapolate c p + (dt / s.weight) • Φ x) :
    s.energy (min (4 * dt * k) 1) (x - y0) (c - y0) * (1 + s.gain dt k)
      ≤ s.energy (min (4 * dt * k) 1) (c - y0) (p - y0) := by
  have e' : x - y0 = s.extrapolate (c - y0) (p - y0) + (dt / s.weight) • Φ x := by
    rw [extrapolate_shift]
    conv_lhs => rw [e]
    abel
  have h1 := energy_identity s e'
  have h2 : ⟪Φ x, x - y0⟫ ≤ -k * ‖x - y0‖ ^ 2 := by
    have := h.diss x y0 hx (by simpa using hR)
    rwa [h.steady, sub_zero] at this
  have h3 := mul_le_mul_of_nonneg_left h2 hdt.le
  generalize x - y0 = a at *
  generalize c - y0 = b at *
  generalize p - y0 = d at *
  cases s
  · simp only [Scheme.energy, Scheme.gain] at h1 ⊢
    nlinarith
  · obtain ⟨μ, hμ⟩ : ∃ μ, μ = min (4 * dt * k) 1 := ⟨_, rfl⟩
    have hμ0 : 0 < μ := hμ ▸ lt_min (by positivity) one_pos
    have hμ1 : μ ≤ 1 := hμ ▸ min_le_right _ _
    have hμ2 : μ ≤ 4 * dt * k := hμ ▸ min_le_left _ _
    simp only [Scheme.energy, Scheme.gain, ← hμ] at h1 ⊢
    have h4 : ‖(2 : ℝ) • a - b‖ ^ 2 ≤ 8 * ‖a‖ ^ 2 + 2 * ‖b‖ ^ 2 := by
      have h5 : ‖(2 : ℝ) • a - b‖ ≤ 2 * ‖a‖ + ‖b‖ := by
        refine (norm_sub_le _ _).trans ?_
        rw [norm_smul, Real.norm_of_nonneg (by norm_num)]
      have h6 := pow_le_pow_left₀ (norm_nonneg _) h5 2
      nlinarith [sq_nonneg (2 * ‖a‖ - ‖b‖)]
    have ha := sq_nonneg ‖a‖
    have hb := sq_nonneg ‖b‖
    generalize ‖a‖ ^ 2 = A at *
    generalize ‖b‖ ^ 2 = Bq at *
    generalize ‖(2 : ℝ) • a - b‖ ^ 2 = Q at *
    generalize ‖(2 : ℝ) • b - d‖ ^ 2 = Q' at *
    have h7 : A + Q + μ * A ≤ Bq + Q' := by
      have := mul_le_mul_of_nonneg_right hμ2 ha
      nlinarith
    have h8 : (A + Q + μ / 2 * A) * (μ / 19) ≤ μ / 2 * A + μ / 2 * Bq := by
      have h9 : A + Q + μ / 2 * A ≤ 19 / 2 * (A + Bq) := by nlinarith
      calc _ ≤ 19 / 2 * (A + Bq) * (μ / 19) := mul_le_mul_of_nonneg_right h9 (by positivity)
        _ = _ := by ring
    nlinarith

end Hilbert

section Transport

variable {X E : Type} [NormedAddCommGroup X] [NormedSpace ℝ X] [NormedAddCommGroup E]
  [NormedSpace ℝ E] (e : X ≃L[ℝ] E)

theorem step_transport (Ψ : X → X) (s : Scheme) (dt : ℝ) (t : ℚ) (x c p : X) :
    implicitStep (fun y => e (Ψ (e.symm y))) s dt t (e x) (e c) (e p) ↔
      implicitStep Ψ s dt t x c p := by
  have h : e (s.extrapolate c p + (dt / s.weight) • Ψ x)
      = s.extrapolate (e c) (e p) + (dt / s.weight) • e (Ψ (e.symm (e x))) := by
    cases s <;> simp [Scheme.extrapolate]
  unfold implicitStep
  rw [← h, e.injective.eq_iff]

theorem run_transport (Ψ : X → X) (s : Scheme) (dt : ℝ) : ∀ (ts : List ℚ) (xs : List X) (c p : X),
    Satisfies (implicitStep (fun y => e (Ψ (e.symm y))) s dt) (e p) (e c) ts (xs.map e) ↔
      Satisfies (implicitStep Ψ s dt) p c ts xs := by
  intro ts
  induction ts with
  | nil =>
    intro xs c p
    cases xs <;> simp [Satisfies]
  | cons t ts ih =>
    intro xs c p
    cases xs with
    | nil => simp [Satisfies]
    | cons x xs =>
      simp only [List.map_cons, Satisfies]
      rw [step_transport, ih]

end Transport

section Finite

variable {X : Type} [NormedAddCommGroup X] [NormedSpace ℝ X] [FiniteDimensional ℝ X]

/-- Near a steady state whose linearisation is dissipative in the energy `F`, the equation is nearly
dissipative in coordinates. -/
theorem near_dissipative {Ψ : X → X} {x0 : X} {L : NNReal} {r : ℝ} (hr : 0 < r)
    (hΨ : LipschitzOnWith L Ψ (closedBall x0 r)) (h0 : Ψ x0 = 0) {Ψ' : X →L[ℝ] X}
    (hd : HasStrictFDerivAt Ψ Ψ' x0) {F : X →ₗ[ℝ] X →ₗ[ℝ] ℝ} (hs : ∀ x y, F x y = F y x)
    (hp : ∀ x, x ≠ 0 → 0 < F x x) {k : ℝ} (hk : ∀ a, F (Ψ' a) a ≤ -k * F a a) :
    ∃ e : X ≃L[ℝ] EuclideanSpace ℝ (Fin (Module.finrank ℝ X)), ∃ L' ≥ 0, ∀ l, -k < l →
      ∃ R > 0, (∀ x, ‖e x - e x0‖ ≤ R → ‖x - x0‖ ≤ r) ∧
        ∀ R' ≤ R, NearDissipative (fun y => e (Ψ (e.symm y))) (e x0) R' L' l := by
  obtain ⟨e0, he0⟩ := exists_coordinates F hs hp
  obtain ⟨e, he⟩ : ∃ e : X ≃L[ℝ] EuclideanSpace ℝ (Fin (Module.finrank ℝ X)), ∀ x, e x = e0 x :=
    ⟨e0.toContinuousLinearEquiv, fun _ => rfl⟩
  have hF : ∀ x y, F x y = ⟪e x, e y⟫ := fun x y => by rw [he0, he, he]
  let e1 : X →L[ℝ] EuclideanSpace ℝ (Fin (Module.finrank ℝ X)) := e
  let e2 : EuclideanSpace ℝ (Fin (Module.finrank ℝ X)) →L[ℝ] X := e.symm
  have n1 : ∀ x, ‖e x‖ ≤ ‖e1‖ * ‖x‖ := fun x => e1.le_opNorm x
  have n2 : ∀ x, ‖x‖ ≤ ‖e2‖ * ‖e x‖ := fun x => by
    have := e2.le_opNorm (e x)
    rwa [show e2 (e x) = x from e.symm_apply_apply x] at this
  have p1 := norm_nonneg e1
  have p2 := norm_nonneg e2
  refine ⟨e, ‖e1‖ * L * ‖e2‖, by positivity, fun l hl => ?_⟩
  obtain ⟨ε, hε⟩ : ∃ ε, ε = (l + k) / (‖e1‖ * ‖e2‖ + 1) := ⟨_, rfl⟩
  have hε0 : 0 < ε := by rw [hε]; exact div_pos (by linarith) (by positivity)
  have hε1 : ‖e1‖ * ε * ‖e2‖ ≤ l + k := by
    have : ε * (‖e1‖ * ‖e2‖ + 1) = l + k := by rw [hε]; field_simp
    nlinarith
  have hlo := hd.isLittleO.def hε0
  obtain ⟨r1, hr1, hb⟩ := Metric.eventually_nhds_iff_ball.1 hlo
  obtain ⟨R, hR⟩ : ∃ R, R = min r (r1 / 2) / (‖e2‖ + 1) := ⟨_, rfl⟩
  have hm : 0 < min r (r1 / 2) := lt_min hr (half_pos hr1)
  have hR0 : 0 < R := by rw [hR]; positivity
  have hR1 : ∀ x, ‖e x - e x0‖ ≤ R → ‖x - x0‖ ≤ min r (r1 / 2) := by
    intro x hx
    have h1 := n2 (x - x0)
    rw [map_sub] at h1
    have h2 : R * (‖e2‖ + 1) = min r (r1 / 2) := by rw [hR]; field_simp
    nlinarith
  refine ⟨R, hR0, fun x hx => (hR1 x hx).trans (min_le_left _ _), fun R' hR' => ⟨?_, ?_, ?_⟩⟩
  · simp [h0]
  · intro a b ha hb'
    have ha' : ‖e.symm a - x0‖ ≤ r := (hR1 _ (by simpa using ha.trans hR')).trans (min_le_left _ _)
    have hb'' : ‖e.symm b - x0‖ ≤ r := (hR1 _ (by simpa using hb'.trans hR')).trans (min_le_left _ _)
    have h1 := hΨ.dist_le_mul (e.symm a) (by rwa [mem_closedBall, dist_eq_norm]) (e.symm b)
      (by rwa [mem_closedBall, dist_eq_norm])
    rw [dist_eq_norm, dist_eq_norm] at h1
    have h2 := n1 (Ψ (e.symm a) - Ψ (e.symm b))
    have h3 : ‖e.symm a - e.symm b‖ ≤ ‖e2‖ * ‖a - b‖ := by
      rw [← map_sub]
      exact e2.le_opNorm _
    rw [map_sub] at h2
    calc _ ≤ _ := h2
      _ ≤ ‖e1‖ * (L * (‖e2‖ * ‖a - b‖)) := mul_le_mul_of_nonneg_left
          (h1.trans (mul_le_mul_of_nonneg_left h3 L.2)) p1
      _ = _ := by ring
  · intro a' b' ha hb'
    obtain ⟨a, rfl⟩ := e.surjective a'
    obtain ⟨b, rfl⟩ := e.surjective b'
    have ha' := (hR1 _ (ha.trans hR')).trans (min_le_right _ _)
    have hb'' := (hR1 _ (hb'.trans hR')).trans (min_le_right _ _)
    have h1 := hb (a, b) (by
      rw [mem_ball, Prod.dist_eq, dist_eq_norm, dist_eq_norm]
      exact max_lt (by linarith) (by linarith))
    simp only at h1
    simp only [e.symm_apply_apply]
    have h2 : ⟪e (Ψ a) - e (Ψ b), e a - e b⟫
        = F (Ψ' (a - b)) (a - b) + ⟪e (Ψ a - Ψ b - Ψ' (a - b)), e a - e b⟫ := by
      rw [hF, ← map_sub e a b, ← inner_add_left, ← map_add, ← map_sub e (Ψ a)]
      congr 2
      abel
    have h3 : ⟪e (Ψ a - Ψ b - Ψ' (a - b)), e a - e b⟫ ≤ (l + k) * ‖e a - e b‖ ^ 2 := by
      have h4 := real_inner_le_norm (e (Ψ a - Ψ b - Ψ' (a - b))) (e a - e b)
      have h5 := (n1 (Ψ a - Ψ b - Ψ' (a - b))).trans (mul_le_mul_of_nonneg_left h1 p1)
      have h6 := n2 (a - b)
      rw [map_sub] at h6
      have h7 : ‖e (Ψ a - Ψ b - Ψ' (a - b))‖ ≤ (l + k) * ‖e a - e b‖ := by
        calc _ ≤ _ := h5
          _ ≤ ‖e1‖ * (ε * (‖e2‖ * ‖e a - e b‖)) := mul_le_mul_of_nonneg_left
              (mul_le_mul_of_nonneg_left h6 hε0.le) p1
          _ = ‖e1‖ * ε * ‖e2‖ * ‖e a - e b‖ := by ring
          _ ≤ _ := mul_le_mul_of_nonneg_right hε1 (norm_nonneg _)
      calc _ ≤ _ := h4
        _ ≤ (l + k) * ‖e a - e b‖ * ‖e a - e b‖ := mul_le_mul_of_nonneg_right h7 (norm_nonneg _)
        _ = _ := by ring
    have h8 := hk (a - b)
    have h9 : F (a - b) (a - b) = ‖e a - e b‖ ^ 2 := by
      rw [hF, real_inner_self_eq_norm_sq, map_sub]
    rw [h9] at h8
    rw [h2]
    linarith

theorem equiv_bounds {E : Type} [NormedAddCommGroup E] [NormedSpace ℝ E] (e : X ≃L[ℝ] E) :
    ∃ K1 > 0, ∃ K2 > 0, (∀ x, ‖e x‖ ≤ K1 * ‖x‖) ∧ ∀ x, ‖x‖ ≤ K2 * ‖e x‖ := by
  let e1 : X →L[ℝ] E := e
  let e2 : E →L[ℝ] X := e.symm
  refine ⟨‖e1‖ + 1, by positivity, ‖e2‖ + 1, by positivity, fun x => ?_, fun x => ?_⟩
  · refine (e1.le_opNorm x).trans ?_
    exact mul_le_mul_of_nonneg_right (by linarith) (norm_nonneg x)
  · have := e2.le_opNorm (e x)
    rw [show e2 (e x) = x from e.symm_apply_apply x] at this
    refine this.trans ?_
    exact mul_le_mul_of_nonneg_right (by linarith) (norm_nonneg _)

/-- Runs in coordinates are runs. -/
theorem runs_in_coordinates {Ψ : X → X} {x0 : X}
    (e : X ≃L[ℝ] EuclideanSpace ℝ (Fin (Module.finrank ℝ X))) {K1 K2 : ℝ} (hK1 : 0 < K1)
    (hK2 : 0 < K2) (n1 : ∀ x, ‖e x‖ ≤ K1 * ‖x‖) (n2 : ∀ x, ‖x‖ ≤ K2 * ‖e x‖) {R : ℝ} (hR : 0 < R)
    {L l : ℝ} (hL : 0 ≤ L) (hD : NearDissipative (fun y => e (Ψ (e.symm y))) (e x0) R L l)
    {s : Scheme} {dt : ℝ} (hdt : 0 ≤ dt) (hl : dt / s.weight * l ≤ 1 / 2) {μ q G : ℝ} (hμ : 0 ≤ μ)
    (hμ1 : μ ≤ 1) (hq : 0 ≤ q)
    (hF : ∀ x c p, ‖x - e x0‖ ≤ R →
      x = s.extrapolate c p + (dt / s.weight) • e (Ψ (e.symm x)) →
      s.energy μ (x - e x0) (c - e x0) ≤ q ^ 2 * s.energy μ (c - e x0) (p - e x0))
    (ts : List ℚ) (hG : ∀ k ≤ ts.length, q ^ k ≤ G) {η : ℝ} (hη : 0 ≤ η)
    (hηR : G * (4 * K1 * η) ≤ R / 4) {c p : X} (hc : ‖c - x0‖ ≤ η) (hpn : ‖p - x0‖ ≤ η) :
    ∃ xs, Satisfies (implicitStep Ψ s dt) p c ts xs ∧
      (∀ (k : ℕ) x, xs[k]? = some x → ‖x - x0‖ ≤ 4 * K1 * K2 * q ^ (k + 1) * η) ∧
      ∀ ys, Satisfies (implicitStep Ψ s dt) p c ts ys → (∀ y ∈ ys, ‖y - x0‖ ≤ R / K1) → ys = xs := by
  have hE : s.energy μ (e c - e x0) (e p - e x0) ≤ (4 * K1 * η) ^ 2 := by
    have h1 := (n1 (c - x0)).trans (mul_le_mul_of_nonneg_left hc hK1.le)
    have h2 := (n1 (p - x0)).trans (mul_le_mul_of_nonneg_left hpn hK1.le)
    rw [map_sub] at h1 h2
    have := energy_le s hμ hμ1 h1 h2
    nlinarith [sq_nonneg (K1 * η)]
  have hE0 : 0 ≤ s.energy μ (e c - e x0) (e p - e x0) := (sq_nonneg _).trans (energy_ge s hμ _ _)
  obtain ⟨zs, i1, i2, i3, i4⟩ := hD.runs hL hR.le hdt hl hμ (sq_nonneg q) hF ts (e c) (e p) (by
    intro k hk
    have h1 : (q ^ 2) ^ k = (q ^ k) ^ 2 := by rw [← pow_mul, ← pow_mul, mul_comm]
    rw [h1]
    calc _ ≤ (q ^ k) ^ 2 * (4 * K1 * η) ^ 2 := mul_le_mul_of_nonneg_left hE (sq_nonneg _)
      _ = (q ^ k * (4 * K1 * η)) ^ 2 := by ring
      _ ≤ (R / 4) ^ 2 := pow_le_pow_left₀ (by positivity)
          ((mul_le_mul_of_nonneg_right (hG k hk.le) (by positivity)).trans hηR) 2)
  obtain ⟨xs, rfl⟩ : ∃ xs : List X, zs = xs.map e := ⟨zs.map e.symm, by
    rw [List.map_map]
    conv_lhs => rw [← List.map_id zs]
    exact List.map_congr_left fun y _ => (e.apply_symm_apply y).symm⟩
  refine ⟨xs, (run_transport e Ψ s dt ts xs c p).1 i1, ?_, ?_⟩
  · intro k x hx
    have h1 := i3 k (e x) (by rw [List.getElem?_map, hx]; rfl)
    have h2 : ‖e x - e x0‖ ≤ q ^ (k + 1) * (4 * K1 * η) := by
      refine (sq_le_sq₀ (norm_nonneg _) (by positivity)).1 (h1.trans ?_)
      have h3 : (q ^ 2) ^ (k + 1) = (q ^ (k + 1)) ^ 2 := by rw [← pow_mul, ← pow_mul, mul_comm]
      rw [h3, mul_pow]
      exact mul_le_mul_of_nonneg_left hE (sq_nonneg _)
    have h4 := n2 (x - x0)
    rw [map_sub] at h4
    calc _ ≤ _ := h4
      _ ≤ K2 * (q ^ (k + 1) * (4 * K1 * η)) := mul_le_mul_of_nonneg_left h2 hK2.le
      _ = _ := by ring
  · intro ys hys hn
    have h1 := i4 (ys.map e) ((run_transport e Ψ s dt ts ys c p).2 hys) (by
      intro z hz
      obtain ⟨y, hy, rfl⟩ := List.mem_map.1 hz
      have h2 := n1 (y - x0)
      rw [map_sub] at h2
      calc _ ≤ _ := h2
        _ ≤ K1 * (R / K1) := mul_le_mul_of_nonneg_left (hn y hy) hK1.le
        _ = R := by field_simp)
    exact (List.map_injective_iff.2 e.injective) h1

/-- Steps of any length near a steady state whose linearisation does not increase an energy. -/
theorem dissipative_long {Ψ : X → X} {x0 : X} {L : NNReal} {r : ℝ} (hr : 0 < r)
    (hΨ : LipschitzOnWith L Ψ (closedBall x0 r)) (h0 : Ψ x0 = 0) {Ψ' : X →L[ℝ] X}
    (hd : HasStrictFDerivAt Ψ Ψ' x0) {F : X →ₗ[ℝ] X →ₗ[ℝ] ℝ} (hs : ∀ x y, F x y = F y x)
    (hp : ∀ x, x ≠ 0 → 0 < F x x) (hk : ∀ a, F (Ψ' a) a ≤ 0) :
    ∃ C > 0, ∀ T, ∃ r' > 0, r' ≤ r ∧ ∃ δ > 0, C * δ ≤ r' ∧ ∀ (s : Scheme) (dt : ℝ), 0 < dt →
      ∀ ts : List ℚ, dt * ts.length ≤ T → ∀ η, 0 ≤ η → η ≤ δ → ∀ c p, ‖c - x0‖ ≤ η → ‖p - x0‖ ≤ η →
      ∃ xs, Satisfies (implicitStep Ψ s dt) p c ts xs ∧ (∀ x ∈ xs, ‖x - x0‖ ≤ C * η) ∧
        ∀ ys, Satisfies (implicitStep Ψ s dt) p c ts ys → (∀ y ∈ ys, ‖y - x0‖ ≤ r') → ys = xs := by
  obtain ⟨e, L', hL', hD⟩ := near_dissipative hr hΨ h0 hd hs hp (k := 0)
    (fun a => by simpa using hk a)
  obtain ⟨K1, hK1, K2, hK2, n1, n2⟩ := equiv_bounds e
  refine ⟨8 * K1 * K2, by positivity, fun T => ?_⟩
  obtain ⟨l, hl⟩ : ∃ l, l = 1 / (8 * (|T| + 1)) := ⟨_, rfl⟩
  have hl0 : 0 < l := by rw [hl]; positivity
  have hlT : 8 * l * (|T| + 1) = 1 := by rw [hl]; field_simp
  obtain ⟨R, hR, -, hR2⟩ := hD l (by linarith)
  obtain ⟨R', hR'⟩ : ∃ R', R' = min R (r * K1) := ⟨_, rfl⟩
  have hR'0 : 0 < R' := by rw [hR']; exact lt_min hR (by positivity)
  have hR'r : R' / K1 ≤ r := by
    rw [div_le_iff₀ hK1, hR']
    exact min_le_right _ _
  have hD' := hR2 R' (hR' ▸ min_le_left _ _)
  obtain ⟨δ, hδ⟩ : ∃ δ, δ = R' / (32 * K1 * (1 + K1 * K2)) := ⟨_, rfl⟩
  have hδ0 : 0 < δ := by rw [hδ]; positivity
  have hδR : 32 * K1 * (1 + K1 * K2) * δ = R' := by rw [hδ]; field_simp
  refine ⟨R' / K1, by positivity, hR'r, δ, hδ0, ?_, ?_⟩
  · rw [le_div_iff₀ hK1]
    have : 0 < K1 * δ := by positivity
    nlinarith [mul_pos (mul_pos hK1 hK2) this]
  intro s dt hdt ts hT η hη hηδ c p hc hpn
  by_cases hts : ts = []
  · subst hts
    refine ⟨[], trivial, by simp, fun ys hys _ => ?_⟩
    cases ys with
    | nil => rfl
    | cons y ys => exact absurd hys (by simp [Satisfies])
  have hlen : (1 : ℝ) ≤ ts.length := by
    have : 0 < ts.length := List.length_pos_iff.2 hts
    exact_mod_cast this
  have hT' : dt * ts.length ≤ |T| := hT.trans (le_abs_self T)
  have hdtT : dt ≤ |T| := by nlinarith
  obtain ⟨g, hg⟩ : ∃ g, g = 4 * dt * l := ⟨_, rfl⟩
  have hg0 : 0 < g := by rw [hg]; positivity
  have hgl : g * ts.length ≤ 1 / 2 := by
    rw [hg]
    nlinarith
  have hg1 : g ≤ 1 / 2 := by nlinarith
  obtain ⟨q, hq⟩ : ∃ q, q = Real.sqrt (1 / (1 - g)) := ⟨_, rfl⟩
  have hq2 : q ^ 2 = 1 / (1 - g) := by
    rw [hq]
    exact Real.sq_sqrt (div_nonneg zero_le_one (by linarith))
  have hq0 : 0 ≤ q := hq ▸ Real.sqrt_nonneg _
  have hG : ∀ k ≤ ts.length, q ^ k ≤ 2 := by
    intro k hk'
    have h1 : (q ^ k) ^ 2 = 1 / (1 - g) ^ k := by
      rw [← pow_mul, mul_comm, pow_mul, hq2, one_div_pow]
    have h2 : 1 / 2 ≤ (1 - g) ^ k := by
      have h3 := one_add_mul_le_pow (show (-2 : ℝ) ≤ -g by linarith) k
      have h4 : (k : ℝ) ≤ ts.length := by exact_mod_cast hk'
      have h5 : g * k ≤ 1 / 2 := (mul_le_mul_of_nonneg_left h4 hg0.le).trans hgl
      have h6 : 1 + -g = 1 - g := by ring
      rw [h6] at h3
      linarith
    have h7 : (q ^ k) ^ 2 ≤ 2 := by
      rw [h1, div_le_iff₀ (by linarith)]
      linarith
    nlinarith [pow_nonneg hq0 k]
  have hls : dt / s.weight * l ≤ 1 / 2 := by
    have h1 : dt / s.weight ≤ dt := by
      cases s <;> simp only [Scheme.weight] <;> linarith
    have := mul_le_mul_of_nonneg_right h1 hl0.le
    nlinarith
  obtain ⟨xs, i1, i2, i3⟩ := runs_in_coordinates e hK1 hK2 n1 n2 hR'0 hL' hD' hdt.le hls le_rfl
    zero_le_one hq0 (fun x c p hx ex => by
      have h1 := hD'.growth hR'0.le hl0.le hdt.le hx ex
      rw [hq2, one_div, inv_mul_eq_div, le_div_iff₀ (by linarith), hg]
      exact h1) ts hG hη (by
        have : 0 < K1 * δ := by positivity
        nlinarith [mul_pos (mul_pos hK1 hK2) this, mul_le_mul_of_nonneg_left hηδ hK1.le]) hc hpn
  refine ⟨xs, i1, ?_, i3⟩
  intro x hx
  obtain ⟨k, hk1, hk2⟩ := List.getElem_of_mem hx
  have hlen' : ∀ (ts : List ℚ) (xs : List X) c p, Satisfies (implicitStep Ψ s dt) p c ts xs →
      xs.length = ts.length := by
    intro ts
    induction ts with
    | nil => intro xs c p h; cases xs with
      | nil => rfl
      | cons _ _ => exact absurd h (by simp [Satisfies])
    | cons t ts ih => intro xs c p h; cases xs with
      | nil => exact absurd h (by simp [Satisfies])
      | cons x xs => simp [ih xs _ _ h.2]
  have h1 := i2 k x (by rw [List.getElem?_eq_getElem hk1, hk2])
  refine h1.trans ?_
  have h2 := hG (k + 1) (by rw [← hlen' ts xs c p i1]; exact hk1)
  calc 4 * K1 * K2 * q ^ (k + 1) * η = q ^ (k + 1) * (4 * K1 * K2 * η) := by ring
    _ ≤ 2 * (4 * K1 * K2 * η) := mul_le_mul_of_nonneg_right h2 (by positivity)
    _ = _ := by ring

/-- Runs of any length return to a steady state whose linearisation decreases an energy. -/
theorem dissipative_decay {Ψ : X → X} {x0 : X} {L : NNReal} {r : ℝ} (hr : 0 < r)
    (hΨ : LipschitzOnWith L Ψ (closedBall x0 r)) (h0 : Ψ x0 = 0) {Ψ' : X →L[ℝ] X}
    (hd : HasStrictFDerivAt Ψ Ψ' x0) {F : X →ₗ[ℝ] X →ₗ[ℝ] ℝ} (hs : ∀ x y, F x y = F y x)
    (hp : ∀ x, x ≠ 0 → 0 < F x x) {k : ℝ} (hk0 : 0 < k) (hk : ∀ a, F (Ψ' a) a ≤ -k * F a a) :
    ∃ C > 0, ∃ r' > 0, r' ≤ r ∧ ∃ δ > 0, C * δ ≤ r' ∧ ∀ (s : Scheme) (dt : ℝ), 0 < dt →
      ∃ q, 0 < q ∧ q < 1 ∧ ∀ ts : List ℚ, ∀ η, 0 ≤ η → η ≤ δ → ∀ c p, ‖c - x0‖ ≤ η →
      ‖p - x0‖ ≤ η → ∃ xs, Satisfies (implicitStep Ψ s dt) p c ts xs ∧
        (∀ (i : ℕ) x, xs[i]? = some x → ‖x - x0‖ ≤ C * q ^ (i + 1) * η) ∧
        ∀ ys, Satisfies (implicitStep Ψ s dt) p c ts ys → (∀ y ∈ ys, ‖y - x0‖ ≤ r') → ys = xs := by
  obtain ⟨e, L', hL', hD⟩ := near_dissipative hr hΨ h0 hd hs hp hk
  obtain ⟨K1, hK1, K2, hK2, n1, n2⟩ := equiv_bounds e
  refine ⟨4 * K1 * K2, by positivity, ?_⟩
  obtain ⟨R, hR, -, hR2⟩ := hD (-(k / 2)) (by linarith)
  obtain ⟨R', hR'⟩ : ∃ R', R' = min R (r * K1) := ⟨_, rfl⟩
  have hR'0 : 0 < R' := by rw [hR']; exact lt_min hR (by positivity)
  have hR'r : R' / K1 ≤ r := by
    rw [div_le_iff₀ hK1, hR']
    exact min_le_right _ _
  have hD' := hR2 R' (hR' ▸ min_le_left _ _)
  obtain ⟨δ, hδ⟩ : ∃ δ, δ = R' / (32 * K1 * (1 + K1 * K2)) := ⟨_, rfl⟩
  have hδ0 : 0 < δ := by rw [hδ]; positivity
  have hδR : 32 * K1 * (1 + K1 * K2) * δ = R' := by rw [hδ]; field_simp
  refine ⟨R' / K1, by positivity, hR'r, δ, hδ0, ?_, ?_⟩
  · rw [le_div_iff₀ hK1]
    have : 0 < K1 * δ := by positivity
    nlinarith [mul_pos (mul_pos hK1 hK2) this]
  intro s dt hdt
  have hk2 : 0 < k / 2 := by linarith
  have hgp := gain_pos s hdt hk2
  obtain ⟨g, hg⟩ : ∃ g, g = s.gain dt (k / 2) := ⟨_, rfl⟩
  rw [← hg] at hgp
  obtain ⟨q, hq⟩ : ∃ q, q = Real.sqrt (1 / (1 + g)) := ⟨_, rfl⟩
  have hq2 : q ^ 2 = 1 / (1 + g) := by
    rw [hq]
    exact Real.sq_sqrt (by positivity)
  have hq0 : 0 < q := hq ▸ Real.sqrt_pos.2 (by positivity)
  have hq1 : q < 1 := by
    have : q ^ 2 < 1 := by
      rw [hq2, div_lt_one (by linarith)]
      linarith
    nlinarith
  refine ⟨q, hq0, hq1, ?_⟩
  intro ts η hη hηδ c p hc hpn
  have hls : dt / s.weight * -(k / 2) ≤ 1 / 2 := by
    have : 0 ≤ dt / s.weight := by
      cases s <;> simp only [Scheme.weight] <;> positivity
    nlinarith
  exact runs_in_coordinates e hK1 hK2 n1 n2 hR'0 hL' hD' hdt.le hls
    (μ := min (4 * dt * (k / 2)) 1) (le_min (by positivity) zero_le_one) (min_le_right _ _) hq0.le (fun x c p hx ex => by
      have h1 := hD'.decay hR'0.le hk2 hdt hx ex
      rw [← hg] at h1
      rw [hq2, one_div, inv_mul_eq_div, le_div_iff₀ (by linarith)]
      exact h1) ts (G := 1) (fun i _ => pow_le_one₀ hq0.le hq1.le) hη (by
        have : 0 < K1 * δ := by positivity
        nlinarith [mul_pos (mul_pos hK1 hK2) this, mul_le_mul_of_nonneg_left hηδ hK1.le]) hc hpn

end Finite

end Dream
