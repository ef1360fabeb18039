import Verif.Lemmas.ImplicitStep
import Mathlib.Analysis.ODE.ExistUnique
import Mathlib.Analysis.ODE.Gronwall
import Mathlib.Analysis.Calculus.MeanValue

/-!
# Implicit steps of an ordinary differential equation converge to its solution
-/

noncomputable section

namespace Dream
open Metric Set

variable {X : Type} [NormedAddCommGroup X] [NormedSpace ℝ X]

/-- The nearest point of the ball on the ray from its centre. -/
def radial (x0 : X) (r : ℝ) (x : X) : X := x0 + (r / max r ‖x - x0‖) • (x - x0)

theorem radial_mem (x0 : X) {r : ℝ} (hr : 0 < r) (x : X) : radial x0 r x ∈ closedBall x0 r := by
  rw [mem_closedBall, dist_eq_norm, radial, add_sub_cancel_left, norm_smul]
  have hm : 0 < max r ‖x - x0‖ := lt_max_of_lt_left hr
  rw [Real.norm_of_nonneg (by positivity), div_mul_eq_mul_div, div_le_iff₀ hm]
  exact mul_le_mul_of_nonneg_left (le_max_right _ _) hr.le

theorem radial_eq {x0 : X} {r : ℝ} (hr : 0 < r) {x : X} (hx : ‖x - x0‖ ≤ r) :
    radial x0 r x = x := by
  rw [radial, max_eq_left hx, div_self hr.ne', one_smul, add_sub_cancel]

theorem radial_lipschitz (x0 : X) {r : ℝ} (hr : 0 < r) : LipschitzWith 2 (radial x0 r) := by
  refine LipschitzWith.of_dist_le_mul fun x y => ?_
  rw [dist_eq_norm, dist_eq_norm]
  obtain ⟨v, hv⟩ : ∃ v, v = x - x0 := ⟨_, rfl⟩
  obtain ⟨u, hu⟩ : ∃ u, u = y - x0 := ⟨_, rfl⟩
  have e0 : x - y = v - u := by rw [hv, hu, sub_sub_sub_cancel_right]
  rw [radial, radial, add_sub_add_left_eq_sub, ← hv, ← hu, e0]
  obtain ⟨a, ha⟩ : ∃ a, a = max r ‖v‖ := ⟨_, rfl⟩
  obtain ⟨b, hb⟩ : ∃ b, b = max r ‖u‖ := ⟨_, rfl⟩
  rw [← ha, ← hb]
  have ha0 : 0 < a := ha ▸ lt_max_of_lt_left hr
  have hb0 : 0 < b := hb ▸ lt_max_of_lt_left hr
  have hra : r ≤ a := ha ▸ le_max_left _ _
  have hub : ‖u‖ ≤ b := hb ▸ le_max_right _ _
  have hab : |b - a| ≤ ‖v - u‖ := by
    have h1 : |b - a| ≤ |‖u‖ - ‖v‖| := by
      rw [ha, hb, max_comm r ‖u‖, max_comm r ‖v‖]
      exact abs_max_sub_max_le_abs _ _ _
    have h2 := abs_norm_sub_norm_le u v
    rw [norm_sub_rev] at h2
    exact h1.trans h2
  have e : (r / a) • v - (r / b) • u = (r / a) • (v - u) + ((r / a) * ((b - a) / b)) • u := by
    have : (r / a) * ((b - a) / b) = r / a - r / b := by field_simp
    rw [this]
    module
  rw [e]
  have h1 : r / a ≤ 1 := (div_le_one ha0).2 hra
  have h0 : 0 ≤ r / a := by positivity
  have n1 : ‖(r / a) • (v - u)‖ ≤ ‖v - u‖ := by
    rw [norm_smul, Real.norm_of_nonneg h0]
    exact mul_le_of_le_one_left (norm_nonneg _) h1
  have n2 : ‖((r / a) * ((b - a) / b)) • u‖ ≤ ‖v - u‖ := by
    rw [norm_smul, Real.norm_eq_abs, abs_mul, abs_of_nonneg h0, abs_div, abs_of_pos hb0]
    calc r / a * (|b - a| / b) * ‖u‖ = r / a * (|b - a| * (‖u‖ / b)) := by ring
      _ ≤ 1 * (|b - a| * 1) := by
          refine mul_le_mul h1 (mul_le_mul_of_nonneg_left ?_ (abs_nonneg _)) (by positivity)
            zero_le_one
          exact (div_le_one hb0).2 hub
      _ ≤ _ := by simpa using hab
  calc _ ≤ _ := norm_add_le _ _
    _ ≤ ‖v - u‖ + ‖v - u‖ := add_le_add n1 n2
    _ = _ := by push_cast; ring

theorem satisfies_len {A T : Type} {eqn : T → A → A → A → Prop} : ∀ {ts : List T} {xs : List A} {p c : A},
    _root_.Spec.Satisfies eqn p c ts xs → xs.length = ts.length := by
  intro ts
  induction ts with
  | nil => intro xs p c h; cases xs <;> simp_all [_root_.Spec.Satisfies]
  | cons t ts ih =>
    intro xs p c h
    cases xs with
    | nil => exact absurd h (by simp [_root_.Spec.Satisfies])
    | cons x xs => simp [ih h.2]

variable {Ψ : X → X} {x0 : X} {L : NNReal} {r : ℝ}

/-- `u` solves the equation up to the time `T`. -/
def Solves (Ψ : X → X) (T : ℝ) (u : ℝ → X) : Prop :=
  ∀ t ∈ Icc 0 T, HasDerivWithinAt u (Ψ (u t)) (Icc 0 T) t

theorem Solves.right {T : ℝ} {u : ℝ → X} (h : Solves Ψ T u) :
    ContinuousOn u (Icc 0 T) ∧ ∀ t ∈ Ico 0 T, HasDerivWithinAt u (Ψ (u t)) (Ici t) t := by
  refine ⟨fun t ht => (h t ht).continuousWithinAt, fun t ht => ?_⟩
  exact (h t ⟨ht.1, ht.2.le⟩).mono_of_mem_nhdsWithin (Icc_mem_nhdsGE_of_mem ht)

/-- Two solutions in the ball that start together stay together. -/
theorem solves_unique (hΨ : LipschitzOnWith L Ψ (closedBall x0 r)) {T : ℝ} {u v : ℝ → X}
    (hu : Solves Ψ T u) (hv : Solves Ψ T v) (hur : ∀ t ∈ Icc 0 T, ‖u t - x0‖ ≤ r)
    (hvr : ∀ t ∈ Icc 0 T, ‖v t - x0‖ ≤ r) (h0 : u 0 = v 0) : ∀ t ∈ Icc 0 T, u t = v t := by
  intro t ht
  have := dist_le_of_trajectories_ODE_of_mem (v := fun _ => Ψ) (s := fun _ => closedBall x0 r)
    (K := L) (δ := 0) (fun _ _ => hΨ) hu.right.1 hu.right.2
    (fun t ht => by rw [mem_closedBall, dist_eq_norm]; exact hur t ⟨ht.1, ht.2.le⟩) hv.right.1
    hv.right.2 (fun t ht => by rw [mem_closedBall, dist_eq_norm]; exact hvr t ⟨ht.1, ht.2.le⟩)
    (by rw [h0, dist_self]) t ht
  rw [zero_mul] at this
  exact dist_le_zero.1 this

/-- Solutions in the ball move away from the equilibrium at most exponentially. -/
theorem solves_bound (hr : 0 ≤ r) (hΨ : LipschitzOnWith L Ψ (closedBall x0 r)) (h0 : Ψ x0 = 0)
    {T : ℝ} {u : ℝ → X} (hu : Solves Ψ T u) (hur : ∀ t ∈ Icc 0 T, ‖u t - x0‖ ≤ r) :
    ∀ t ∈ Icc 0 T, ‖u t - x0‖ ≤ ‖u 0 - x0‖ * Real.exp (L * T) := by
  intro t ht
  have hc : Solves Ψ T fun _ => x0 := fun t _ => by
    rw [h0]
    exact hasDerivWithinAt_const _ _ _
  have := dist_le_of_trajectories_ODE_of_mem (v := fun _ => Ψ) (s := fun _ => closedBall x0 r)
    (K := L) (δ := ‖u 0 - x0‖) (fun _ _ => hΨ) hu.right.1 hu.right.2
    (fun t ht => by rw [mem_closedBall, dist_eq_norm]; exact hur t ⟨ht.1, ht.2.le⟩) hc.right.1
    hc.right.2 (fun t _ => mem_closedBall_self hr)
    (by rw [dist_eq_norm]) t ht
  rw [dist_eq_norm, sub_zero] at this
  refine this.trans (mul_le_mul_of_nonneg_left (Real.exp_le_exp.2 ?_) (norm_nonneg _))
  exact mul_le_mul_of_nonneg_left ht.2 L.2

/-- Near an equilibrium there are solutions up to every time. -/
theorem solves_exists [CompleteSpace X] (hr : 0 < r) (hΨ : LipschitzOnWith L Ψ (closedBall x0 r))
    (h0 : Ψ x0 = 0) {T : ℝ} (hT : 0 ≤ T) {a : X}
    (ha : ‖a - x0‖ * Real.exp (2 * L * T) ≤ r) :
    ∃ u, u 0 = a ∧ Solves Ψ T u ∧
      ∀ t ∈ Icc 0 T, ‖u t - x0‖ ≤ ‖a - x0‖ * Real.exp (2 * L * T) := by
  let g : X → X := fun x => Ψ (radial x0 r x)
  have hg : LipschitzWith (L * 2) g := by
    have := hΨ.comp ((radial_lipschitz x0 hr).lipschitzOnWith (s := univ))
      (fun x _ => radial_mem x0 hr x)
    exact lipschitzOnWith_univ.1 this
  have hgb : ∀ x, ‖g x‖ ≤ L * r := fun x => by
    have h1 := hΨ.dist_le_mul _ (radial_mem x0 hr x) _ (mem_closedBall_self hr.le)
    rw [h0, dist_zero_right] at h1
    exact h1.trans (mul_le_mul_of_nonneg_left (mem_closedBall.1 (radial_mem x0 hr x)) L.2)
  have hg0 : g x0 = 0 := by
    simp only [g]
    rw [radial_eq hr (by simpa using hr.le), h0]
  obtain ⟨rr, hrr⟩ : ∃ rr : NNReal, (rr : ℝ) = r := ⟨⟨r, hr.le⟩, rfl⟩
  obtain ⟨TT, hTT⟩ : ∃ TT : NNReal, (TT : ℝ) = T := ⟨⟨T, hT⟩, rfl⟩
  have hpl : IsPicardLindelof (fun _ => g) (tmin := 0) (tmax := T) ⟨0, le_rfl, hT⟩ a (L * rr * TT) 0
      (L * rr) (L * 2) :=
    { lipschitzOnWith := fun _ _ => hg.lipschitzOnWith
      continuousOn := fun _ _ => continuousOn_const
      norm_le := fun _ _ x _ => by
        push_cast
        rw [hrr]
        exact hgb x
      mul_max_le := by
        push_cast
        rw [hTT]
        simp [hT] }
  obtain ⟨u, hu0, hu⟩ := hpl.exists_eq_forall_mem_Icc_hasDerivWithinAt₀
  have hug : Solves g T u := hu
  have hc : Solves g T fun _ => x0 := fun t _ => by
    rw [hg0]
    exact hasDerivWithinAt_const _ _ _
  have hb : ∀ t ∈ Icc 0 T, ‖u t - x0‖ ≤ ‖a - x0‖ * Real.exp (2 * L * T) := by
    intro t ht
    have h1 := dist_le_of_trajectories_ODE (v := fun _ => g) (K := L * 2) (δ := ‖a - x0‖)
      (fun _ => hg) hug.right.1 hug.right.2 hc.right.1 hc.right.2
      (by rw [dist_eq_norm]; exact le_of_eq (congrArg (fun z => ‖z - x0‖) hu0)) t ht
    rw [dist_eq_norm, sub_zero] at h1
    refine h1.trans (mul_le_mul_of_nonneg_left (Real.exp_le_exp.2 ?_) (norm_nonneg _))
    push_cast
    rw [mul_comm (L : ℝ) 2]
    exact mul_le_mul_of_nonneg_left ht.2 (by positivity)
  refine ⟨u, hu0, fun t ht => ?_, hb⟩
  have h1 := hug t ht
  simp only [g] at h1
  rwa [radial_eq hr ((hb t ht).trans ha)] at h1

/-- Between two times the solution is close to a straight line. -/
theorem solves_line (hΨ : LipschitzOnWith L Ψ (closedBall x0 r)) (h0 : Ψ x0 = 0) (hr : 0 ≤ r)
    {T Y : ℝ} {u : ℝ → X} (hu : Solves Ψ T u) (hur : ∀ t ∈ Icc 0 T, ‖u t - x0‖ ≤ r)
    (hY : ∀ t ∈ Icc 0 T, ‖u t - x0‖ ≤ Y) {a b c : ℝ} (ha : 0 ≤ a) (hab : a ≤ b) (hbc : b ≤ c)
    (hcT : c ≤ T) :
    ‖u b - u a - (b - a) • Ψ (u c)‖ ≤ L * (L * Y * (c - a)) * (b - a) ∧ ‖Ψ (u c)‖ ≤ L * Y := by
  have hL : (0 : ℝ) ≤ L := L.2
  have hsub : Icc a c ⊆ Icc 0 T := Icc_subset_Icc ha hcT
  have lip : ∀ s ∈ Icc 0 T, ∀ t ∈ Icc 0 T, ‖Ψ (u s) - Ψ (u t)‖ ≤ L * ‖u s - u t‖ := by
    intro s hs t ht
    have := hΨ.dist_le_mul (u s) (by rw [mem_closedBall, dist_eq_norm]; exact hur s hs) (u t)
      (by rw [mem_closedBall, dist_eq_norm]; exact hur t ht)
    rwa [dist_eq_norm, dist_eq_norm] at this
  have hd : ∀ s ∈ Icc 0 T, ‖Ψ (u s)‖ ≤ L * Y := by
    intro s hs
    have := hΨ.dist_le_mul (u s) (by rw [mem_closedBall, dist_eq_norm]; exact hur s hs) x0
      (mem_closedBall_self hr)
    rw [h0, dist_zero_right, dist_eq_norm] at this
    exact this.trans (mul_le_mul_of_nonneg_left (hY s hs) hL)
  have hcm : c ∈ Icc 0 T := ⟨ha.trans (hab.trans hbc), hcT⟩
  have hLY : 0 ≤ (L : ℝ) * Y := (norm_nonneg _).trans (hd c hcm)
  -- the solution moves at a bounded speed
  have hspeed : ∀ s ∈ Icc a c, ‖u c - u s‖ ≤ L * Y * (c - a) := by
    intro s hs
    have := (convex_Icc 0 T).norm_image_sub_le_of_norm_hasDerivWithin_le hu hd (hsub hs) hcm
    refine this.trans (mul_le_mul_of_nonneg_left ?_ hLY)
    rw [Real.norm_of_nonneg (by linarith [hs.2])]
    linarith [hs.1]
  refine ⟨?_, hd c hcm⟩
  have hder : ∀ s ∈ Icc a b, HasDerivWithinAt (fun t => u t - t • Ψ (u c))
      (Ψ (u s) - Ψ (u c)) (Icc a b) s := by
    intro s hs
    have hs' : s ∈ Icc a c := ⟨hs.1, hs.2.trans hbc⟩
    have h1 := (hu s (hsub hs')).mono ((Icc_subset_Icc_right hbc).trans hsub)
    have h2 := (hasDerivWithinAt_id s (Icc a b)).smul_const (Ψ (u c))
    rw [one_smul] at h2
    exact h1.sub h2
  have hbound : ∀ s ∈ Icc a b, ‖Ψ (u s) - Ψ (u c)‖ ≤ L * (L * Y * (c - a)) := by
    intro s hs
    have hs' : s ∈ Icc a c := ⟨hs.1, hs.2.trans hbc⟩
    refine (lip s (hsub hs') c hcm).trans (mul_le_mul_of_nonneg_left ?_ hL)
    rw [norm_sub_rev]
    exact hspeed s hs'
  have := (convex_Icc a b).norm_image_sub_le_of_norm_hasDerivWithin_le hder hbound
    (left_mem_Icc.2 hab) (right_mem_Icc.2 hab)
  rw [Real.norm_of_nonneg (by linarith)] at this
  refine le_trans (le_of_eq ?_) this
  congr 1
  module

/-- Errors of the steps add up, amplified at most exponentially. -/
theorem steps_error [CompleteSpace X] (hΨ : LipschitzOnWith L Ψ (closedBall x0 r)) (s : Scheme) {dt : ℝ}
    (hdt : 0 ≤ dt) (hL : dt * L ≤ 1 / 4) {T : Type} (U : ℕ → X) (β : ℕ → ℝ) (ts : List T) :
    ∀ (j : ℕ) (cur prev : X) (xs : List X),
    (∀ i, j ≤ i → i < j + ts.length → ‖U (i + 2) - x0‖ ≤ r ∧ ‖U (i + 2)
      - s.extrapolate (U (i + 1)) (U i) - (dt / s.weight) • Ψ (U (i + 2))‖ ≤ β i) →
    _root_.Spec.Satisfies (implicitStep Ψ s dt) prev cur ts xs → (∀ x ∈ xs, ‖x - x0‖ ≤ r) →
    ∀ i (hi : i < xs.length), ‖xs[i] - U (j + i + 2)‖ ≤ Real.exp (4 * L * dt * (i + 1)) *
      (‖cur - U (j + 1)‖ + 1 / 2 * ‖(cur - U (j + 1)) - (prev - U j)‖
        + ∑ m ∈ Finset.range (i + 1), 3 / 2 * β (j + m)) := by
  have hL0 : (0 : ℝ) ≤ L := L.2
  have hw := s.weight_pos
  have hw1 : 1 ≤ s.weight := by cases s <;> norm_num [Scheme.weight]
  have hτ : 0 ≤ dt / s.weight := div_nonneg hdt hw.le
  have hτ1 : dt / s.weight ≤ dt := div_le_self hdt hw1
  induction ts with
  | nil =>
    intro j cur prev xs _ hs _ i hi
    cases xs with
    | nil => exact absurd hi (by simp)
    | cons x xs => exact absurd hs (by simp [_root_.Spec.Satisfies])
  | cons t ts ih =>
    intro j cur prev xs hU hs hx i hi
    cases xs with
    | nil => exact absurd hs (by simp [_root_.Spec.Satisfies])
    | cons x xs =>
      obtain ⟨s1, s2⟩ := hs
      obtain ⟨hUr, hβ⟩ := hU j le_rfl (by simp)
      obtain ⟨e, he⟩ : ∃ e, e = x - U (j + 2) := ⟨_, rfl⟩
      obtain ⟨e1, he1⟩ : ∃ e1, e1 = cur - U (j + 1) := ⟨_, rfl⟩
      obtain ⟨e2, he2⟩ : ∃ e2, e2 = prev - U j := ⟨_, rfl⟩
      rw [← he1, ← he2]
      have hβ0 : 0 ≤ β j := (norm_nonneg _).trans hβ
      have hlip : ‖Ψ x - Ψ (U (j + 2))‖ ≤ L * ‖e‖ := by
        have := hΨ.dist_le_mul x (by rw [mem_closedBall, dist_eq_norm]; exact hx x (by simp)) _
          (show U (j + 2) ∈ _ by rw [mem_closedBall, dist_eq_norm]; exact hUr)
        rwa [dist_eq_norm, dist_eq_norm, ← he] at this
      have hee : e = s.extrapolate e1 e2 + (dt / s.weight) • (Ψ x - Ψ (U (j + 2)))
          - (U (j + 2) - s.extrapolate (U (j + 1)) (U j) - (dt / s.weight) • Ψ (U (j + 2))) := by
        have hx' : x = s.extrapolate cur prev + (dt / s.weight) • Ψ x := s1
        have hE : s.extrapolate cur prev = s.extrapolate e1 e2 + s.extrapolate (U (j + 1)) (U j) := by
          rw [he1, he2]
          cases s <;> simp only [Scheme.extrapolate] <;> module
        rw [hE] at hx'
        calc e = x - U (j + 2) := he
          _ = (s.extrapolate e1 e2 + s.extrapolate (U (j + 1)) (U j) + (dt / s.weight) • Ψ x)
              - U (j + 2) := by rw [← hx']
          _ = _ := by module
      have hΔ : ‖e - e1‖ ≤ 1 / 3 * ‖e1 - e2‖ + dt * L * ‖e‖ + β j := by
        have hx2 : e - e1 = (s.extrapolate e1 e2 - e1) + (dt / s.weight) • (Ψ x - Ψ (U (j + 2)))
          - (U (j + 2) - s.extrapolate (U (j + 1)) (U j) - (dt / s.weight) • Ψ (U (j + 2))) := by
          rw [sub_eq_iff_eq_add]
          refine hee.trans ?_
          abel
        rw [hx2]
        refine (norm_sub_le _ _).trans (add_le_add ((norm_add_le _ _).trans (add_le_add
          (extrapolate_sub s e1 e2 e1).2 ?_)) hβ)
        rw [norm_smul, Real.norm_of_nonneg hτ, mul_assoc]
        exact mul_le_mul hτ1 hlip (norm_nonneg _) hdt
      have hen : ‖e‖ ≤ ‖e - e1‖ + ‖e1‖ := by
        calc ‖e‖ = ‖(e - e1) + e1‖ := by rw [sub_add_cancel]
          _ ≤ _ := norm_add_le _ _
      obtain ⟨A, hA⟩ : ∃ A, A = ‖e1‖ + 1 / 2 * ‖e1 - e2‖ := ⟨_, rfl⟩
      obtain ⟨A1, hA1⟩ : ∃ A1, A1 = ‖e‖ + 1 / 2 * ‖e - e1‖ := ⟨_, rfl⟩
      have hA0 : 0 ≤ A := by rw [hA]; positivity
      have hA10 : 0 ≤ A1 := by rw [hA1]; positivity
      have heA : ‖e‖ ≤ A1 := by
        rw [hA1]
        have := norm_nonneg (e - e1)
        linarith
      have a1 : dt * L * ‖e‖ ≤ dt * L * A1 := mul_le_mul_of_nonneg_left heA (by positivity)
      have a2 : A1 ≤ A + 3 / 2 * β j + 3 / 2 * (dt * L * A1) := by
        rw [hA]
        have : A1 ≤ ‖e1‖ + 3 / 2 * ‖e - e1‖ := by rw [hA1]; linarith
        linarith
      have h1 : 0 ≤ dt * L := by positivity
      have a3 : A1 ≤ (A + 3 / 2 * β j) * (1 + 4 * (dt * L)) := by
        have h2 : A1 * (1 - 3 / 2 * (dt * L)) ≤ A + 3 / 2 * β j := by linarith
        have h3 : 1 ≤ (1 - 3 / 2 * (dt * L)) * (1 + 4 * (dt * L)) := by nlinarith
        calc A1 ≤ A1 * ((1 - 3 / 2 * (dt * L)) * (1 + 4 * (dt * L))) :=
              le_mul_of_one_le_right hA10 h3
          _ = A1 * (1 - 3 / 2 * (dt * L)) * (1 + 4 * (dt * L)) := by ring
          _ ≤ _ := mul_le_mul_of_nonneg_right h2 (by linarith)
      have h4 : 1 + 4 * (dt * L) ≤ Real.exp (4 * L * dt) := by
        have := Real.add_one_le_exp (4 * L * dt : ℝ)
        linarith
      have a4 : A1 ≤ Real.exp (4 * L * dt) * (A + 3 / 2 * β j) := by
        rw [mul_comm (Real.exp _)]
        exact a3.trans (mul_le_mul_of_nonneg_left h4 (by linarith))
      rw [← hA]
      cases i with
      | zero =>
        simp only [List.getElem_cons_zero, Finset.sum_range_one, Nat.cast_zero, zero_add, add_zero,
          mul_one]
        rw [← he]
        exact heA.trans a4
      | succ i =>
        have hi' : i < xs.length := by simpa using hi
        have := ih (j + 1) x cur xs (fun m h1 h2 => hU m (by omega) (by simp; omega)) s2
          (fun y hy => hx y (by simp [hy])) i hi'
        rw [← he, ← he1, ← hA1] at this
        simp only [List.getElem_cons_succ]
        rw [show j + (i + 1) + 2 = j + 1 + i + 2 by omega]
        refine this.trans ?_
        have hsum : 0 ≤ ∑ m ∈ Finset.range (i + 1), 3 / 2 * β (j + 1 + m) := by
          refine Finset.sum_nonneg fun m hm => mul_nonneg (by norm_num) ?_
          have hlen : xs.length = ts.length := satisfies_len s2
          refine (norm_nonneg _).trans (hU (j + 1 + m) (by omega) ?_).2
          have := Finset.mem_range.1 hm
          simp
          omega
        have hone : 1 ≤ Real.exp (4 * L * dt) := Real.one_le_exp (by positivity)
        calc Real.exp (4 * L * dt * (i + 1)) *
              (A1 + ∑ m ∈ Finset.range (i + 1), 3 / 2 * β (j + 1 + m))
            ≤ Real.exp (4 * L * dt * (i + 1)) * (Real.exp (4 * L * dt) * (A + 3 / 2 * β j)
              + Real.exp (4 * L * dt) * ∑ m ∈ Finset.range (i + 1), 3 / 2 * β (j + 1 + m)) := by
              refine mul_le_mul_of_nonneg_left (add_le_add a4 ?_) (Real.exp_pos _).le
              exact le_mul_of_one_le_left hsum hone
          _ = (Real.exp (4 * L * dt * (i + 1)) * Real.exp (4 * L * dt)) * (A
              + (3 / 2 * β j + ∑ m ∈ Finset.range (i + 1), 3 / 2 * β (j + 1 + m))) := by ring
          _ = _ := by
              rw [← Real.exp_add, Finset.sum_range_succ' _ (i + 1), add_zero,
                add_comm (3 / 2 * β j)]
              congr 2
              · push_cast
                ring
              · congr 2
                funext m
                rw [show j + 1 + m = j + (m + 1) by omega]

/-- The states of an implicit run differ from the solution by at most a multiple of the time step. -/
theorem run_error [CompleteSpace X] (hr : 0 ≤ r) (hΨ : LipschitzOnWith L Ψ (closedBall x0 r)) (h0 : Ψ x0 = 0)
    (s : Scheme) {dt T Y : ℝ} (hdt : 0 < dt) (hL : dt * L ≤ 1 / 4) {u : ℝ → X}
    (hu : Solves Ψ T u) (hur : ∀ t ∈ Icc 0 T, ‖u t - x0‖ ≤ r) (hY : ∀ t ∈ Icc 0 T, ‖u t - x0‖ ≤ Y)
    {τ : Type} (ts : List τ) (hT : dt * ts.length ≤ T) (xs : List X)
    (hs : _root_.Spec.Satisfies (implicitStep Ψ s dt) (u 0) (u 0) ts xs)
    (hx : ∀ x ∈ xs, ‖x - x0‖ ≤ r) (i : ℕ) (hi : i < xs.length) :
    ‖xs[i] - u ((i + 1) * dt)‖ ≤ Real.exp (4 * L * T) * (3 * L * (L * T + 1) * Y) * dt := by
  have hL0 : (0 : ℝ) ≤ L := L.2
  have hlen : xs.length = ts.length := satisfies_len hs
  have hi' : i < ts.length := hlen ▸ hi
  have hT0 : 0 ≤ T := le_trans (by positivity) hT
  have hY0 : 0 ≤ Y := (norm_nonneg _).trans (hY 0 ⟨le_rfl, hT0⟩)
  let U : ℕ → X := fun m => u ((m - 1 : ℕ) * dt)
  let β : ℕ → ℝ := fun m => 2 * L * L * Y * dt * dt + if m = 0 then L * Y * dt else 0
  have tm : ∀ m : ℕ, m < ts.length → ((m + 1 : ℕ) : ℝ) * dt ≤ T := fun m hm => by
    refine le_trans ?_ hT
    rw [mul_comm]
    exact mul_le_mul_of_nonneg_left (by exact_mod_cast hm) hdt.le
  have key : ∀ m, 0 ≤ m → m < 0 + ts.length → ‖U (m + 2) - x0‖ ≤ r ∧ ‖U (m + 2)
      - s.extrapolate (U (m + 1)) (U m) - (dt / s.weight) • Ψ (U (m + 2))‖ ≤ β m := by
    intro m _ hm
    have hm' := tm m (by omega)
    have hU2 : U (m + 2) = u ((m + 1 : ℕ) * dt) := rfl
    have hU1 : U (m + 1) = u (m * dt) := rfl
    rw [hU2, hU1]
    refine ⟨hur _ ⟨by positivity, hm'⟩, ?_⟩
    have e1 : ((m + 1 : ℕ) : ℝ) * dt - m * dt = dt := by push_cast; ring
    obtain ⟨l1, l2⟩ := solves_line hΨ h0 hr hu hur hY (a := m * dt) (b := (m + 1 : ℕ) * dt)
      (c := (m + 1 : ℕ) * dt) (by positivity) (by linarith) le_rfl hm'
    rw [e1] at l1
    have p0 : 0 ≤ L * (L * Y * dt) * dt := by positivity
    have pβ : 2 * L * L * Y * dt * dt ≤ β m := by
      simp only [β]
      split_ifs
      · have : 0 ≤ L * Y * dt := by positivity
        linarith
      · linarith
    cases s with
    | implicitEuler =>
      simp only [Scheme.extrapolate, Scheme.weight, div_one]
      refine l1.trans (le_trans ?_ pβ)
      nlinarith
    | bdf2 =>
      simp only [Scheme.extrapolate, Scheme.weight]
      cases m with
      | zero =>
        have hU0 : U 0 = u ((0 : ℕ) * dt) := rfl
        rw [hU0]
        obtain ⟨a, ha⟩ : ∃ a, a = u ((0 : ℕ) * dt) := ⟨_, rfl⟩
        obtain ⟨b, hb⟩ : ∃ b, b = u ((0 + 1 : ℕ) * dt) := ⟨_, rfl⟩
        rw [← ha, ← hb] at l1 ⊢
        rw [← hb] at l2
        have e : b - ((4 / 3 : ℝ) • a - (1 / 3 : ℝ) • a) - (dt / (3 / 2)) • Ψ b
            = (b - a - dt • Ψ b) + (dt / 3) • Ψ b := by module
        rw [e]
        refine (norm_add_le _ _).trans ((add_le_add l1 (show _ ≤ L * Y * dt from ?_)).trans ?_)
        · rw [norm_smul, Real.norm_of_nonneg (by positivity)]
          calc dt / 3 * ‖Ψ b‖ ≤ dt / 3 * (L * Y) := mul_le_mul_of_nonneg_left l2 (by positivity)
            _ ≤ _ := by
              have : 0 ≤ L * Y * dt := by positivity
              linarith
        · simp only [β, if_pos]
          nlinarith
      | succ m =>
        have hU0 : U (m + 1) = u (m * dt) := rfl
        rw [hU0]
        have e2 : ((m + 1 : ℕ) : ℝ) * dt - m * dt = dt := by push_cast; ring
        have e3 : ((m + 1 + 1 : ℕ) : ℝ) * dt - m * dt = 2 * dt := by push_cast; ring
        obtain ⟨k1, -⟩ := solves_line hΨ h0 hr hu hur hY (a := m * dt) (b := (m + 1 : ℕ) * dt)
          (c := (m + 1 + 1 : ℕ) * dt) (by positivity) (by linarith) (by push_cast; linarith) hm'
        rw [e2, e3] at k1
        obtain ⟨z, hz⟩ : ∃ z, z = u (m * dt) := ⟨_, rfl⟩
        obtain ⟨a, ha⟩ : ∃ a, a = u ((m + 1 : ℕ) * dt) := ⟨_, rfl⟩
        obtain ⟨b, hb⟩ : ∃ b, b = u ((m + 1 + 1 : ℕ) * dt) := ⟨_, rfl⟩
        rw [← hz, ← ha, ← hb] at k1
        rw [← ha, ← hb] at l1
        rw [← hz, ← ha, ← hb]
        have e : b - ((4 / 3 : ℝ) • a - (1 / 3 : ℝ) • z) - (dt / (3 / 2)) • Ψ b
            = (b - a - dt • Ψ b) - (1 / 3 : ℝ) • (a - z - dt • Ψ b) := by module
        rw [e]
        refine (norm_sub_le _ _).trans ((add_le_add l1 (show _ ≤
          1 / 3 * (L * (L * Y * (2 * dt)) * dt) from ?_)).trans (le_trans ?_ pβ))
        · rw [norm_smul, Real.norm_of_nonneg (by norm_num)]
          exact mul_le_mul_of_nonneg_left k1 (by norm_num)
        · nlinarith
  have main := steps_error hΨ s hdt.le hL U β ts 0 (u 0) (u 0) xs key hs hx i hi
  have z1 : U (0 + 1) = u 0 := by simp [U]
  have z0 : U 0 = u 0 := by simp [U]
  have z2 : U (i + 2) = u ((i + 1) * dt) := by
    simp only [U]
    congr 2
    rw [show i + 2 - 1 = i + 1 by omega]
    push_cast
    ring
  simp only [z1, z0, z2, sub_self, norm_zero, zero_add, mul_zero] at main
  refine main.trans ?_
  have hsum : ∑ m ∈ Finset.range (i + 1), 3 / 2 * β m
      = 3 / 2 * ((i + 1) * (2 * L * L * Y * dt * dt) + L * Y * dt) := by
    rw [← Finset.mul_sum]
    congr 1
    simp only [β]
    rw [Finset.sum_add_distrib, Finset.sum_ite_eq', Finset.sum_const, Finset.card_range]
    simp
  rw [hsum]
  have hti : ((i : ℝ) + 1) * dt ≤ T := by
    have := tm i hi'
    push_cast at this
    exact this
  have hb : 3 / 2 * (((i : ℝ) + 1) * (2 * L * L * Y * dt * dt) + L * Y * dt)
      ≤ (3 * L * (L * T + 1) * Y) * dt := by
    have h1 : ((i : ℝ) + 1) * dt * (2 * L * L * Y * dt) ≤ T * (2 * L * L * Y * dt) :=
      mul_le_mul_of_nonneg_right hti (by positivity)
    have h2 : 0 ≤ L * Y * dt := by positivity
    nlinarith
  calc _ ≤ Real.exp (4 * L * T) * ((3 * L * (L * T + 1) * Y) * dt) := by
        refine mul_le_mul (Real.exp_le_exp.2 ?_) hb ?_ (Real.exp_pos _).le
        · calc 4 * (L : ℝ) * dt * (i + 1) = 4 * L * ((i + 1) * dt) := by ring
            _ ≤ _ := mul_le_mul_of_nonneg_left hti (by positivity)
        · positivity
    _ = _ := by ring

end Dream
