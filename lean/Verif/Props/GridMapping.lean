import Verif.Props.Layers
import Mathlib.Analysis.Convex.SpecificFunctions.Basic
import Mathlib.Analysis.Convex.Slope
import Mathlib.Analysis.SpecialFunctions.Trigonometric.ArctanDeriv
import Mathlib.Analysis.SpecialFunctions.Trigonometric.Bounds
import Mathlib.Analysis.SpecialFunctions.ExpDeriv
import Mathlib.Topology.Order.MonotoneConvergence
import Mathlib.Topology.Order.IsLUB
import Mathlib.Analysis.Real.Pi.Bounds

/-!
# C42: grid mappings
-/

noncomputable section

namespace Dream
open Filter Topology

/-! ### Convergence of monotone iterations -/

/-- A monotone continuous function that maps the end points of an interval inwards: every
iteration converges to a fixpoint in the interval. -/
theorem iterate_converges {g : ℝ → ℝ} {a b : ℝ} (hmono : MonotoneOn g (Set.Icc a b))
    (hc : ContinuousOn g (Set.Icc a b)) (ha : a ≤ g a) (hb : g b ≤ b) {x : ℝ}
    (hx : x ∈ Set.Icc a b) :
    ∃ p ∈ Set.Icc a b, g p = p ∧ Tendsto (fun k => g^[k] x) atTop (𝓝 p) := by
  have hab : a ≤ b := hx.1.trans hx.2
  have hmaps : ∀ y ∈ Set.Icc a b, g y ∈ Set.Icc a b := fun y hy =>
    ⟨ha.trans (hmono ⟨le_rfl, hab⟩ hy hy.1), (hmono hy ⟨hab, le_rfl⟩ hy.2).trans hb⟩
  have hin : ∀ k, g^[k] x ∈ Set.Icc a b := by
    intro k
    induction k with
    | zero => exact hx
    | succ k ih => rw [Function.iterate_succ_apply']; exact hmaps _ ih
  have hlim : ∃ p, Tendsto (fun k => g^[k] x) atTop (𝓝 p) := by
    rcases le_total x (g x) with h | h
    · have hm : Monotone fun k => g^[k] x := by
        apply monotone_nat_of_le_succ
        intro k
        induction k with
        | zero => exact h
        | succ k ih =>
          simp only [Function.iterate_succ_apply'] at ih ⊢
          exact hmono (hin k) (hmaps _ (hin k)) ih
      exact ⟨_, tendsto_atTop_ciSup hm ⟨b, by rintro _ ⟨k, rfl⟩; exact (hin k).2⟩⟩
    · have hm : Antitone fun k => g^[k] x := by
        apply antitone_nat_of_succ_le
        intro k
        induction k with
        | zero => exact h
        | succ k ih =>
          simp only [Function.iterate_succ_apply'] at ih ⊢
          exact hmono (hmaps _ (hin k)) (hin k) ih
      exact ⟨_, tendsto_atTop_ciInf hm ⟨a, by rintro _ ⟨k, rfl⟩; exact (hin k).1⟩⟩
  obtain ⟨p, hp⟩ := hlim
  have hpin : p ∈ Set.Icc a b := isClosed_Icc.mem_of_tendsto hp (Eventually.of_forall hin)
  refine ⟨p, hpin, ?_, hp⟩
  have h1 : Tendsto (fun k => g (g^[k] x)) atTop (𝓝 (g p)) :=
    ((hc p hpin).tendsto).comp (tendsto_nhdsWithin_iff.2 ⟨hp, Eventually.of_forall hin⟩)
  have h2 : Tendsto (fun k => g (g^[k] x)) atTop (𝓝 p) := by
    have := (tendsto_add_atTop_iff_nat 1).2 hp
    simpa only [Function.iterate_succ_apply'] using this
  exact tendsto_nhds_unique h1 h2

/-! ### The iterated functions in the scaled variable `d = L c` -/

theorem expStep_scaled {s L c : ℝ} (hL : L ≠ 0) :
    L * expStep s L c = Real.log (1 + s * (L * c)) := by
  unfold expStep
  rw [mul_div_cancel₀ _ hL, mul_assoc]

theorem tanStep_scaled {s L c : ℝ} (hL : L ≠ 0) :
    L * tanStep s L c = Real.arctan (s * (L * c)) := by
  unfold tanStep
  rw [mul_div_cancel₀ _ hL, mul_assoc]

theorem iterate_scaled {f g : ℝ → ℝ} {L : ℝ} (h : ∀ c, L * f c = g (L * c)) (k : ℕ) (c : ℝ) :
    L * f^[k] c = g^[k] (L * c) := by
  induction k with
  | zero => rfl
  | succ k ih => rw [Function.iterate_succ_apply', Function.iterate_succ_apply', h, ih]

theorem log_converges {s d : ℝ} (hs : 1 < s) (hd : 0 < d) :
    ∃ p, 0 < p ∧ Real.log (1 + s * p) = p ∧
      Tendsto (fun k => (fun d => Real.log (1 + s * d))^[k] d) atTop (𝓝 p) := by
  have hs0 : 0 < s := by linarith
  set a := min d ((s - 1) / s) with ha
  set b := max d (2 * s) with hb
  have ha0 : 0 < a := lt_min hd (div_pos (by linarith) hs0)
  have hmem : d ∈ Set.Icc a b := ⟨min_le_left _ _, le_max_left _ _⟩
  have hpos : ∀ y ∈ Set.Icc a b, 0 < 1 + s * y := fun y hy => by
    have := mul_pos hs0 (ha0.trans_le hy.1); linarith
  obtain ⟨p, h1, h2, h3⟩ := iterate_converges (g := fun d => Real.log (1 + s * d)) (a := a) (b := b)
    (fun x hx y hy hxy => Real.log_le_log (hpos x hx) (by nlinarith))
    (ContinuousOn.log (by fun_prop) fun y hy => (hpos y hy).ne')
    (by
      have h1 : a * s ≤ s - 1 := by
        have := min_le_right d ((s - 1) / s)
        rwa [← ha, le_div_iff₀ hs0] at this
      have hp := hpos a ⟨le_rfl, hmem.1.trans hmem.2⟩
      have := Real.one_sub_inv_le_log_of_pos hp
      refine le_trans ?_ this
      have hne := hp.ne'
      rw [show 1 - (1 + s * a)⁻¹ = s * a / (1 + s * a) by field_simp; ring, le_div_iff₀ hp]
      nlinarith)
    (by
      have h1 : 2 * s ≤ b := le_max_right _ _
      have hb0 : 0 ≤ b := by linarith
      rw [Real.log_le_iff_le_exp (hpos b ⟨hmem.1.trans hmem.2, le_rfl⟩)]
      have := Real.quadratic_le_exp_of_nonneg hb0
      nlinarith)
    hmem
  exact ⟨p, ha0.trans_le h1.1, h2, h3⟩

theorem arctan_converges {s d : ℝ} (hs : 1 < s) (hd : 0 < d) :
    ∃ p, 0 < p ∧ p < Real.pi / 2 ∧ Real.arctan (s * p) = p ∧
      Tendsto (fun k => (fun d => Real.arctan (s * d))^[k] d) atTop (𝓝 p) := by
  have hs0 : 0 < s := by linarith
  have hq : 0 < 1 - 1 / s := by rw [sub_pos, div_lt_one hs0]; exact hs
  set a := min d (min 1 (1 - 1 / s)) with ha
  set b := max d (Real.pi / 2) with hb
  have ha0 : 0 < a := lt_min hd (lt_min one_pos hq)
  have hmem : d ∈ Set.Icc a b := ⟨min_le_left _ _, le_max_left _ _⟩
  obtain ⟨p, h1, h2, h3⟩ := iterate_converges (g := fun d => Real.arctan (s * d)) (a := a) (b := b)
    (fun x hx y hy hxy => Real.arctan_mono (by nlinarith))
    (by fun_prop)
    (by
      have h1 : a ≤ 1 := (min_le_right _ _).trans (min_le_left _ _)
      have h2 : a ≤ 1 - 1 / s := (min_le_right _ _).trans (min_le_right _ _)
      have hpi : a < Real.pi / 2 := by linarith [Real.pi_gt_three]
      have hcos : 1 / s ≤ Real.cos a := by
        have := Real.one_sub_sq_div_two_le_cos (x := a)
        nlinarith
      have hcos0 : 0 < Real.cos a := lt_of_lt_of_le (by positivity) hcos
      have htan : Real.tan a ≤ s * a := by
        rw [Real.tan_eq_sin_div_cos, div_le_iff₀ hcos0]
        have h4 : Real.sin a ≤ a := Real.sin_le ha0.le
        have h5 : 1 ≤ s * Real.cos a := by
          have := mul_le_mul_of_nonneg_left hcos hs0.le
          rwa [mul_one_div_cancel hs0.ne'] at this
        nlinarith
      calc a = Real.arctan (Real.tan a) := (Real.arctan_tan (by linarith) hpi).symm
        _ ≤ _ := Real.arctan_mono htan)
    ((Real.arctan_lt_pi_div_two _).le.trans (le_max_right _ _))
    hmem
  exact ⟨p, ha0.trans_le h1.1, by rw [← h2]; exact Real.arctan_lt_pi_div_two _, h2, h3⟩

/-- The equation `exp d = 1 + s d` has at most one positive solution. -/
theorem log_unique {s p q : ℝ} (hs : 1 < s) (hp : 0 < p) (hq : 0 < q)
    (h1 : Real.log (1 + s * p) = p) (h2 : Real.log (1 + s * q) = q) : p = q := by
  have key : ∀ p q : ℝ, 0 < p → p < q → Real.log (1 + s * p) = p → Real.log (1 + s * q) = q →
      False := by
    intro p q hp hpq h1 h2
    have e : ∀ r : ℝ, 0 < r → Real.log (1 + s * r) = r → (Real.exp r - Real.exp 0) / (r - 0) = s := by
      intro r hr h
      have : Real.exp r = 1 + s * r := by
        rw [← h, Real.exp_log (by nlinarith), h]
      rw [this, Real.exp_zero, sub_zero, add_sub_cancel_left, mul_div_cancel_right₀ _ hr.ne']
    have := strictConvexOn_exp.secant_strict_mono (a := 0) (x := p) (y := q) (Set.mem_univ _)
      (Set.mem_univ _) (Set.mem_univ _) hp.ne' (hp.trans hpq).ne' hpq
    rw [e p hp h1, e q (hp.trans hpq) h2] at this
    exact lt_irrefl _ this
  rcases lt_trichotomy p q with h | h | h
  · exact (key p q hp h h1 h2).elim
  · exact h
  · exact (key q p hq h h2 h1).elim

theorem strictConvexOn_tan : StrictConvexOn ℝ (Set.Ico 0 (Real.pi / 2)) Real.tan := by
  have hcos : ∀ x ∈ Set.Ico 0 (Real.pi / 2), 0 < Real.cos x := fun x hx =>
    Real.cos_pos_of_mem_Ioo ⟨by have := hx.1; have := Real.pi_pos; linarith, hx.2⟩
  refine StrictMonoOn.strictConvexOn_of_deriv (convex_Ico _ _) ?_ ?_
  · exact Real.continuousOn_tan.mono fun x hx => (hcos x hx).ne'
  · rw [interior_Ico]
    intro x hx y hy hxy
    rw [Real.deriv_tan, Real.deriv_tan]
    have h1 : Real.cos y < Real.cos x :=
      Real.cos_lt_cos_of_nonneg_of_le_pi_div_two hx.1.le hy.2.le hxy
    have h2 := hcos y ⟨hy.1.le, hy.2⟩
    apply one_div_lt_one_div_of_lt (by positivity)
    exact pow_lt_pow_left₀ h1 h2.le two_ne_zero

theorem arctan_unique {s p q : ℝ} (hp : 0 < p) (hq : 0 < q)
    (h1 : Real.arctan (s * p) = p) (h2 : Real.arctan (s * q) = q) : p = q := by
  have key : ∀ p q : ℝ, 0 < p → p < q → Real.arctan (s * p) = p → Real.arctan (s * q) = q →
      False := by
    intro p q hp hpq h1 h2
    have e : ∀ r : ℝ, 0 < r → Real.arctan (s * r) = r →
        (Real.tan r - Real.tan 0) / (r - 0) = s ∧ r ∈ Set.Ico 0 (Real.pi / 2) := by
      intro r hr h
      have : Real.tan r = s * r := by
        conv_lhs => rw [← h]
        rw [Real.tan_arctan]
      refine ⟨?_, hr.le, by rw [← h]; exact Real.arctan_lt_pi_div_two _⟩
      rw [this, Real.tan_zero, sub_zero, sub_zero, mul_div_cancel_right₀ _ hr.ne']
    have := strictConvexOn_tan.secant_strict_mono (a := 0) (x := p) (y := q)
      ⟨le_rfl, by positivity⟩ (e p hp h1).2 (e q (hp.trans hpq) h2).2 hp.ne' (hp.trans hpq).ne' hpq
    rw [(e p hp h1).1, (e q (hp.trans hpq) h2).1] at this
    exact lt_irrefl _ this
  rcases lt_trichotomy p q with h | h | h
  · exact (key p q hp h h1 h2).elim
  · exact h
  · exact (key q p hq h h2 h1).elim

/-! ### The constant found by the code -/

theorem log_iterate_pos {s d : ℝ} (hs : 1 < s) (hd : 0 < d) (k : ℕ) :
    0 < (fun d => Real.log (1 + s * d))^[k] d := by
  induction k with
  | zero => exact hd
  | succ k ih =>
    rw [Function.iterate_succ_apply']
    exact Real.log_pos (by nlinarith)

theorem arctan_iterate_pos {s d : ℝ} (hs : 1 < s) (hd : 0 < d) (k : ℕ) :
    0 < (fun d => Real.arctan (s * d))^[k] d := by
  induction k with
  | zero => exact hd
  | succ k ih =>
    rw [Function.iterate_succ_apply']
    exact Real.arctan_pos.2 (by nlinarith)

/-- The thickness the exponential mapping gives to the layer after an iteration. -/
theorem exp_length {s L c x0 : ℝ} (hL : L ≠ 0) (hc : 0 < L * c) (hs : 1 < s) :
    (GridMapping.exponentialWith (expStep s L c) x0 (x0 + L)).length
      = s * |L| * (c / expStep s L c) ∧ 0 < c / expStep s L c := by
  have h1 := expStep_scaled (s := s) (c := c) hL
  have hlog : 0 < Real.log (1 + s * (L * c)) := Real.log_pos (by nlinarith)
  have hne : expStep s L c ≠ 0 := by
    intro h; rw [h, mul_zero] at h1; linarith
  have hexp : Real.exp (expStep s L c * L) = 1 + s * (L * c) := by
    rw [mul_comm, h1, Real.exp_log (by nlinarith)]
  have hpos : 0 < c / expStep s L c := by
    have : c / expStep s L c = (L * c) / (L * expStep s L c) := by field_simp
    rw [this, h1]; exact div_pos hc hlog
  refine ⟨?_, hpos⟩
  simp only [GridMapping.length, GridMapping.exponentialWith, add_sub_cancel_left, sub_self,
    mul_zero, Real.exp_zero, hexp]
  rw [show -1 / expStep s L c * (1 - (1 + s * (L * c))) + x0 - (0 + x0)
    = s * L * (c / expStep s L c) by field_simp; ring]
  rw [abs_mul, abs_mul, abs_of_pos (by linarith : 0 < s), abs_of_pos hpos]

theorem tan_length {s L c x0 : ℝ} (hL : L ≠ 0) (hc : 0 < L * c) (hs : 1 < s) :
    (GridMapping.tangentialWith (tanStep s L c) x0 (x0 + L)).length
      = s * |L| * (c / tanStep s L c) ∧ 0 < c / tanStep s L c := by
  have h1 := tanStep_scaled (s := s) (c := c) hL
  have hat : 0 < Real.arctan (s * (L * c)) := Real.arctan_pos.2 (by nlinarith)
  have hne : tanStep s L c ≠ 0 := by
    intro h; rw [h, mul_zero] at h1; linarith
  have htan : Real.tan (tanStep s L c * L) = s * (L * c) := by
    rw [mul_comm, h1, Real.tan_arctan]
  have hpos : 0 < c / tanStep s L c := by
    have : c / tanStep s L c = (L * c) / (L * tanStep s L c) := by field_simp
    rw [this, h1]; exact div_pos hc hat
  refine ⟨?_, hpos⟩
  simp only [GridMapping.length, GridMapping.tangentialWith, add_sub_cancel_left, sub_self,
    mul_zero, Real.tan_zero, htan]
  rw [show 1 / tanStep s L c * (s * (L * c)) + x0 - (0 + x0)
    = s * L * (c / tanStep s L c) by field_simp; ring]
  rw [abs_mul, abs_mul, abs_of_pos (by linarith : 0 < s), abs_of_pos hpos]

/-- **C42** The fixpoint iteration of the exponential mapping, started as in the code, converges for
every layer and every scale above 1 to the only constant of the right sign that solves the
equation, and with this constant the layer is stretched by exactly the scale. -/
theorem C42_exponential_converges {s L : ℝ} (hs : 1 < s) (hL : L ≠ 0) (x0 : ℝ) :
    ∃ c, Tendsto (fun k => (expStep s L)^[k] L) atTop (𝓝 c) ∧ 0 < L * c ∧
      c = Real.log (1 + s * L * c) / L ∧
      (∀ c', 0 < L * c' → c' = Real.log (1 + s * L * c') / L → c' = c) ∧
      (GridMapping.exponentialWith c x0 (x0 + L)).length = s * |L| := by
  obtain ⟨p, h1, h2, h3⟩ := log_converges hs (mul_self_pos.2 hL)
  have hLp : L * (p / L) = p := by field_simp
  have hfix : p / L = Real.log (1 + s * L * (p / L)) / L := by
    rw [mul_assoc, hLp, h2]
  have hpos : 0 < L * (p / L) := by rw [hLp]; exact h1
  refine ⟨p / L, ?_, hpos, hfix, ?_, ?_⟩
  · have := h3.div_const L
    refine this.congr fun k => ?_
    rw [← iterate_scaled (fun c => expStep_scaled hL) k L, mul_div_cancel_left₀ _ hL]
  · intro c' h4 h5
    have : L * c' = p := by
      refine log_unique hs h4 h1 ?_ h2
      rw [← mul_assoc]
      conv_rhs => rw [h5]
      rw [mul_div_cancel₀ _ hL]
    rw [← this, mul_div_cancel_left₀ _ hL]
  · obtain ⟨h4, h5⟩ := exp_length (x0 := x0) hL hpos hs
    have e : expStep s L (p / L) = p / L := hfix.symm
    rw [e, div_self (by intro h; rw [h, mul_zero] at hpos; exact lt_irrefl _ hpos), mul_one] at h4
    exact h4

/-- **C42** The same for the tangential mapping. -/
theorem C42_tangential_converges {s L : ℝ} (hs : 1 < s) (hL : L ≠ 0) (x0 : ℝ) :
    ∃ c, Tendsto (fun k => (tanStep s L)^[k] L) atTop (𝓝 c) ∧ 0 < L * c ∧
      c = Real.arctan (s * L * c) / L ∧
      (∀ c', 0 < L * c' → c' = Real.arctan (s * L * c') / L → c' = c) ∧
      (GridMapping.tangentialWith c x0 (x0 + L)).length = s * |L| := by
  obtain ⟨p, h1, -, h2, h3⟩ := arctan_converges hs (mul_self_pos.2 hL)
  have hLp : L * (p / L) = p := by field_simp
  have hfix : p / L = Real.arctan (s * L * (p / L)) / L := by
    rw [mul_assoc, hLp, h2]
  have hpos : 0 < L * (p / L) := by rw [hLp]; exact h1
  refine ⟨p / L, ?_, hpos, hfix, ?_, ?_⟩
  · have := h3.div_const L
    refine this.congr fun k => ?_
    rw [← iterate_scaled (fun c => tanStep_scaled hL) k L, mul_div_cancel_left₀ _ hL]
  · intro c' h4 h5
    have : L * c' = p := by
      refine arctan_unique h4 h1 ?_ h2
      rw [← mul_assoc]
      conv_rhs => rw [h5]
      rw [mul_div_cancel₀ _ hL]
    rw [← this, mul_div_cancel_left₀ _ hL]
  · obtain ⟨h4, h5⟩ := tan_length (x0 := x0) hL hpos hs
    have e : tanStep s L (p / L) = p / L := hfix.symm
    rw [e, div_self (by intro h; rw [h, mul_zero] at hpos; exact lt_irrefl _ hpos), mul_one] at h4
    exact h4

/-- A mapping of a buffer layer as users understand it: the start of the layer stays in place, the
map is strictly increasing and continuous on the layer, points in front of the layer are not moved
and points behind it are shifted as its end. -/
def Spec.IsLayerMap (m : GridMapping) : Prop :=
  m.map m.x0 = m.x0 ∧ StrictMonoOn m.map (Set.uIcc m.x0 m.xn) ∧
  ContinuousOn m.map (Set.uIcc m.x0 m.xn) ∧
  Continuous (fun x => m.deformation x) ∧
  (∀ x, (x - m.x0) * (m.xn - m.x0) ≤ 0 → m.deformation x = 0) ∧
  (∀ x ∈ Set.uIcc m.x0 m.xn, m.deformation x = m.map x - x) ∧
  (∀ x, (m.xn - m.x0) * (m.xn - m.x0) ≤ (x - m.x0) * (m.xn - m.x0) →
    m.deformation x = m.map m.xn - m.xn)

theorem uIcc_iff {x x0 xn : ℝ} (h : x0 ≠ xn) : x ∈ Set.uIcc x0 xn ↔
    0 ≤ (x - x0) * (xn - x0) ∧ (x - x0) * (xn - x0) ≤ (xn - x0) * (xn - x0) := by
  rcases lt_or_gt_of_ne h with h | h
  · rw [Set.uIcc_of_le h.le, Set.mem_Icc]
    have hp : 0 < xn - x0 := by linarith
    constructor
    · rintro ⟨h1, h2⟩; exact ⟨by nlinarith, by nlinarith⟩
    · rintro ⟨h1, h2⟩
      have h3 := nonneg_of_mul_nonneg_left h1 hp
      have h4 := le_of_mul_le_mul_right h2 hp
      exact ⟨by linarith, by linarith⟩
  · rw [Set.uIcc_of_ge h.le, Set.mem_Icc]
    have hp : 0 < x0 - xn := by linarith
    constructor
    · rintro ⟨h1, h2⟩; exact ⟨by nlinarith, by nlinarith⟩
    · rintro ⟨h1, h2⟩
      have h3 : 0 ≤ (x0 - x) * (x0 - xn) := by nlinarith
      have h4 : (x0 - x) * (x0 - xn) ≤ (x0 - xn) * (x0 - xn) := by nlinarith
      have h5 := nonneg_of_mul_nonneg_left h3 hp
      have h6 := le_of_mul_le_mul_right h4 hp
      exact ⟨by linarith, by linarith⟩

theorem bufferCoord_mem {x x0 xn : ℝ} (h : x0 ≠ xn) : bufferCoord x x0 xn ∈ Set.uIcc x0 xn := by
  rcases le_total ((x - x0) * (xn - x0)) 0 with h1 | h1
  · rw [((C41_coordinate h).2.1 h1).2]; exact Set.left_mem_uIcc
  · rcases le_total ((x - x0) * (xn - x0)) ((xn - x0) * (xn - x0)) with h2 | h2
    · rw [((C41_coordinate h).2.2.2 h1 h2).2]; exact (uIcc_iff h).2 ⟨h1, h2⟩
    · rw [((C41_coordinate h).2.2.1 h2).2]; exact Set.right_mem_uIcc

theorem bufferCoord_continuous {x0 xn : ℝ} : Continuous fun x => bufferCoord x x0 xn := by
  unfold bufferCoord Bla.interval
  simp only [Bla.max_eq, Bla.min_eq]
  fun_prop

theorem isLayerMap_of {m : GridMapping} (h : m.x0 ≠ m.xn) (h0 : m.map m.x0 = m.x0)
    (h1 : StrictMonoOn m.map (Set.uIcc m.x0 m.xn))
    (h2 : ContinuousOn m.map (Set.uIcc m.x0 m.xn)) : Spec.IsLayerMap m := by
  refine ⟨h0, h1, h2, ?_, fun x hx => ?_, fun x hx => ?_, fun x hx => ?_⟩
  · unfold GridMapping.deformation
    refine Continuous.sub ?_ bufferCoord_continuous
    exact h2.comp_continuous bufferCoord_continuous fun x => bufferCoord_mem h
  · rw [GridMapping.deformation, ((C41_coordinate h).2.1 hx).2, h0, sub_self]
  · obtain ⟨h3, h4⟩ := (uIcc_iff h).1 hx
    rw [GridMapping.deformation, ((C41_coordinate h).2.2.2 h3 h4).2]
  · rw [GridMapping.deformation, ((C41_coordinate h).2.2.1 hx).2]

theorem exponentialWith_layer {c x0 xn : ℝ} (hc : c ≠ 0) (h : x0 ≠ xn) :
    Spec.IsLayerMap (GridMapping.exponentialWith c x0 xn) := by
  refine isLayerMap_of h (by simp [GridMapping.exponentialWith]) ?_ ?_
  · apply StrictMono.strictMonoOn
    intro a b hab
    simp only [GridMapping.exponentialWith]
    have e : ∀ a, -1 / c * (1 - Real.exp (c * (a - x0))) = (Real.exp (c * (a - x0)) - 1) / c := by
      intro a; ring
    rw [e, e]
    rcases lt_or_gt_of_ne hc with hc | hc
    · have : Real.exp (c * (b - x0)) < Real.exp (c * (a - x0)) := Real.exp_lt_exp.2 (by nlinarith)
      have := div_lt_div_of_neg_of_lt hc (sub_lt_sub_right this 1)
      linarith
    · have : Real.exp (c * (a - x0)) < Real.exp (c * (b - x0)) := Real.exp_lt_exp.2 (by nlinarith)
      have := div_lt_div_of_pos_right (sub_lt_sub_right this 1) hc
      linarith
  · simp only [GridMapping.exponentialWith]
    fun_prop

theorem tangentialWith_layer {c x0 xn : ℝ} (h : x0 ≠ xn) (hc : 0 < (xn - x0) * c)
    (hc' : (xn - x0) * c < Real.pi / 2) :
    Spec.IsLayerMap (GridMapping.tangentialWith c x0 xn) := by
  have hL : xn - x0 ≠ 0 := sub_ne_zero.2 h.symm
  have hc0 : c ≠ 0 := by rintro rfl; simp at hc
  have hrange : ∀ x ∈ Set.uIcc x0 xn, c * (x - x0) ∈ Set.Ioo (-(Real.pi / 2)) (Real.pi / 2) := by
    intro x hx
    obtain ⟨h1, h2⟩ := (uIcc_iff h).1 hx
    have hpos : 0 < (xn - x0) * (xn - x0) := mul_self_pos.2 hL
    have e : c * (x - x0) = (xn - x0) * c * (((x - x0) * (xn - x0)) / ((xn - x0) * (xn - x0))) := by
      field_simp
    have t0 : 0 ≤ ((x - x0) * (xn - x0)) / ((xn - x0) * (xn - x0)) := div_nonneg h1 hpos.le
    have t1 : ((x - x0) * (xn - x0)) / ((xn - x0) * (xn - x0)) ≤ 1 := (div_le_one hpos).2 h2
    rw [e]
    constructor
    · have : 0 ≤ (xn - x0) * c * (((x - x0) * (xn - x0)) / ((xn - x0) * (xn - x0))) := by positivity
      have := Real.pi_pos
      linarith
    · exact (mul_le_of_le_one_right hc.le t1).trans_lt hc'
  refine isLayerMap_of h (by simp [GridMapping.tangentialWith]) ?_ ?_
  · intro a ha b hb hab
    simp only [GridMapping.tangentialWith] at ha hb ⊢
    have e : ∀ a, 1 / c * Real.tan (c * (a - x0)) = Real.tan (c * (a - x0)) / c := by
      intro a; ring
    rw [e, e]
    rcases lt_or_gt_of_ne hc0 with hc | hc
    · have : Real.tan (c * (b - x0)) < Real.tan (c * (a - x0)) :=
        Real.strictMonoOn_tan (hrange b hb) (hrange a ha) (by nlinarith)
      have := div_lt_div_of_neg_of_lt hc this
      linarith
    · have : Real.tan (c * (a - x0)) < Real.tan (c * (b - x0)) :=
        Real.strictMonoOn_tan (hrange a ha) (hrange b hb) (by nlinarith)
      have := div_lt_div_of_pos_right this hc
      linarith
  · simp only [GridMapping.tangentialWith]
    refine ContinuousOn.add (ContinuousOn.mul continuousOn_const ?_) continuousOn_const
    refine Real.continuousOn_tan_Ioo.comp (by fun_prop) hrange

/-- **C42** The linear mapping is defined exactly for scales above 1 and stretches the layer by exactly
the scale. -/
theorem C42_linear {s x0 xn : ℝ} (h : x0 ≠ xn) :
    (¬ 1 < s → GridMapping.linear s x0 xn = .error .valueError) ∧
    (1 < s → ∃ m, GridMapping.linear s x0 xn = .ok m ∧ m.x0 = x0 ∧ m.xn = xn ∧
      Spec.IsLayerMap m ∧ m.length = s * |xn - x0|) := by
  constructor
  · intro hs; simp [GridMapping.linear, hs]
  · intro hs
    have hs0 : 0 < s := by linarith
    refine ⟨_, by simp only [GridMapping.linear, gt_iff_lt, hs, not_true_eq_false, if_false]; rfl,
      rfl, rfl, isLayerMap_of h (by simp) ?_ ?_, ?_⟩
    · intro a _ b _ hab
      simp only
      nlinarith
    · simp only; fun_prop
    · simp only [GridMapping.length]
      rw [show s * (xn - x0) + x0 - (s * (x0 - x0) + x0) = s * (xn - x0) by ring, abs_mul,
        abs_of_pos hs0]

/-- **C42** The exponential mapping of the code, for every layer and scale above 1: a valid layer map,
and if the iteration stopped at the tolerance before its limit, the layer is stretched by the scale
up to the relative error `1e-16 / |c|` of the constant. -/
theorem C42_exponential {s x0 xn : ℝ} (h : x0 ≠ xn) :
    (¬ 1 < s → GridMapping.exponential s x0 xn = .error .valueError) ∧
    (1 < s → ∃ c, GridMapping.exponential s x0 xn = .ok (GridMapping.exponentialWith c x0 xn) ∧
      0 < (xn - x0) * c ∧
      Spec.IsLayerMap (GridMapping.exponentialWith c x0 xn) ∧
      (c ≠ (expStep s (xn - x0))^[100] (xn - x0) →
        |(GridMapping.exponentialWith c x0 xn).length - s * abs (xn - x0)|
          ≤ s * |xn - x0| * (1e-16 / |c|))) := by
  constructor
  · intro hs; simp [GridMapping.exponential, hs]
  · intro hs
    set L := xn - x0 with hLd
    have hL : L ≠ 0 := sub_ne_zero.2 h.symm
    have hxn : xn = x0 + L := by rw [hLd]; ring
    obtain ⟨k, hk, h1, -, h3⟩ := C50_iterate (expStep s L) 1e-16 100 L
    have hpos : ∀ j, 0 < L * (expStep s L)^[j] L := fun j => by
      rw [iterate_scaled (g := fun d => Real.log (1 + s * d)) (fun c => expStep_scaled hL) j L]
      exact log_iterate_pos hs (mul_self_pos.2 hL) j
    have hne : ∀ j, (expStep s L)^[j] L ≠ 0 := fun j hj => by
      have := hpos j; rw [hj, mul_zero] at this; exact lt_irrefl _ this
    refine ⟨(expStep s L)^[k] L, ?_, hpos k, exponentialWith_layer (hne k) h, fun hearly => ?_⟩
    · simp only [GridMapping.exponential, gt_iff_lt, hs, not_true_eq_false, if_false]
      rw [← hLd, h1]
    · rcases h3 with rfl | ⟨j, rfl, hj⟩
      · exact absurd rfl hearly
      · have hs0 : 0 < s := by linarith
        have e1 : (expStep s L)^[j + 1] L = expStep s L ((expStep s L)^[j] L) :=
          Function.iterate_succ_apply' _ _ _
        have hn1 := hne (j + 1)
        obtain ⟨h4, -⟩ := exp_length (x0 := x0) hL (hpos j) hs
        rw [e1] at hj hn1 ⊢
        set c := (expStep s L)^[j] L
        rw [hxn, h4, show s * |L| * (c / expStep s L c) - s * |L|
          = s * |L| * ((c - expStep s L c) / expStep s L c) by field_simp, abs_mul,
          abs_of_nonneg (by positivity), abs_div]
        apply mul_le_mul_of_nonneg_left _ (by positivity)
        apply div_le_div_of_nonneg_right _ (abs_nonneg _)
        rw [abs_sub_comm]; exact hj.le

/-- **C42** The tangential mapping of the code, likewise. -/
theorem C42_tangential {s x0 xn : ℝ} (h : x0 ≠ xn) :
    (¬ 1 < s → GridMapping.tangential s x0 xn = .error .valueError) ∧
    (1 < s → ∃ c, GridMapping.tangential s x0 xn = .ok (GridMapping.tangentialWith c x0 xn) ∧
      0 < (xn - x0) * c ∧ (xn - x0) * c < Real.pi / 2 ∧
      Spec.IsLayerMap (GridMapping.tangentialWith c x0 xn) ∧
      (c ≠ (tanStep s (xn - x0))^[100] (xn - x0) →
        |(GridMapping.tangentialWith c x0 xn).length - s * abs (xn - x0)|
          ≤ s * |xn - x0| * (1e-16 / |c|))) := by
  constructor
  · intro hs; simp [GridMapping.tangential, hs]
  · intro hs
    set L := xn - x0 with hLd
    have hL : L ≠ 0 := sub_ne_zero.2 h.symm
    have hxn : xn = x0 + L := by rw [hLd]; ring
    obtain ⟨k, hk, h1, -, h3⟩ := C50_iterate (tanStep s L) 1e-16 100 L
    have hpos : ∀ j, 0 < L * (tanStep s L)^[j] L := fun j => by
      rw [iterate_scaled (g := fun d => Real.arctan (s * d)) (fun c => tanStep_scaled hL) j L]
      exact arctan_iterate_pos hs (mul_self_pos.2 hL) j
    have hne : ∀ j, (tanStep s L)^[j] L ≠ 0 := fun j hj => by
      have := hpos j; rw [hj, mul_zero] at this; exact lt_irrefl _ this
    -- at least one iteration was done
    have hk1 : ∃ j, k = j + 1 := by
      rcases h3 with rfl | ⟨j, rfl, -⟩
      · exact ⟨99, rfl⟩
      · exact ⟨j, rfl⟩
    have hlt : L * (tanStep s L)^[k] L < Real.pi / 2 := by
      obtain ⟨j, rfl⟩ := hk1
      rw [Function.iterate_succ_apply', tanStep_scaled hL]
      exact Real.arctan_lt_pi_div_two _
    refine ⟨(tanStep s L)^[k] L, ?_, hpos k, hlt, tangentialWith_layer h (hpos k) hlt,
      fun hearly => ?_⟩
    · simp only [GridMapping.tangential, gt_iff_lt, hs, not_true_eq_false, if_false]
      rw [← hLd, h1]
    · rcases h3 with rfl | ⟨j, rfl, hj⟩
      · exact absurd rfl hearly
      · have hs0 : 0 < s := by linarith
        have e1 : (tanStep s L)^[j + 1] L = tanStep s L ((tanStep s L)^[j] L) :=
          Function.iterate_succ_apply' _ _ _
        have hn1 := hne (j + 1)
        obtain ⟨h4, -⟩ := tan_length (x0 := x0) hL (hpos j) hs
        rw [e1] at hj hn1 ⊢
        set c := (tanStep s L)^[j] L
        rw [hxn, h4, show s * |L| * (c / tanStep s L c) - s * |L|
          = s * |L| * ((c - tanStep s L c) / tanStep s L c) by field_simp, abs_mul,
          abs_of_nonneg (by positivity), abs_div]
        apply mul_le_mul_of_nonneg_left _ (by positivity)
        apply div_le_div_of_nonneg_right _ (abs_nonneg _)
        rw [abs_sub_comm]; exact hj.le

/-- a layer pointing in negative direction -/
example : (0 : ℝ) ≠ -2 ∧ (1 : ℝ) < 3 := by norm_num

/-! ### Polar mappings -/

/-- **C42** The Cartesian components of a polar mapping move a point along the ray from the centre by
the radial deformation: the component in direction `e` (the cosine or sine of the polar angle) is
the radial deformation times `e`, at every point where `e` is not zero. -/
theorem C42_polar {m : GridMapping} (h : m.x0 ≠ m.xn) (r e : ℝ) (he : e ≠ 0) :
    m.polarDeformation r e = m.deformation r * e := by
  unfold GridMapping.polarDeformation GridMapping.deformation GridMapping.polarComponent
  simp only
  have hm := bufferCoord_mem (x := r) h
  set b := bufferCoord r m.x0 m.xn
  have hne : m.x0 * e ≠ m.xn * e := fun h' => h (mul_right_cancel₀ he h')
  obtain ⟨h1, h2⟩ := (uIcc_iff h).1 hm
  have e2 : 0 < e * e := mul_self_pos.2 he
  have := ((C41_coordinate (x := b * e) hne).2.2.2 (by
      rw [show (b * e - m.x0 * e) * (m.xn * e - m.x0 * e) = (b - m.x0) * (m.xn - m.x0) * (e * e) by
        ring]
      exact mul_nonneg h1 e2.le) (by
      rw [show (b * e - m.x0 * e) * (m.xn * e - m.x0 * e) = (b - m.x0) * (m.xn - m.x0) * (e * e) by
        ring, show (m.xn * e - m.x0 * e) * (m.xn * e - m.x0 * e)
          = (m.xn - m.x0) * (m.xn - m.x0) * (e * e) by ring]
      exact mul_le_mul_of_nonneg_right h2 e2.le)).2
  rw [this]; ring

/-- **C42** The reported thickness of such a component is always 0, although the radial thickness is
positive: the map of a component ignores its argument. -/
theorem C42_fails_polar_length (m : GridMapping) (r e : ℝ) :
    (m.polarComponent r e).length = 0 := by
  simp [GridMapping.length, GridMapping.polarComponent]

/-! ### The thickness when the iteration did not finish -/

/-- **C42** In general, the thickness after each iteration is the scale times the thickness times the
ratio of the last two constants; in particular it is not the requested one unless they agree. -/
theorem C42_thickness {s L c x0 : ℝ} (hL : L ≠ 0) (hc : 0 < L * c) (hs : 1 < s) :
    (GridMapping.exponentialWith (expStep s L c) x0 (x0 + L)).length
      = s * |L| * (c / expStep s L c) ∧
    (GridMapping.tangentialWith (tanStep s L c) x0 (x0 + L)).length
      = s * |L| * (c / tanStep s L c) :=
  ⟨(exp_length hL hc hs).1, (tan_length hL hc hs).1⟩

end Dream
