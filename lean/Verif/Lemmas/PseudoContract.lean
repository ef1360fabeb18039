import Mathlib.Analysis.Calculus.FDeriv.Basic
import Mathlib.Analysis.Normed.Module.FiniteDimension
import Mathlib.Analysis.Seminorm
import Mathlib.Tactic.Module

/-!
# Linearly implicit iterations near a steady state
-/

noncomputable section

namespace Dream
open Metric Filter Topology Set

variable {X : Type} [NormedAddCommGroup X] [NormedSpace ℝ X] [FiniteDimensional ℝ X]

/-- Inverses of a compact family of matrices are bounded. -/
theorem uniform_inverse (S M : X →L[ℝ] X) (l₀ : ℝ)
    (hi : ∀ l, 0 ≤ l → l ≤ l₀ → ∀ v, S v + l • M v = 0 → v = 0) :
    ∃ β > 0, ∀ l, 0 ≤ l → l ≤ l₀ → ∀ v, ‖v‖ ≤ β * ‖S v + l • M v‖ := by
  let K : Set (ℝ × X) := Icc 0 l₀ ×ˢ sphere 0 1
  have hK : IsCompact K := isCompact_Icc.prod (isCompact_sphere 0 1)
  let φ : ℝ × X → ℝ := fun p => ‖S p.2 + p.1 • M p.2‖
  have hφ : Continuous φ := by fun_prop
  have hmem : ∀ l, 0 ≤ l → l ≤ l₀ → ∀ v : X, v ≠ 0 → (l, ‖v‖⁻¹ • v) ∈ K := by
    intro l h0 h1 v hv
    refine ⟨⟨h0, h1⟩, ?_⟩
    rw [mem_sphere_zero_iff_norm, norm_smul, norm_inv, norm_norm, inv_mul_cancel₀ (norm_ne_zero_iff.2 hv)]
  by_cases hne : K.Nonempty
  · obtain ⟨p, hp, hmin⟩ := hK.exists_isMinOn hne hφ.continuousOn
    have hp0 : 0 < φ p := by
      refine norm_pos_iff.2 fun h => ?_
      have := hi p.1 hp.1.1 hp.1.2 p.2 h
      have h2 := mem_sphere_zero_iff_norm.1 hp.2
      rw [this, norm_zero] at h2
      exact zero_ne_one h2
    refine ⟨(φ p)⁻¹, inv_pos.2 hp0, fun l h0 h1 v => ?_⟩
    by_cases hv : v = 0
    · rw [hv, norm_zero]
      positivity
    have hv0 : 0 < ‖v‖ := norm_pos_iff.2 hv
    have h2 : φ p ≤ ‖S (‖v‖⁻¹ • v) + l • M (‖v‖⁻¹ • v)‖ := hmin (hmem l h0 h1 v hv)
    have e : S (‖v‖⁻¹ • v) + l • M (‖v‖⁻¹ • v) = ‖v‖⁻¹ • (S v + l • M v) := by
      simp only [map_smul]
      module
    rw [e, norm_smul, norm_inv, norm_norm, le_inv_mul_iff₀ hv0] at h2
    rw [le_inv_mul_iff₀ hp0]
    linarith
  · refine ⟨1, one_pos, fun l h0 h1 v => ?_⟩
    by_cases hv : v = 0
    · rw [hv, norm_zero]
      positivity
    · exact (hne ⟨_, hmem l h0 h1 v hv⟩).elim

/-- If the linearised iterations contract a norm, so do the iterations near the steady state; the
factor does not depend on the time step `1 / l`. -/
theorem pseudo_contract (N : Seminorm ℝ X) {k K : ℝ} (hk : 0 < k) (hNk : ∀ x, ‖x‖ ≤ k * N x)
    (hNK : ∀ x, N x ≤ K * ‖x‖) {f : X → X} {J : X → X →L[ℝ] X} {S M : X →L[ℝ] X} {x0 : X}
    (hf : HasFDerivAt f S x0) (hf0 : f x0 = 0) (hJ : Tendsto J (𝓝 x0) (𝓝 S)) {l₀ ρ ω : ℝ}
    (hρ0 : 0 ≤ ρ) (hρ : ρ < 1) (hω : 0 < ω) (hω1 : ω ≤ 1)
    (hg : ∀ l, 0 ≤ l → l ≤ l₀ → ∀ e g, S g + l • M g = l • M e → N g ≤ ρ * N e) :
    ∃ r > 0, ∃ q, 0 < q ∧ q < 1 ∧ ∃ C > 0, ∀ l, 0 ≤ l → l ≤ l₀ → ∀ x, N (x - x0) ≤ r →
      (∀ v, J x v + l • M v = 0 → v = 0) ∧
      ∀ δ, J x δ + l • M δ = f x → N (x - ω • δ - x0) ≤ q * N (x - x0) ∧
        ‖δ‖ ≤ C * N (x - x0) ∧ ‖f x‖ ≤ C * N (x - x0) := by
  have hN0 : ∀ v, N v = 0 → v = 0 := fun v hv => by
    have := hNk v
    rw [hv, mul_zero] at this
    exact norm_le_zero_iff.1 this
  have hinj : ∀ l, 0 ≤ l → l ≤ l₀ → ∀ v, S v + l • M v = 0 → v = 0 := by
    intro l h0 h1 v hv
    have := hg l h0 h1 0 v (by rw [hv, map_zero, smul_zero])
    rw [map_zero, mul_zero] at this
    exact hN0 v (le_antisymm this (apply_nonneg N v))
  obtain ⟨β, hβ, hinv⟩ := uniform_inverse S M l₀ hinj
  obtain ⟨A, hA⟩ : ∃ A, A = 2 * β * (‖S‖ + 1) := ⟨_, rfl⟩
  have hA0 : 0 < A := by rw [hA]; positivity
  obtain ⟨D, hD⟩ : ∃ D, D = (|K| + 1) * β * (1 + A) * k := ⟨_, rfl⟩
  have hD0 : 0 < D := by rw [hD]; positivity
  obtain ⟨κ, hκ⟩ : ∃ κ, κ = min (1 / (2 * β)) (min 1 ((1 - ρ) / (2 * D))) := ⟨_, rfl⟩
  have hρ1 : 0 < 1 - ρ := by linarith
  have hκ0 : 0 < κ := by
    rw [hκ]
    exact lt_min (by positivity) (lt_min one_pos (by positivity))
  have k1 : β * κ ≤ 1 / 2 := by
    have : κ ≤ 1 / (2 * β) := by rw [hκ]; exact min_le_left _ _
    rw [le_div_iff₀ (by positivity)] at this
    linarith
  have k2 : κ ≤ 1 := by rw [hκ]; exact (min_le_right _ _).trans (min_le_left _ _)
  have k3 : D * κ ≤ (1 - ρ) / 2 := by
    have : κ ≤ (1 - ρ) / (2 * D) := by rw [hκ]; exact (min_le_right _ _).trans (min_le_right _ _)
    rw [le_div_iff₀ (by positivity)] at this
    linarith
  have ev1 : ∀ᶠ x in 𝓝 x0, ‖f x - f x0 - S (x - x0)‖ ≤ κ * ‖x - x0‖ := hf.isLittleO.def hκ0
  have ev2 : ∀ᶠ x in 𝓝 x0, ‖J x - S‖ ≤ κ := by
    have := Metric.tendsto_nhds.1 hJ κ hκ0
    exact this.mono fun x hx => by rw [dist_eq_norm] at hx; exact hx.le
  obtain ⟨ε, hε, hball⟩ := Metric.eventually_nhds_iff_ball.1 (ev1.and ev2)
  refine ⟨ε / (2 * k), by positivity, 1 - ω * ((1 - ρ) / 2), by nlinarith, by nlinarith,
    A * k + (‖S‖ + 1) * k, by positivity, ?_⟩
  intro l h0 h1 x hx
  obtain ⟨e, he⟩ : ∃ e, e = x - x0 := ⟨_, rfl⟩
  rw [← he] at hx ⊢
  have hek := hNk e
  have hNe : 0 ≤ N e := apply_nonneg N e
  have hxb : x ∈ ball x0 ε := by
    rw [mem_ball, dist_eq_norm, ← he]
    rw [le_div_iff₀ (by positivity)] at hx
    nlinarith
  obtain ⟨b1, b2⟩ := hball x hxb
  rw [hf0, sub_zero, ← he] at b1
  have hJS : ∀ v, ‖J x v - S v‖ ≤ κ * ‖v‖ := fun v =>
    ((J x - S).le_opNorm v).trans (mul_le_mul_of_nonneg_right b2 (norm_nonneg _))
  have hlow : ∀ v, ‖v‖ ≤ 2 * β * ‖J x v + l • M v‖ := by
    intro v
    have h2 := hinv l h0 h1 v
    have h3 : ‖S v + l • M v‖ ≤ ‖J x v + l • M v‖ + κ * ‖v‖ := by
      have e1 : S v + l • M v = (J x v + l • M v) - (J x v - S v) := by abel
      rw [e1]
      exact (norm_sub_le _ _).trans (by gcongr; exact hJS v)
    have h4 := mul_le_mul_of_nonneg_left h3 hβ.le
    have h5 := mul_le_mul_of_nonneg_right k1 (norm_nonneg v)
    nlinarith
  have hfx : ‖f x‖ ≤ (‖S‖ + 1) * ‖e‖ := by
    have e1 : f x = S e + (f x - S e) := by abel
    rw [e1, add_mul]
    refine (norm_add_le _ _).trans (add_le_add (S.le_opNorm e) (b1.trans ?_))
    exact mul_le_mul_of_nonneg_right k2 (norm_nonneg _)
  refine ⟨fun v hv => ?_, fun δ hδ => ?_⟩
  · have := hlow v
    rw [hv, norm_zero, mul_zero] at this
    exact norm_le_zero_iff.1 this
  have hδn : ‖δ‖ ≤ A * ‖e‖ := by
    have h2 := hlow δ
    rw [hδ] at h2
    refine h2.trans ?_
    rw [hA]
    nlinarith
  have hkN : ∀ c : ℝ, 0 ≤ c → c * ‖e‖ ≤ c * k * N e := fun c hc => by
    have := mul_le_mul_of_nonneg_left hek hc
    linarith
  have hS1 : 0 ≤ (‖S‖ + 1) * k * N e := by positivity
  have hA1 : 0 ≤ A * k * N e := by positivity
  refine ⟨?_, (hδn.trans (hkN A hA0.le)).trans (by linarith),
    (hfx.trans (hkN _ (by positivity))).trans (by linarith)⟩
  -- the exact step of the linearised iteration
  have hsurj : Function.Surjective (S + l • M) := by
    refine LinearMap.surjective_of_injective (f := ((S + l • M : X →L[ℝ] X) : X →ₗ[ℝ] X)) ?_
    exact (injective_iff_map_eq_zero _).2 fun v hv => hinj l h0 h1 v hv
  obtain ⟨g, hgl⟩ := hsurj (l • M e)
  have hgl' : S g + l • M g = l • M e := hgl
  have hgN := hg l h0 h1 e g hgl'
  have herr : ‖e - g - δ‖ ≤ β * (κ * (1 + A) * ‖e‖) := by
    refine (hinv l h0 h1 _).trans (mul_le_mul_of_nonneg_left ?_ hβ.le)
    have e1 : S (e - g - δ) + l • M (e - g - δ) = (J x δ - S δ) - (f x - S e) := by
      have e2 : S (e - g - δ) + l • M (e - g - δ)
          = S e + l • M e - (S g + l • M g) - (S δ + l • M δ) := by
        simp only [map_sub]
        module
      have e3 : S δ + l • M δ = f x - (J x δ - S δ) := by
        rw [← hδ]
        abel
      rw [e2, hgl', e3]
      abel
    rw [e1]
    refine (norm_sub_le _ _).trans ?_
    have h2 := (hJS δ).trans (mul_le_mul_of_nonneg_left hδn hκ0.le)
    linarith
  have hNerr : N (e - g - δ) ≤ (1 - ρ) / 2 * N e := by
    calc N (e - g - δ) ≤ (|K| + 1) * ‖e - g - δ‖ :=
          (hNK _).trans (mul_le_mul_of_nonneg_right (by linarith [le_abs_self K]) (norm_nonneg _))
      _ ≤ (|K| + 1) * (β * (κ * (1 + A) * (k * N e))) := by
          refine mul_le_mul_of_nonneg_left (herr.trans ?_) (by positivity)
          gcongr
      _ = D * κ * N e := by rw [hD]; ring
      _ ≤ _ := mul_le_mul_of_nonneg_right k3 hNe
  have e4 : x - ω • δ - x0 = (1 - ω) • e + ω • g + ω • (e - g - δ) := by
    rw [he]
    module
  rw [e4]
  have n1 : N ((1 - ω) • e + ω • g + ω • (e - g - δ))
      ≤ (1 - ω) * N e + ω * N g + ω * N (e - g - δ) := by
    refine (map_add_le_add N _ _).trans (add_le_add ((map_add_le_add N _ _).trans ?_) ?_)
    · rw [map_smul_eq_mul, map_smul_eq_mul, Real.norm_of_nonneg (by linarith),
        Real.norm_of_nonneg hω.le]
    · rw [map_smul_eq_mul, Real.norm_of_nonneg hω.le]
  have n2 := mul_le_mul_of_nonneg_left hgN hω.le
  have n3 := mul_le_mul_of_nonneg_left hNerr hω.le
  nlinarith

end Dream
