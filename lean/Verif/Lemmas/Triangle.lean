import Verif.Spec.Triangle
import Mathlib.MeasureTheory.Integral.Prod
import Mathlib.MeasureTheory.Integral.IntervalIntegral.FundThmCalculus
import Mathlib.MeasureTheory.Measure.Lebesgue.Basic
import Mathlib.MeasureTheory.Function.Jacobian
import Mathlib.Analysis.Convex.Join
import Mathlib.Analysis.Calculus.Deriv.Mul
import Mathlib.LinearAlgebra.Matrix.ToLin
import Verif.Spec.NavierStokes

/-!
# The divergence theorem on triangles
-/

noncomputable section

namespace Spec

open Matrix MeasureTheory Set Function

/-- The reference triangle. -/
def refTri : Set (ℝ × ℝ) := {p | 0 ≤ p.1 ∧ 0 ≤ p.2 ∧ p.1 + p.2 ≤ 1}

theorem refTri_closed : IsClosed refTri := by
  refine (isClosed_le continuous_const continuous_fst).inter
    ((isClosed_le continuous_const continuous_snd).inter
      (isClosed_le (continuous_fst.add continuous_snd) continuous_const))

theorem refTri_compact : IsCompact refTri := by
  refine (isCompact_Icc (a := (0 : ℝ × ℝ)) (b := (1 : ℝ × ℝ))).of_isClosed_subset refTri_closed ?_
  rintro ⟨x, y⟩ ⟨h1, h2, h3⟩
  simp only at h1 h2 h3
  exact ⟨⟨h1, h2⟩, ⟨by simp; linarith, by simp; linarith⟩⟩

theorem ref_iterated (f : ℝ → ℝ → ℝ) :
    ∫ x in (0 : ℝ)..1, ∫ y in (0 : ℝ)..(1 - x), f x y
      = ∫ x, ∫ y, refTri.indicator (uncurry f) (x, y) := by
  rw [intervalIntegral.integral_of_le zero_le_one, ← integral_Icc_eq_integral_Ioc,
    ← integral_indicator measurableSet_Icc]
  refine integral_congr_ae (.of_forall fun x => ?_)
  simp only
  by_cases hx : x ∈ Icc (0 : ℝ) 1
  · rw [indicator_of_mem hx, intervalIntegral.integral_of_le (by linarith [hx.2]),
      ← integral_Icc_eq_integral_Ioc, ← integral_indicator measurableSet_Icc]
    refine integral_congr_ae (.of_forall fun y => ?_)
    simp only
    by_cases hy : y ∈ Icc (0 : ℝ) (1 - x)
    · rw [indicator_of_mem hy, indicator_of_mem (show (x, y) ∈ refTri from
        ⟨hx.1, hy.1, by have := hy.2; simp only; linarith⟩)]
      rfl
    · rw [indicator_of_notMem hy, indicator_of_notMem]
      rintro ⟨-, h2, h3⟩
      exact hy ⟨h2, by simp only at h3; linarith⟩
  · rw [indicator_of_notMem hx]
    symm
    refine integral_eq_zero_of_ae (.of_forall fun y => ?_)
    simp only
    rw [indicator_of_notMem]
    · rfl
    rintro ⟨h1, h2, h3⟩
    simp only at h1 h2 h3
    exact hx ⟨h1, by linarith⟩

theorem ref_swap {f : ℝ → ℝ → ℝ} (hf : ContinuousOn (uncurry f) refTri) :
    ∫ x in (0 : ℝ)..1, ∫ y in (0 : ℝ)..(1 - x), f x y
      = ∫ y in (0 : ℝ)..1, ∫ x in (0 : ℝ)..(1 - y), f x y := by
  rw [ref_iterated, ref_iterated fun y x => f x y]
  have hi : Integrable (refTri.indicator (uncurry f)) (volume.prod volume) :=
    (integrable_indicator_iff refTri_closed.measurableSet).2
      (hf.integrableOn_compact refTri_compact)
  rw [integral_integral_swap (f := fun x y => refTri.indicator (uncurry f) (x, y)) hi]
  refine integral_congr_ae (.of_forall fun y => integral_congr_ae (.of_forall fun x => ?_))
  simp only
  by_cases h : (x, y) ∈ refTri
  · rw [indicator_of_mem h, indicator_of_mem (show (y, x) ∈ refTri from
      ⟨h.2.1, h.1, by have := h.2.2; simp only at this ⊢; linarith⟩)]
    rfl
  · rw [indicator_of_notMem h, indicator_of_notMem]
    rintro ⟨h1, h2, h3⟩
    exact h ⟨h2, h1, by simp only at h3 ⊢; linarith⟩

theorem ref_integral {f : ℝ → ℝ → ℝ} (hf : ContinuousOn (uncurry f) refTri) :
    ∫ x in (0 : ℝ)..1, ∫ y in (0 : ℝ)..(1 - x), f x y = ∫ p in refTri, uncurry f p := by
  have hi : Integrable (refTri.indicator (uncurry f)) (volume.prod volume) :=
    (integrable_indicator_iff refTri_closed.measurableSet).2
      (hf.integrableOn_compact refTri_compact)
  rw [ref_iterated, ← integral_prod (fun p => refTri.indicator (uncurry f) p) hi,
    ← Measure.volume_eq_prod, integral_indicator refTri_closed.measurableSet]

theorem ref_linear {f g : ℝ → ℝ → ℝ} (hf : ContinuousOn (uncurry f) refTri)
    (hg : ContinuousOn (uncurry g) refTri) (α β : ℝ) :
    ∫ x in (0 : ℝ)..1, ∫ y in (0 : ℝ)..(1 - x), (α * f x y + β * g x y)
      = α * (∫ x in (0 : ℝ)..1, ∫ y in (0 : ℝ)..(1 - x), f x y)
        + β * ∫ x in (0 : ℝ)..1, ∫ y in (0 : ℝ)..(1 - x), g x y := by
  have h : ContinuousOn (uncurry fun x y => α * f x y + β * g x y) refTri :=
    (continuousOn_const.mul hf).add (continuousOn_const.mul hg)
  rw [ref_integral hf, ref_integral hg, ref_integral h, ← integral_const_mul, ← integral_const_mul,
    ← integral_add]
  · rfl
  · exact (hf.integrableOn_compact refTri_compact).const_mul α
  · exact (hg.integrableOn_compact refTri_compact).const_mul β

/-- Integration in the direction of the second coordinate. -/
theorem ref_snd {g g' : ℝ → ℝ → ℝ} (hd : ∀ x y, (x, y) ∈ refTri → HasDerivAt (g x) (g' x y) y)
    (hc : ContinuousOn (uncurry g') refTri) :
    ∫ x in (0 : ℝ)..1, ∫ y in (0 : ℝ)..(1 - x), g' x y
      = ∫ x in (0 : ℝ)..1, (g x (1 - x) - g x 0) := by
  refine intervalIntegral.integral_congr fun x hx => ?_
  rw [uIcc_of_le zero_le_one] at hx
  have h1 : (0 : ℝ) ≤ 1 - x := by linarith [hx.2]
  have hm : ∀ y ∈ uIcc 0 (1 - x), (x, y) ∈ refTri := by
    intro y hy
    rw [uIcc_of_le h1] at hy
    exact ⟨hx.1, hy.1, by have := hy.2; simp only; linarith⟩
  refine intervalIntegral.integral_eq_sub_of_hasDerivAt (fun y hy => hd x y (hm y hy)) ?_
  refine ContinuousOn.intervalIntegrable ?_
  exact hc.comp (f := fun y => (x, y)) (by fun_prop) hm

/-- Integration in the direction of the first coordinate. -/
theorem ref_fst {g g' : ℝ → ℝ → ℝ}
    (hd : ∀ x y, (x, y) ∈ refTri → HasDerivAt (fun s => g s y) (g' x y) x)
    (hc : ContinuousOn (uncurry g') refTri) :
    ∫ x in (0 : ℝ)..1, ∫ y in (0 : ℝ)..(1 - x), g' x y
      = ∫ y in (0 : ℝ)..1, (g (1 - y) y - g 0 y) := by
  rw [ref_swap hc]
  refine ref_snd (g := fun y x => g x y) (g' := fun y x => g' x y) ?_ ?_
  · rintro y x ⟨h1, h2, h3⟩
    exact hd x y ⟨h2, h1, by simp only at h3 ⊢; linarith⟩
  · refine hc.comp (f := fun p : ℝ × ℝ => (p.2, p.1)) (by fun_prop) ?_
    rintro ⟨y, x⟩ ⟨h1, h2, h3⟩
    exact ⟨h2, h1, by simp only at h3 ⊢; linarith⟩

/-- The point of the triangle `a`, `b`, `c` with the reference coordinates `p`. -/
def triMap (a b c : Fin 2 → ℝ) (p : ℝ × ℝ) : Fin 2 → ℝ := a + p.1 • (b - a) + p.2 • (c - a)

theorem triangle_eq (a b c : Fin 2 → ℝ) : triangle a b c = triMap a b c '' refTri := by
  ext v
  rw [triangle, convexHull_insert (by simp), convexHull_pair]
  simp only [mem_convexJoin, mem_singleton_iff, exists_eq_left, mem_image, Prod.exists]
  constructor
  · rintro ⟨w, ⟨s, t, hs, ht, hst, rfl⟩, ⟨p, q, hp, hq, hpq, rfl⟩⟩
    refine ⟨q * s, q * t, ⟨by positivity, by positivity, ?_⟩, ?_⟩
    · show q * s + q * t ≤ 1
      nlinarith
    · funext i
      simp [triMap]
      have : p = 1 - q := by linarith
      subst this
      have : s = 1 - t := by linarith
      subst this
      ring
  · rintro ⟨x, y, ⟨hx, hy, hxy⟩, rfl⟩
    simp only at hx hy hxy
    rcases (add_nonneg hx hy).eq_or_lt with h | h
    · have hx0 : x = 0 := by linarith
      have hy0 : y = 0 := by linarith
      subst hx0 hy0
      refine ⟨b, left_mem_segment ℝ b c, ?_⟩
      simp [triMap, left_mem_segment]
    · refine ⟨(x / (x + y)) • b + (y / (x + y)) • c,
        ⟨x / (x + y), y / (x + y), by positivity, by positivity, by field_simp, rfl⟩,
        ⟨1 - (x + y), x + y, by linarith, h.le, by ring, ?_⟩⟩
      funext i
      simp [triMap]
      field_simp
      ring

/-- Reference coordinates as a vector. -/
def triVec (a b c : Fin 2 → ℝ) (p : Fin 2 → ℝ) : Fin 2 → ℝ := triMap a b c (p 0, p 1)

/-- The derivative of the map from the reference triangle. -/
def triJac (a b c : Fin 2 → ℝ) : Matrix (Fin 2) (Fin 2) ℝ :=
  !![b 0 - a 0, c 0 - a 0; b 1 - a 1, c 1 - a 1]

theorem triVec_eq (a b c p : Fin 2 → ℝ) :
    triVec a b c p = a + (Matrix.mulVecLin (triJac a b c)).toContinuousLinearMap p := by
  funext i
  fin_cases i <;>
    simp [triVec, triMap, triJac, mulVec, dotProduct, Fin.sum_univ_two] <;> ring

theorem triVec_hasFDerivAt (a b c p : Fin 2 → ℝ) :
    HasFDerivAt (triVec a b c) (Matrix.mulVecLin (triJac a b c)).toContinuousLinearMap p := by
  have : triVec a b c = fun p => a + (Matrix.mulVecLin (triJac a b c)).toContinuousLinearMap p :=
    funext (triVec_eq a b c)
  rw [this]
  exact (ContinuousLinearMap.hasFDerivAt _).const_add a

theorem triVec_injective {a b c : Fin 2 → ℝ} (h : 0 < area2 a b c) : Injective (triVec a b c) := by
  intro p q hpq
  rw [triVec_eq, triVec_eq] at hpq
  have h1 : triJac a b c *ᵥ p = triJac a b c *ᵥ q := add_left_cancel hpq
  have hu : IsUnit (triJac a b c) := by
    rw [Matrix.isUnit_iff_isUnit_det, triJac, Matrix.det_fin_two_of, isUnit_iff_ne_zero]
    rw [area2] at h
    nlinarith
  exact Matrix.mulVec_injective_iff_isUnit.2 hu h1

/-- The reference triangle, as a set of vectors. -/
def refVec : Set (Fin 2 → ℝ) := {p | (p 0, p 1) ∈ refTri}

theorem refVec_image (a b c : Fin 2 → ℝ) : triVec a b c '' refVec = triangle a b c := by
  rw [triangle_eq]
  ext v
  constructor
  · rintro ⟨p, hp, rfl⟩
    exact ⟨_, hp, rfl⟩
  · rintro ⟨p, hp, rfl⟩
    exact ⟨![p.1, p.2], hp, rfl⟩

theorem refVec_measurable : MeasurableSet refVec :=
  (refTri_closed.preimage (f := fun p : Fin 2 → ℝ => (p 0, p 1)) (by fun_prop)).measurableSet

/-- The iterated integral is the Lebesgue integral over the triangle. -/
theorem triangleIntegral_eq {a b c : Fin 2 → ℝ} (h : 0 < area2 a b c) {f : (Fin 2 → ℝ) → ℝ}
    (hf : ContinuousOn f (triangle a b c)) :
    triangleIntegral a b c f = ∫ x in triangle a b c, f x := by
  rw [← refVec_image, integral_image_eq_integral_abs_det_fderiv_smul volume refVec_measurable
    (fun p _ => (triVec_hasFDerivAt a b c p).hasFDerivWithinAt) (triVec_injective h).injOn]
  have hdet : (Matrix.mulVecLin (triJac a b c)).toContinuousLinearMap.det = area2 a b c := by
    rw [ContinuousLinearMap.det]
    show LinearMap.det (Matrix.mulVecLin (triJac a b c)) = _
    rw [← Matrix.toLin'_apply', LinearMap.det_toLin', triJac, Matrix.det_fin_two_of, area2]
    ring
  simp only [hdet, abs_of_pos h, smul_eq_mul]
  rw [integral_const_mul, triangleIntegral]
  congr 1
  rw [ref_iterated fun x y => f (a + x • (b - a) + y • (c - a))]
  have hi : Integrable (refTri.indicator (uncurry fun x y => f (a + x • (b - a) + y • (c - a))))
      (volume.prod volume) := by
    refine (integrable_indicator_iff refTri_closed.measurableSet).2
      (ContinuousOn.integrableOn_compact refTri_compact ?_)
    refine hf.comp (f := fun p : ℝ × ℝ => a + p.1 • (b - a) + p.2 • (c - a)) (by fun_prop) ?_
    intro p hp
    rw [triangle_eq]
    exact ⟨p, hp, rfl⟩
  rw [← integral_prod (fun p => refTri.indicator
    (uncurry fun x y => f (a + x • (b - a) + y • (c - a))) p) hi, ← Measure.volume_eq_prod,
    ← integral_indicator refVec_measurable]
  have hm := volume_preserving_finTwoArrow ℝ
  rw [← hm.integral_comp (MeasurableEquiv.finTwoArrow (α := ℝ)).measurableEmbedding]
  refine integral_congr_ae (.of_forall fun p => ?_)
  simp only
  by_cases hp : p ∈ refVec
  · rw [indicator_of_mem hp, indicator_of_mem (show MeasurableEquiv.finTwoArrow p ∈ refTri from hp)]
    rfl
  · rw [indicator_of_notMem hp,
      indicator_of_notMem (show MeasurableEquiv.finTwoArrow p ∉ refTri from hp)]

/-- The average of `f` over the segment from `p` to `q`. -/
def segmentMean (p q : Fin 2 → ℝ) (f : (Fin 2 → ℝ) → ℝ) : ℝ :=
  ∫ s in (0 : ℝ)..1, f (p + s • (q - p))

theorem segmentMean_symm (p q : Fin 2 → ℝ) (f : (Fin 2 → ℝ) → ℝ) :
    segmentMean p q f = segmentMean q p f := by
  have h := intervalIntegral.integral_comp_sub_left (a := 0) (b := 1)
    (fun s : ℝ => f (p + s • (q - p))) 1
  rw [sub_self, sub_zero] at h
  rw [segmentMean, ← h, segmentMean]
  congr 1
  funext s
  congr 1
  funext i
  simp
  ring

/-- The normal of the segment from `p` to `q` on the right, times its length. -/
def scaledNormal (p q : Fin 2 → ℝ) : Fin 2 → ℝ := ![q 1 - p 1, p 0 - q 0]

/-- The divergence theorem for one component on a triangle. -/
theorem triangle_component {a b c : Fin 2 → ℝ} {f : (Fin 2 → ℝ) → ℝ}
    {f' : (Fin 2 → ℝ) → (Fin 2 → ℝ) →L[ℝ] ℝ} (hd : ∀ x ∈ triangle a b c, HasFDerivAt f (f' x) x)
    (hc : ContinuousOn f' (triangle a b c)) (j : Fin 2) :
    triangleIntegral a b c (fun x => f' x (Pi.single j 1))
      = scaledNormal a b j * segmentMean a b f + scaledNormal b c j * segmentMean b c f
        + scaledNormal c a j * segmentMean c a f := by
  have hmem : ∀ x y, (x, y) ∈ refTri → a + x • (b - a) + y • (c - a) ∈ triangle a b c := by
    intro x y h
    rw [triangle_eq]
    exact ⟨_, h, rfl⟩
  have hcont : ∀ v : Fin 2 → ℝ, ContinuousOn
      (uncurry fun x y : ℝ => f' (a + x • (b - a) + y • (c - a)) v) refTri := by
    intro v
    have h1 : ContinuousOn (fun p : ℝ × ℝ => f' (a + p.1 • (b - a) + p.2 • (c - a))) refTri :=
      hc.comp (f := fun p : ℝ × ℝ => a + p.1 • (b - a) + p.2 • (c - a)) (by fun_prop)
        fun p hp => hmem p.1 p.2 hp
    exact h1.clm_apply continuousOn_const
  have hx := ref_fst (g := fun x y => f (a + x • (b - a) + y • (c - a)))
    (g' := fun x y => f' (a + x • (b - a) + y • (c - a)) (b - a)) (by
      intro x y h
      have h1 : HasDerivAt (fun s : ℝ => a + s • (b - a) + y • (c - a)) (b - a) x := by
        simpa using (((hasDerivAt_id x).smul_const (b - a)).const_add a).add_const (y • (c - a))
      exact (hd _ (hmem x y h)).comp_hasDerivAt x h1) (hcont _)
  have hy := ref_snd (g := fun x y => f (a + x • (b - a) + y • (c - a)))
    (g' := fun x y => f' (a + x • (b - a) + y • (c - a)) (c - a)) (by
      intro x y h
      have h1 : HasDerivAt (fun s : ℝ => a + x • (b - a) + s • (c - a)) (c - a) y := by
        simpa using ((hasDerivAt_id y).smul_const (c - a)).const_add (a + x • (b - a))
      exact (hd _ (hmem x y h)).comp_hasDerivAt y h1) (hcont _)
  have hseg : ∀ p q : Fin 2 → ℝ, segment ℝ p q ⊆ triangle a b c →
      IntervalIntegrable (fun s : ℝ => f (p + s • (q - p))) volume 0 1 := by
    intro p q h
    refine ContinuousOn.intervalIntegrable ?_
    rw [uIcc_of_le zero_le_one]
    refine ContinuousOn.comp (t := triangle a b c) (g := f) (f := fun s : ℝ => p + s • (q - p))
      (fun x hx => (hd x hx).continuousAt.continuousWithinAt) (by fun_prop) fun s hs => h ?_
    rw [segment_eq_image']
    exact ⟨s, hs, rfl⟩
  have ha : a ∈ triangle a b c := subset_convexHull _ _ (by simp)
  have hb : b ∈ triangle a b c := subset_convexHull _ _ (by simp)
  have hcc : c ∈ triangle a b c := subset_convexHull _ _ (by simp)
  have hcv : Convex ℝ (triangle a b c) := convex_convexHull _ _
  have e1 : ∀ s : ℝ, a + (1 - s) • (b - a) + s • (c - a) = b + s • (c - b) := fun s => by
    funext i; simp; ring
  have e2 : ∀ s : ℝ, a + (0 : ℝ) • (b - a) + s • (c - a) = a + s • (c - a) := fun s => by simp
  have e3 : ∀ s : ℝ, a + s • (b - a) + (1 - s) • (c - a) = c + s • (b - c) := fun s => by
    funext i; simp; ring
  have e4 : ∀ s : ℝ, a + s • (b - a) + (0 : ℝ) • (c - a) = a + s • (b - a) := fun s => by simp
  simp only [e1, e2] at hx
  simp only [e3, e4] at hy
  rw [intervalIntegral.integral_sub (hseg b c (hcv.segment_subset hb hcc))
    (hseg a c (hcv.segment_subset ha hcc))] at hx
  rw [intervalIntegral.integral_sub (hseg c b (hcv.segment_subset hcc hb))
    (hseg a b (hcv.segment_subset ha hb))] at hy
  change _ = segmentMean b c f - segmentMean a c f at hx
  change _ = segmentMean c b f - segmentMean a b f at hy
  rw [segmentMean_symm a c] at hx
  rw [segmentMean_symm c b] at hy
  have hl : ∀ α β : ℝ, ∫ x in (0 : ℝ)..1, ∫ y in (0 : ℝ)..(1 - x),
      f' (a + x • (b - a) + y • (c - a)) (α • (b - a) + β • (c - a))
      = α * (segmentMean b c f - segmentMean c a f) + β * (segmentMean b c f - segmentMean a b f) := by
    intro α β
    rw [← hx, ← hy, ← ref_linear (hcont _) (hcont _)]
    simp only [map_add, map_smul, smul_eq_mul]
  have hD : area2 a b c • (Pi.single j 1 : Fin 2 → ℝ)
      = (if j = 0 then c 1 - a 1 else -(c 0 - a 0)) • (b - a)
        + (if j = 0 then -(b 1 - a 1) else b 0 - a 0) • (c - a) := by
    funext i
    fin_cases i <;> fin_cases j <;> simp [area2] <;> ring
  rw [triangleIntegral, ← intervalIntegral.integral_const_mul]
  simp only [← intervalIntegral.integral_const_mul]
  have hsm : ∀ x y : ℝ, area2 a b c * f' (a + x • (b - a) + y • (c - a)) (Pi.single j 1)
      = f' (a + x • (b - a) + y • (c - a)) (area2 a b c • (Pi.single j 1 : Fin 2 → ℝ)) := by
    intro x y
    rw [map_smul, smul_eq_mul]
  simp only [hsm, hD]
  rw [hl]
  fin_cases j <;> simp [scaledNormal] <;> ring

end Spec
