import Verif.Lemmas.PolyTriangle
import Mathlib.Analysis.Convex.Caratheodory
import Mathlib.Analysis.Convex.Integral
import Mathlib.Analysis.Convex.StdSimplex
import Mathlib.Analysis.SpecialFunctions.Integrals.Basic
import Mathlib.MeasureTheory.SpecificCodomains.Pi
import Mathlib.LinearAlgebra.AffineSpace.FiniteDimensional

/-!
# Quadrature rules with positive weights
-/

noncomputable section

namespace Dream
open MeasureTheory Function

/-- In finitely many dimensions the convex hull of a compact set is compact. -/
theorem convexHull_compact {X : Type} [NormedAddCommGroup X] [NormedSpace ℝ X]
    [FiniteDimensional ℝ X] {s : Set X} (hs : IsCompact s) : IsCompact (convexHull ℝ s) := by
  classical
  rcases s.eq_empty_or_nonempty with rfl | ⟨x0, hx0⟩
  · simp
  let N := Module.finrank ℝ X + 1
  let F : (Fin N → ℝ) × (Fin N → X) → X := fun z => ∑ i, z.1 i • z.2 i
  have hF : Continuous F := by
    refine continuous_finset_sum _ fun i _ => ?_
    exact ((continuous_apply i).comp continuous_fst).smul ((continuous_apply i).comp continuous_snd)
  have hc : IsCompact (stdSimplex ℝ (Fin N) ×ˢ Set.univ.pi fun _ : Fin N => s) :=
    (isCompact_stdSimplex ℝ (Fin N)).prod (isCompact_univ_pi fun _ => hs)
  have he : convexHull ℝ s = F '' (stdSimplex ℝ (Fin N) ×ˢ Set.univ.pi fun _ : Fin N => s) := by
    ext x
    constructor
    · intro hx
      obtain ⟨ι, _, z, w, hz, hi, hw, hw1, hx⟩ := eq_pos_convex_span_of_mem_convexHull hx
      have hcard : Fintype.card ι ≤ N := hi.card_le_finrank_succ.trans (by
        exact Nat.add_le_add_right (Submodule.finrank_le _) 1)
      obtain ⟨g⟩ : Nonempty (ι ↪ Fin N) := by
        rw [Function.Embedding.nonempty_iff_card_le]
        simpa using hcard
      have hsum : ∀ (Y : Type) [AddCommMonoid Y] (f : ι → Y) (h : Fin N → Y), (∀ i, h (g i) = f i) →
          (∀ j, (¬ ∃ i, g i = j) → h j = 0) → ∑ j, h j = ∑ i, f i := by
        intro Y _ f h h1 h2
        rw [← Finset.sum_subset (Finset.subset_univ (Finset.univ.map g))]
        · rw [Finset.sum_map]
          exact Finset.sum_congr rfl fun i _ => h1 i
        · intro j _ hj
          refine h2 j fun ⟨i, hi⟩ => hj ?_
          rw [Finset.mem_map]
          exact ⟨i, Finset.mem_univ i, hi⟩
      refine ⟨(extend g w 0, extend g z fun _ => x0), ⟨⟨fun j => ?_, ?_⟩, fun j _ => ?_⟩, ?_⟩
      · by_cases hj : ∃ i, g i = j
        · obtain ⟨i, rfl⟩ := hj
          show 0 ≤ extend g w 0 (g i)
          rw [g.injective.extend_apply]
          exact (hw i).le
        · show 0 ≤ extend g w 0 j
          rw [extend_apply' _ _ _ hj]
          exact le_rfl
      · rw [← hw1]
        exact hsum ℝ w _ (fun i => g.injective.extend_apply _ _ _) fun j hj => by
          show extend g w 0 j = 0
          rw [extend_apply' _ _ _ hj]; rfl
      · by_cases hj : ∃ i, g i = j
        · obtain ⟨i, rfl⟩ := hj
          show extend g z (fun _ => x0) (g i) ∈ s
          rw [g.injective.extend_apply]
          exact hz ⟨i, rfl⟩
        · show extend g z (fun _ => x0) j ∈ s
          rw [extend_apply' _ _ _ hj]
          exact hx0
      · rw [← hx]
        refine hsum X _ _ (fun i => ?_) fun j hj => ?_
        · show extend g w 0 (g i) • extend g z (fun _ => x0) (g i) = w i • z i
          rw [g.injective.extend_apply, g.injective.extend_apply]
        · show extend g w 0 j • extend g z (fun _ => x0) j = 0
          rw [extend_apply' _ _ _ hj]
          simp
    · rintro ⟨⟨w, z⟩, ⟨⟨hw, hw1⟩, hz⟩, rfl⟩
      exact (convex_convexHull ℝ s).sum_mem (fun i _ => hw i) hw1 fun i _ =>
        subset_convexHull ℝ s (hz i (Set.mem_univ i))
  rw [he]
  exact hc.image hF

/-- Tchakaloff's theorem: the integrals of finitely many continuous functions over a compact set are
computed exactly by a rule with positive weights and points in the set. -/
theorem positive_rule {X ι : Type} [TopologicalSpace X] [MeasurableSpace X] [Fintype ι]
    (μ : Measure X) [IsProbabilityMeasure μ] {D : Set X} (hD : IsCompact D) (hμ : ∀ᵐ x ∂μ, x ∈ D)
    (f : X → ι → ℝ) (hf : ContinuousOn f D) (hi : Integrable f μ) :
    ∃ (N : ℕ) (pt : Fin N → X) (w : Fin N → ℝ), (∀ q, 0 < w q) ∧ (∀ q, pt q ∈ D) ∧
      ∀ i, ∑ q, w q * f (pt q) i = ∫ x, f x i ∂μ := by
  have h1 : (∫ x, f x ∂μ) ∈ convexHull ℝ (f '' D) :=
    (convex_convexHull ℝ _).integral_mem (convexHull_compact (hD.image_of_continuousOn hf)).isClosed
      (hμ.mono fun x hx => subset_convexHull ℝ _ ⟨x, hx, rfl⟩) hi
  obtain ⟨κ, _, z, w, hz, -, hw, -, hx⟩ := eq_pos_convex_span_of_mem_convexHull h1
  choose pt hpt hpt' using fun i => hz ⟨i, rfl⟩
  let e := (Fintype.equivFin κ).symm
  refine ⟨Fintype.card κ, fun q => pt (e q), fun q => w (e q), fun q => hw _, fun q => hpt _,
    fun i => ?_⟩
  rw [Equiv.sum_comp e (fun k => w k * f (pt k) i), ← eval_integral (μ := μ) (f := f) ?_]
  · rw [← hx, Finset.sum_apply]
    refine Finset.sum_congr rfl fun k _ => ?_
    rw [Pi.smul_apply, smul_eq_mul, hpt']
  · exact fun i => hi.eval i

/-- There are symmetric rules with positive weights on the segment, of every degree of exactness. -/
theorem positive_side_rule (d : ℕ) : ∃ S : SideRule, S.Exact d ∧ (∀ q, 0 < S.w q) ∧
    ∃ rev : Fin S.n → Fin S.n, (∀ q, rev (rev q) = q) ∧ (∀ q, S.pt (rev q) = 1 - S.pt q) ∧
      ∀ q, S.w (rev q) = S.w q := by
  haveI : IsProbabilityMeasure (volume.restrict (Set.Icc (0 : ℝ) 1)) := ⟨by simp⟩
  have hf : Continuous fun s : ℝ => fun i : Fin (d + 1) => s ^ (i : ℕ) := by fun_prop
  obtain ⟨N, pt, w, hw, -, h⟩ := positive_rule (volume.restrict (Set.Icc (0 : ℝ) 1)) isCompact_Icc
    (ae_restrict_mem measurableSet_Icc) (fun s : ℝ => fun i : Fin (d + 1) => s ^ (i : ℕ))
    hf.continuousOn (hf.continuousOn.integrableOn_compact isCompact_Icc)
  have hp : ∀ p : Polynomial ℝ, p.natDegree ≤ d →
      ∑ q, w q * p.eval (pt q) = ∫ s in (0 : ℝ)..1, p.eval s := by
    intro p hp
    have e : ∀ s, p.eval s = ∑ i : Fin (d + 1), p.coeff i * s ^ (i : ℕ) := fun s => by
      rw [Polynomial.eval_eq_sum_range' (Nat.lt_succ_of_le hp), Finset.sum_range]
    simp only [e]
    rw [intervalIntegral.integral_finset_sum fun i _ =>
      Continuous.intervalIntegrable (by fun_prop) _ _]
    simp only [intervalIntegral.integral_const_mul, Finset.mul_sum]
    rw [Finset.sum_comm]
    refine Finset.sum_congr rfl fun i _ => ?_
    rw [intervalIntegral.integral_of_le zero_le_one, ← integral_Icc_eq_integral_Ioc, ← h i,
      Finset.mul_sum]
    exact Finset.sum_congr rfl fun q _ => by ring
  -- the average of the rule and the reversed rule
  let e := (finProdFinEquiv (m := N) (n := 2)).symm
  refine ⟨⟨N * 2, fun q => if (e q).2 = 0 then pt (e q).1 else 1 - pt (e q).1,
    fun q => w (e q).1 / 2⟩, ?_, fun q => half_pos (hw _),
    fun q => e.symm ((e q).1, Equiv.swap 0 1 (e q).2), fun q => ?_, fun q => ?_, fun q => ?_⟩
  · intro p hd
    have h2 := hp _ hd
    have h3 := hp (p.comp (1 - Polynomial.X)) (by
      rw [Polynomial.natDegree_comp]
      have : (1 - Polynomial.X : Polynomial ℝ).natDegree ≤ 1 :=
        (Polynomial.natDegree_sub_le _ _).trans (by simp)
      calc p.natDegree * _ ≤ p.natDegree * 1 := Nat.mul_le_mul_left _ this
        _ ≤ d := by omega)
    have h4 := intervalIntegral.integral_comp_sub_left (a := 0) (b := 1)
      (fun s : ℝ => p.eval s) 1
    rw [sub_self, sub_zero] at h4
    simp only [Polynomial.eval_comp, Polynomial.eval_sub, Polynomial.eval_one,
      Polynomial.eval_X] at h3
    rw [h4] at h3
    show ∑ q, w (e q).1 / 2 * p.eval (if (e q).2 = 0 then pt (e q).1 else 1 - pt (e q).1) = _
    rw [Equiv.sum_comp e (fun z : Fin N × Fin 2 =>
      w z.1 / 2 * p.eval (if z.2 = 0 then pt z.1 else 1 - pt z.1)), Fintype.sum_prod_type]
    simp only [Fin.sum_univ_two, if_true, one_ne_zero, if_false]
    rw [Finset.sum_add_distrib]
    have h5 : ∀ f : Fin N → ℝ, ∑ q, w q / 2 * f q = (∑ q, w q * f q) / 2 := fun f => by
      rw [Finset.sum_div]
      exact Finset.sum_congr rfl fun q _ => by ring
    rw [h5, h5, h2, h3]
    ring
  · simp
  · simp only [Equiv.apply_symm_apply]
    obtain h | h : (e q).2 = 0 ∨ (e q).2 = 1 := by omega
    · simp [h]
    · simp [h]
  · simp

/-- There are rules with positive weights on the triangle, of every degree of exactness. -/
theorem positive_volume_rule (d : ℕ) : ∃ R : VolumeRule, R.Exact d ∧ ∀ q, 0 < R.w q := by
  have hvol : volume Spec.refTri ≠ ⊤ := Spec.refTri_compact.measure_lt_top.ne
  have h1 : ∫ x in (0 : ℝ)..1, ∫ y in (0 : ℝ)..(1 - x), (1 : ℝ) = 1 / 2 := by
    have : ∫ x in (0 : ℝ)..1, (1 - x) = 1 / 2 := by
      rw [intervalIntegral.integral_sub (by simp) (Continuous.intervalIntegrable (by fun_prop) _ _),
        integral_id]
      norm_num
    simpa using this
  have hA : (volume Spec.refTri).toReal = 1 / 2 := by
    rw [← h1, Spec.ref_integral (f := fun _ _ => (1 : ℝ)) continuousOn_const]
    simp [Function.uncurry, Measure.real]
  have hv0 : volume Spec.refTri ≠ 0 := fun h => by
    rw [h] at hA
    norm_num at hA
  let μ : Measure (ℝ × ℝ) := (volume Spec.refTri)⁻¹ • volume.restrict Spec.refTri
  haveI : IsProbabilityMeasure μ := ⟨by simp [μ, ENNReal.inv_mul_cancel hv0 hvol]⟩
  let f : ℝ × ℝ → Fin (d + 1) × Fin (d + 1) → ℝ := fun z i => z.1 ^ (i.1 : ℕ) * z.2 ^ (i.2 : ℕ)
  have hf : Continuous f := by
    refine continuous_pi fun i => ?_
    simp only [f]
    fun_prop
  have hfi : IntegrableOn f Spec.refTri := hf.continuousOn.integrableOn_compact Spec.refTri_compact
  obtain ⟨N, pt, w, hw, -, h⟩ := positive_rule μ Spec.refTri_compact
    (Measure.ae_smul_measure (ae_restrict_mem Spec.refTri_closed.measurableSet) _) f hf.continuousOn
    (hfi.smul_measure (ENNReal.inv_ne_top.2 hv0))
  have hμ : ∀ g : ℝ × ℝ → ℝ, ∫ z, g z ∂μ = 2 * ∫ z in Spec.refTri, g z := fun g => by
    rw [integral_smul_measure, ENNReal.toReal_inv, hA, smul_eq_mul]
    norm_num
  refine ⟨⟨N, fun q => ![(pt q).1, (pt q).2], fun q => w q / 2⟩, fun p hp => ?_,
    fun q => half_pos (hw q)⟩
  have hexp : ∀ x y : ℝ, MvPolynomial.eval ![x, y] p = ∑ m ∈ p.support, p.coeff m *
      (x ^ m 0 * y ^ m 1) := fun x y => by
    rw [MvPolynomial.eval_eq']
    simp [Fin.prod_univ_two]
  have hc : Continuous (Function.uncurry fun x y : ℝ => MvPolynomial.eval ![x, y] p) := by
    simp only [hexp, Function.uncurry]
    fun_prop
  rw [Spec.ref_integral hc.continuousOn]
  simp only [Function.uncurry, hexp]
  rw [integral_finset_sum]
  · simp only [integral_const_mul, Finset.mul_sum]
    rw [Finset.sum_comm]
    refine Finset.sum_congr rfl fun m hm => ?_
    have h01 : m 0 + m 1 ≤ d := by
      refine le_trans (le_of_eq ?_) ((MvPolynomial.le_totalDegree hm).trans hp)
      rw [Finsupp.sum_fintype _ _ (by simp), Fin.sum_univ_two]
    have h2 := h (⟨m 0, by omega⟩, ⟨m 1, by omega⟩)
    rw [hμ] at h2
    simp only [f] at h2
    have h3 : ∫ z in Spec.refTri, z.1 ^ m 0 * z.2 ^ m 1
        = (∑ q, w q * ((pt q).1 ^ m 0 * (pt q).2 ^ m 1)) / 2 := by rw [h2]; ring
    rw [h3, Finset.sum_div, Finset.mul_sum]
    exact Finset.sum_congr rfl fun q _ => by ring
  · intro m _
    exact (Continuous.continuousOn (by fun_prop)).integrableOn_compact Spec.refTri_compact

end Dream
