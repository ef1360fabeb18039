import Verif.Props.Mixed
import Verif.Lemmas.Triangle
import Mathlib.Analysis.Calculus.FDeriv.Mul
import Mathlib.Analysis.Calculus.FDeriv.Pi
import Mathlib.MeasureTheory.Integral.Bochner.Set
import Mathlib.Analysis.Calculus.FDeriv.Linear
import Mathlib.Analysis.Convex.Measure
import Mathlib.Analysis.SpecialFunctions.Integrals.Basic

/-!
# C57: the mixed form on an element
-/

noncomputable section

namespace Spec

open Matrix MeasureTheory Set

theorem triangle_compact (a b c : Fin 2 → ℝ) : IsCompact (triangle a b c) := by
  rw [triangle_eq]
  exact refTri_compact.image (by unfold triMap; fun_prop)

/-- A triangle with positive area has interior points. -/
theorem triangle_interior {a b c : Fin 2 → ℝ} (h : 0 < area2 a b c) :
    triangle a b c ⊆ closure (interior (triangle a b c)) := by
  have hcv : Convex ℝ (triangle a b c) := convex_convexHull _ _
  have hcl : IsClosed (triangle a b c) := (triangle_compact a b c).isClosed
  rw [hcv.closure_interior_eq_closure_of_nonempty_interior]
  · exact subset_closure
  · rw [nonempty_iff_ne_empty]
    intro h0
    have hz : volume (triangle a b c) = 0 := by
      have hf := hcv.addHaar_frontier (μ := volume)
      rwa [frontier, hcl.closure_eq, h0, diff_empty] at hf
    have h1 := triangleIntegral_eq h (f := fun _ => 1) continuousOn_const
    rw [setIntegral_measure_zero _ hz, triangleIntegral] at h1
    simp at h1
    rcases h1 with h1 | h1
    · exact h.ne' h1
    · have h2 := intervalIntegral.integral_comp_sub_left (a := 0) (b := 1) (fun x : ℝ => x) 1
      rw [h1, integral_id] at h2
      norm_num at h2

theorem segment_eq {p q : Fin 2 → ℝ} (hpq : p ≠ q) {f : Fin 2 → (Fin 2 → ℝ) → ℝ}
    (hf : ∀ j, ContinuousOn (f j) (segment ℝ p q)) :
    segmentIntegral p q (fun x ν => ![f 0 x, f 1 x] ⬝ᵥ ν)
      = scaledNormal p q 0 * segmentMean p q (f 0) + scaledNormal p q 1 * segmentMean p q (f 1) := by
  have hl : Real.sqrt ((q 0 - p 0) ^ 2 + (q 1 - p 1) ^ 2) ≠ 0 := by
    intro h0
    rw [Real.sqrt_eq_zero (by positivity)] at h0
    refine hpq (funext fun i => ?_)
    have h1 : (q 0 - p 0) ^ 2 = 0 := by nlinarith [sq_nonneg (q 0 - p 0), sq_nonneg (q 1 - p 1)]
    have h2 : (q 1 - p 1) ^ 2 = 0 := by nlinarith [sq_nonneg (q 0 - p 0), sq_nonneg (q 1 - p 1)]
    fin_cases i
    · exact (sub_eq_zero.1 (pow_eq_zero_iff two_ne_zero |>.1 h1)).symm
    · exact (sub_eq_zero.1 (pow_eq_zero_iff two_ne_zero |>.1 h2)).symm
  have hi : ∀ j, IntervalIntegrable (fun s : ℝ => f j (p + s • (q - p))) volume 0 1 := by
    intro j
    refine ContinuousOn.intervalIntegrable ?_
    rw [uIcc_of_le zero_le_one]
    refine (hf j).comp (f := fun s : ℝ => p + s • (q - p)) (by fun_prop) fun s hs => ?_
    rw [segment_eq_image']
    exact ⟨s, hs, rfl⟩
  rw [segmentIntegral]
  set l := Real.sqrt ((q 0 - p 0) ^ 2 + (q 1 - p 1) ^ 2)
  have e : ∀ s : ℝ, ![f 0 (p + s • (q - p)), f 1 (p + s • (q - p))]
      ⬝ᵥ ![(q 1 - p 1) / l, (p 0 - q 0) / l]
      = (q 1 - p 1) / l * f 0 (p + s • (q - p)) + (p 0 - q 0) / l * f 1 (p + s • (q - p)) := by
    intro s
    simp [dotProduct, Fin.sum_univ_two]
    ring
  simp only [e]
  rw [intervalIntegral.integral_add ((hi 0).const_mul _) ((hi 1).const_mul _),
    intervalIntegral.integral_const_mul, intervalIntegral.integral_const_mul]
  simp only [segmentMean, scaledNormal, cons_val_zero, cons_val_one]
  field_simp

/-- The divergence theorem on a triangle. -/
theorem triangle_divergence {a b c : Fin 2 → ℝ} (h : 0 < area2 a b c)
    {f : Fin 2 → (Fin 2 → ℝ) → ℝ} {f' : Fin 2 → (Fin 2 → ℝ) → (Fin 2 → ℝ) →L[ℝ] ℝ}
    (hd : ∀ j, ∀ x ∈ triangle a b c, HasFDerivAt (f j) (f' j x) x)
    (hc : ∀ j, ContinuousOn (f' j) (triangle a b c)) :
    ∫ x in triangle a b c, (f' 0 x (Pi.single 0 1) + f' 1 x (Pi.single 1 1))
      = boundaryIntegral a b c fun x ν => ![f 0 x, f 1 x] ⬝ᵥ ν := by
  have hcont : ∀ j, ContinuousOn (fun x => f' j x (Pi.single j 1)) (triangle a b c) :=
    fun j => (hc j).clm_apply continuousOn_const
  rw [integral_add ((hcont 0).integrableOn_compact (triangle_compact a b c))
    ((hcont 1).integrableOn_compact (triangle_compact a b c)), ← triangleIntegral_eq h (hcont 0),
    ← triangleIntegral_eq h (hcont 1), triangle_component (hd 0) (hc 0) 0,
    triangle_component (hd 1) (hc 1) 1, boundaryIntegral]
  have hf : ∀ j, ContinuousOn (f j) (triangle a b c) :=
    fun j x hx => (hd j x hx).continuousAt.continuousWithinAt
  have hcv : Convex ℝ (triangle a b c) := convex_convexHull _ _
  have ha : a ∈ triangle a b c := subset_convexHull _ _ (by simp)
  have hb : b ∈ triangle a b c := subset_convexHull _ _ (by simp)
  have hcc : c ∈ triangle a b c := subset_convexHull _ _ (by simp)
  have hab : a ≠ b := by rintro rfl; simp [area2] at h
  have hbc : b ≠ c := by rintro rfl; simp [area2, mul_comm] at h
  have hca : c ≠ a := by rintro rfl; simp [area2] at h
  rw [segment_eq hab fun j => (hf j).mono (hcv.segment_subset ha hb),
    segment_eq hbc fun j => (hf j).mono (hcv.segment_subset hb hcc),
    segment_eq hca fun j => (hf j).mono (hcv.segment_subset hcc ha)]
  ring

end Spec

namespace Dream

open Matrix Spec MeasureTheory Set

variable {a b c : Fin 2 → ℝ} {s : Set (Fin 2 → ℝ)}

/-- `Smooth` for one component. -/
structure SmoothScalar (s : Set (Fin 2 → ℝ)) (f : (Fin 2 → ℝ) → ℝ)
    (f' : (Fin 2 → ℝ) → (Fin 2 → ℝ) →L[ℝ] ℝ) : Prop where
  deriv : ∀ x ∈ s, HasFDerivAt f (f' x) x
  cont : ContinuousOn f' s

namespace SmoothScalar

variable {f g : (Fin 2 → ℝ) → ℝ} {f' g' : (Fin 2 → ℝ) → (Fin 2 → ℝ) →L[ℝ] ℝ}

theorem continuousOn (h : SmoothScalar s f f') : ContinuousOn f s :=
  fun x hx => (h.deriv x hx).continuousAt.continuousWithinAt

theorem add (hf : SmoothScalar s f f') (hg : SmoothScalar s g g') :
    SmoothScalar s (fun x => f x + g x) (fun x => f' x + g' x) :=
  ⟨fun x hx => (hf.deriv x hx).add (hg.deriv x hx), hf.cont.add hg.cont⟩

theorem sub (hf : SmoothScalar s f f') (hg : SmoothScalar s g g') :
    SmoothScalar s (fun x => f x - g x) (fun x => f' x - g' x) :=
  ⟨fun x hx => (hf.deriv x hx).sub (hg.deriv x hx), hf.cont.sub hg.cont⟩

theorem const_mul (hf : SmoothScalar s f f') (r : ℝ) :
    SmoothScalar s (fun x => r * f x) (fun x => r • f' x) :=
  ⟨fun x hx => (hf.deriv x hx).const_mul r, hf.cont.const_smul r⟩

theorem mul (hf : SmoothScalar s f f') (hg : SmoothScalar s g g') :
    SmoothScalar s (fun x => f x * g x) (fun x => f x • g' x + g x • f' x) :=
  ⟨fun x hx => (hf.deriv x hx).mul (hg.deriv x hx),
    (hf.continuousOn.smul hg.cont).add (hg.continuousOn.smul hf.cont)⟩

end SmoothScalar

theorem smooth_comp {m : ℕ} {f : (Fin 2 → ℝ) → Fin m → ℝ}
    {f' : (Fin 2 → ℝ) → (Fin 2 → ℝ) →L[ℝ] (Fin m → ℝ)} (h : Smooth s f f') (k : Fin m) :
    SmoothScalar s (fun y => f y k) fun x => (ContinuousLinearMap.proj k).comp (f' x) :=
  ⟨fun x hx => hasFDerivAt_pi'.1 (h.deriv x hx) k, continuousOn_const.clm_comp h.cont⟩

/-- The divergence theorem for two smooth components. -/
theorem smooth_divergence (h : 0 < area2 a b c) {f g : (Fin 2 → ℝ) → ℝ}
    {f' g' : (Fin 2 → ℝ) → (Fin 2 → ℝ) →L[ℝ] ℝ} (hf : SmoothScalar (triangle a b c) f f')
    (hg : SmoothScalar (triangle a b c) g g') :
    ∫ x in triangle a b c, (f' x (Pi.single 0 1) + g' x (Pi.single 1 1))
      = boundaryIntegral a b c fun x ν => ![f x, g x] ⬝ᵥ ν :=
  triangle_divergence h (f := ![f, g]) (f' := ![f', g'])
    (fun j => by fin_cases j; exacts [hf.deriv, hg.deriv])
    (fun j => by fin_cases j; exacts [hf.cont, hg.cont])

/-- **C57** The strain part of the mixed form on an element: for every velocity and every test
function that are continuously differentiable on the triangle, if the mixed variable is the strain
rate of the velocity, then the integral over the element equals the integral over its boundary
that is subtracted from it. -/
theorem C57_strain_element (h : 0 < area2 a b c) {u : (Fin 2 → ℝ) → Fin 2 → ℝ}
    {P : (Fin 2 → ℝ) → Fin 5 → ℝ} {u' : (Fin 2 → ℝ) → (Fin 2 → ℝ) →L[ℝ] (Fin 2 → ℝ)}
    {P' : (Fin 2 → ℝ) → (Fin 2 → ℝ) →L[ℝ] (Fin 5 → ℝ)} (hu : Smooth (triangle a b c) u u')
    (hP : Smooth (triangle a b c) P P') {Q : (Fin 2 → ℝ) → Fin 5 → ℝ}
    (hQ : ∀ x ∈ triangle a b c,
      strainRateTensor { grad_u := some (jacobian (u' x)) } = .ok (mixedEps (Q x))) :
    ∫ x in triangle a b c, mixedStrainVolume (Q x) (P x) (jacobian (P' x)) (u x)
      = boundaryIntegral a b c fun x ν => mixedStrainFacet (P x) (u x) ν := by
  have p0 := smooth_comp hP 0
  have p1 := smooth_comp hP 1
  have p2 := smooth_comp hP 2
  have u0 := smooth_comp hu 0
  have u1 := smooth_comp hu 1
  have e := smooth_divergence h
    (((p0.sub ((p0.add p2).const_mul (3 : ℝ)⁻¹)).mul u0).add (p1.mul u1))
    ((p1.mul u0).add ((p2.sub ((p0.add p2).const_mul (3 : ℝ)⁻¹)).mul u1))
  have e1 : (fun (x ν : Fin 2 → ℝ) => mixedStrainFacet (P x) (u x) ν) = fun x ν =>
      ![(P x 0 - (3 : ℝ)⁻¹ * (P x 0 + P x 2)) * u x 0 + P x 1 * u x 1,
        P x 1 * u x 0 + (P x 2 - (3 : ℝ)⁻¹ * (P x 0 + P x 2)) * u x 1] ⬝ᵥ ν := by
    funext x ν
    simp [mixedStrainFacet, devZeta, mixedEps, mulVec, dotProduct, Fin.sum_univ_two, Matrix.trace]
    ring
  rw [e1, ← e]
  refine setIntegral_congr_fun (triangle_compact a b c).measurableSet fun x hx => ?_
  have hq' : (0.5 : ℝ) • (jacobian (u' x) + (jacobian (u' x))ᵀ)
      - (1 / 3 * (jacobian (u' x)).trace) • (1 : Matrix (Fin 2) (Fin 2) ℝ) = mixedEps (Q x) :=
    Except.ok.inj (hQ x hx)
  have q0 := congrFun (congrFun hq' 0) 0
  have q1 := congrFun (congrFun hq' 0) 1
  have q2 := congrFun (congrFun hq' 1) 1
  simp [mixedEps, jacobian, Matrix.trace, Fin.sum_univ_two] at q0 q1 q2
  simp [mixedStrainVolume, mixedEps, divDevZeta, jacobian, dotProduct, Fin.sum_univ_two, ← q0,
    ← q1, ← q2]
  ring

/-- **C57** The heat part of the mixed form on an element, likewise. -/
theorem C57_heat_element (h : 0 < area2 a b c) {T : (Fin 2 → ℝ) → Fin 1 → ℝ}
    {P : (Fin 2 → ℝ) → Fin 5 → ℝ} {T' : (Fin 2 → ℝ) → (Fin 2 → ℝ) →L[ℝ] (Fin 1 → ℝ)}
    {P' : (Fin 2 → ℝ) → (Fin 2 → ℝ) →L[ℝ] (Fin 5 → ℝ)} (hT : Smooth (triangle a b c) T T')
    (hP : Smooth (triangle a b c) P P') {Q : (Fin 2 → ℝ) → Fin 5 → ℝ}
    (hQ : ∀ x ∈ triangle a b c, mixedGradT (Q x) = jacobian (T' x) 0) :
    ∫ x in triangle a b c, mixedHeatVolume (Q x) (P x) (jacobian (P' x)) (T x 0)
      = boundaryIntegral a b c fun x ν => mixedHeatFacet (P x) (T x 0) ν := by
  have p3 := smooth_comp hP 3
  have p4 := smooth_comp hP 4
  have t := smooth_comp hT 0
  have e := smooth_divergence h (t.mul p3) (t.mul p4)
  have e1 : (fun (x ν : Fin 2 → ℝ) => mixedHeatFacet (P x) (T x 0) ν) = fun x ν =>
      ![T x 0 * P x 3, T x 0 * P x 4] ⬝ᵥ ν := by
    funext x ν
    simp [mixedHeatFacet, mixedGradT, dotProduct, Fin.sum_univ_two]
    ring
  rw [e1, ← e]
  refine setIntegral_congr_fun (triangle_compact a b c).measurableSet fun x hx => ?_
  have q0 := congrFun (hQ x hx) 0
  have q1 := congrFun (hQ x hx) 1
  simp [mixedGradT, jacobian] at q0 q1
  simp [mixedHeatVolume, mixedGradT, divXi, jacobian, dotProduct, Fin.sum_univ_two, q0, q1]
  ring

/-- The mixed form of one element for the mixed variable `Q` and the test function `P`. -/
def elementForm (a b c : Fin 2 → ℝ) (Q P : (Fin 2 → ℝ) → Fin 5 → ℝ)
    (P' : (Fin 2 → ℝ) → (Fin 2 → ℝ) →L[ℝ] (Fin 5 → ℝ)) (u uHat : (Fin 2 → ℝ) → Fin 2 → ℝ)
    (T THat : (Fin 2 → ℝ) → ℝ) : ℝ :=
  (∫ x in triangle a b c, (mixedStrainVolume (Q x) (P x) (jacobian (P' x)) (u x)
    + mixedHeatVolume (Q x) (P x) (jacobian (P' x)) (T x)))
  - boundaryIntegral a b c fun x ν => mixedStrainFacet (P x) (uHat x) ν
    + mixedHeatFacet (P x) (THat x) ν

/-- **C57** The strain rate and the temperature gradient solve the mixed form: for every velocity
and temperature that are continuously differentiable on the triangle, the form vanishes for every
test function, if the facet variables are the traces. -/
theorem C57_element (h : 0 < area2 a b c) {u : (Fin 2 → ℝ) → Fin 2 → ℝ}
    {T : (Fin 2 → ℝ) → Fin 1 → ℝ} {P : (Fin 2 → ℝ) → Fin 5 → ℝ}
    {u' : (Fin 2 → ℝ) → (Fin 2 → ℝ) →L[ℝ] (Fin 2 → ℝ)}
    {T' : (Fin 2 → ℝ) → (Fin 2 → ℝ) →L[ℝ] (Fin 1 → ℝ)}
    {P' : (Fin 2 → ℝ) → (Fin 2 → ℝ) →L[ℝ] (Fin 5 → ℝ)} (hu : Smooth (triangle a b c) u u')
    (hT : Smooth (triangle a b c) T T') (hP : Smooth (triangle a b c) P P')
    {Q : (Fin 2 → ℝ) → Fin 5 → ℝ}
    (hQ : ∀ x ∈ triangle a b c,
      strainRateTensor { grad_u := some (jacobian (u' x)) } = .ok (mixedEps (Q x)))
    (hQ' : ∀ x ∈ triangle a b c, mixedGradT (Q x) = jacobian (T' x) 0) :
    elementForm a b c Q P P' u u (fun x => T x 0) (fun x => T x 0) = 0 := by
  have p0 := smooth_comp hP 0
  have p1 := smooth_comp hP 1
  have p2 := smooth_comp hP 2
  have p3 := smooth_comp hP 3
  have p4 := smooth_comp hP 4
  have u0 := smooth_comp hu 0
  have u1 := smooth_comp hu 1
  have t := smooth_comp hT 0
  have e := smooth_divergence h
    ((((p0.sub ((p0.add p2).const_mul (3 : ℝ)⁻¹)).mul u0).add (p1.mul u1)).add (t.mul p3))
    (((p1.mul u0).add ((p2.sub ((p0.add p2).const_mul (3 : ℝ)⁻¹)).mul u1)).add (t.mul p4))
  have e1 : (fun (x ν : Fin 2 → ℝ) => mixedStrainFacet (P x) (u x) ν
        + mixedHeatFacet (P x) (T x 0) ν) = fun x ν =>
      ![(P x 0 - (3 : ℝ)⁻¹ * (P x 0 + P x 2)) * u x 0 + P x 1 * u x 1 + T x 0 * P x 3,
        P x 1 * u x 0 + (P x 2 - (3 : ℝ)⁻¹ * (P x 0 + P x 2)) * u x 1 + T x 0 * P x 4] ⬝ᵥ ν := by
    funext x ν
    simp [mixedStrainFacet, mixedHeatFacet, devZeta, mixedEps, mixedGradT, mulVec, dotProduct,
      Fin.sum_univ_two, Matrix.trace]
    ring
  rw [elementForm, e1, ← e, sub_eq_zero]
  refine setIntegral_congr_fun (triangle_compact a b c).measurableSet fun x hx => ?_
  have hq' : (0.5 : ℝ) • (jacobian (u' x) + (jacobian (u' x))ᵀ)
      - (1 / 3 * (jacobian (u' x)).trace) • (1 : Matrix (Fin 2) (Fin 2) ℝ) = mixedEps (Q x) :=
    Except.ok.inj (hQ x hx)
  have q0 := congrFun (congrFun hq' 0) 0
  have q1 := congrFun (congrFun hq' 0) 1
  have q2 := congrFun (congrFun hq' 1) 1
  have q3 := congrFun (hQ' x hx) 0
  have q4 := congrFun (hQ' x hx) 1
  simp [mixedGradT, jacobian] at q3 q4
  simp [mixedEps, jacobian, Matrix.trace, Fin.sum_univ_two] at q0 q1 q2
  simp [mixedStrainVolume, mixedHeatVolume, mixedEps, mixedGradT, divXi, divDevZeta, jacobian,
    dotProduct, Fin.sum_univ_two, ← q0, ← q1, ← q2, q3, q4]
  ring

/-- **C57** The mixed form determines the mixed variables: two continuously differentiable mixed
variables with the same value of the form, for the same velocity and temperature and for their
difference as test function, agree on the whole element. -/
theorem C57_unique (h : 0 < area2 a b c) {Q₁ Q₂ : (Fin 2 → ℝ) → Fin 5 → ℝ}
    {Q₁' Q₂' : (Fin 2 → ℝ) → (Fin 2 → ℝ) →L[ℝ] (Fin 5 → ℝ)}
    (h₁ : Smooth (triangle a b c) Q₁ Q₁') (h₂ : Smooth (triangle a b c) Q₂ Q₂')
    {u uHat : (Fin 2 → ℝ) → Fin 2 → ℝ} {T THat : (Fin 2 → ℝ) → ℝ}
    (hu : ContinuousOn u (triangle a b c)) (hT : ContinuousOn T (triangle a b c))
    (he : elementForm a b c Q₁ (fun x => Q₁ x - Q₂ x) (fun x => Q₁' x - Q₂' x) u uHat T THat
      = elementForm a b c Q₂ (fun x => Q₁ x - Q₂ x) (fun x => Q₁' x - Q₂' x) u uHat T THat) :
    ∀ x ∈ triangle a b c, Q₁ x = Q₂ x := by
  have hc : ∀ {f : (Fin 2 → ℝ) → Fin 5 → ℝ} {f'}, Smooth (triangle a b c) f f' →
      ContinuousOn f (triangle a b c) := fun hf x hx =>
    (hf.deriv x hx).continuousAt.continuousWithinAt
  have hD : ContinuousOn (fun x => Q₁ x - Q₂ x) (triangle a b c) := (hc h₁).sub (hc h₂)
  have hk : ∀ {f : (Fin 2 → ℝ) → Fin 5 → ℝ}, ContinuousOn f (triangle a b c) → ∀ k,
      ContinuousOn (fun x => f x k) (triangle a b c) := fun hf k =>
    (continuous_apply k).comp_continuousOn hf
  have hu' : ∀ k, ContinuousOn (fun x => u x k) (triangle a b c) := fun k =>
    (continuous_apply k).comp_continuousOn hu
  have hj : ∀ i j, ContinuousOn (fun x => jacobian (Q₁' x - Q₂' x) i j) (triangle a b c) :=
    fun i j => (continuous_apply i).comp_continuousOn
      ((h₁.cont.sub h₂.cont).clm_apply continuousOn_const)
  have hint : ∀ {Q : (Fin 2 → ℝ) → Fin 5 → ℝ}, ContinuousOn Q (triangle a b c) →
      ContinuousOn (fun x => mixedStrainVolume (Q x) (Q₁ x - Q₂ x) (jacobian (Q₁' x - Q₂' x)) (u x)
        + mixedHeatVolume (Q x) (Q₁ x - Q₂ x) (jacobian (Q₁' x - Q₂' x)) (T x))
        (triangle a b c) := by
    intro Q hQ
    have q := hk hQ
    have d := hk hD
    simp only [Pi.sub_apply] at d
    simp only [mixedStrainVolume, mixedHeatVolume, mixedEps, mixedGradT, divDevZeta, divXi,
      dotProduct, Fin.sum_univ_two, Matrix.of_apply, Matrix.cons_val', Matrix.cons_val_zero,
      Matrix.cons_val_one, Pi.sub_apply, Pi.smul_apply, smul_eq_mul]
    have := hj
    fun_prop
  have e1 := sub_left_injective he
  simp only at e1
  have e2 := sub_eq_zero.2 e1
  rw [← integral_sub ((hint (hc h₁)).integrableOn_compact (triangle_compact a b c))
    ((hint (hc h₂)).integrableOn_compact (triangle_compact a b c))] at e2
  have hn : ∀ x, (mixedStrainVolume (Q₁ x) (Q₁ x - Q₂ x) (jacobian (Q₁' x - Q₂' x)) (u x)
        + mixedHeatVolume (Q₁ x) (Q₁ x - Q₂ x) (jacobian (Q₁' x - Q₂' x)) (T x))
      - (mixedStrainVolume (Q₂ x) (Q₁ x - Q₂ x) (jacobian (Q₁' x - Q₂' x)) (u x)
        + mixedHeatVolume (Q₂ x) (Q₁ x - Q₂ x) (jacobian (Q₁' x - Q₂' x)) (T x))
      = (Q₁ x 0 - Q₂ x 0) ^ 2 + 2 * (Q₁ x 1 - Q₂ x 1) ^ 2 + (Q₁ x 2 - Q₂ x 2) ^ 2
        + (Q₁ x 3 - Q₂ x 3) ^ 2 + (Q₁ x 4 - Q₂ x 4) ^ 2 := by
    intro x
    simp [mixedStrainVolume, mixedHeatVolume, mixedEps, mixedGradT, dotProduct, Fin.sum_univ_two]
    ring
  simp only [hn] at e2
  have hN : ContinuousOn (fun x => (Q₁ x 0 - Q₂ x 0) ^ 2 + 2 * (Q₁ x 1 - Q₂ x 1) ^ 2
      + (Q₁ x 2 - Q₂ x 2) ^ 2 + (Q₁ x 3 - Q₂ x 3) ^ 2 + (Q₁ x 4 - Q₂ x 4) ^ 2)
      (triangle a b c) := by
    have d := hk hD
    simp only [Pi.sub_apply] at d
    fun_prop
  rw [setIntegral_eq_zero_iff_of_nonneg_ae (.of_forall fun x => by simp only [Pi.zero_apply]; positivity)
    (hN.integrableOn_compact (triangle_compact a b c))] at e2
  intro x hx
  have hz := Measure.eqOn_of_ae_eq e2 hN continuousOn_const (triangle_interior h) hx
  simp only [Pi.zero_apply] at hz
  have key : ∀ k : Fin 5, (Q₁ x k - Q₂ x k) ^ 2 = 0 := by
    intro k
    fin_cases k <;> simp only [Fin.zero_eta, Fin.mk_one, Fin.reduceFinMk] <;>
      nlinarith [sq_nonneg (Q₁ x 0 - Q₂ x 0), sq_nonneg (Q₁ x 1 - Q₂ x 1),
        sq_nonneg (Q₁ x 2 - Q₂ x 2), sq_nonneg (Q₁ x 3 - Q₂ x 3), sq_nonneg (Q₁ x 4 - Q₂ x 4)]
  exact funext fun k => sub_eq_zero.1 (pow_eq_zero_iff two_ne_zero |>.1 (key k))

/-- A linear map as a smooth function. -/
theorem linear_smooth {m : ℕ} (L : (Fin 2 → ℝ) →L[ℝ] (Fin m → ℝ)) (s : Set (Fin 2 → ℝ)) :
    Smooth s L fun _ => L :=
  ⟨fun x _ => L.hasFDerivAt, continuousOn_const⟩

/-- C57, concrete instance: a shear flow with a temperature gradient, `u = (y, 0)`, `T = x`, on the
reference triangle. All hypotheses of `C57_element` hold (and those of `C57_strain_element` and
`C57_heat_element`). -/
example (L : (Fin 2 → ℝ) →L[ℝ] (Fin 5 → ℝ)) :
    elementForm ![0, 0] ![1, 0] ![0, 1] (fun _ => ![0, 1 / 2, 0, 1, 0]) L (fun _ => L)
      (Matrix.mulVecLin !![0, 1; 0, 0]).toContinuousLinearMap
      (Matrix.mulVecLin !![0, 1; 0, 0]).toContinuousLinearMap
      (fun x => (Matrix.mulVecLin !![1, 0]).toContinuousLinearMap x 0)
      (fun x => (Matrix.mulVecLin !![1, 0]).toContinuousLinearMap x 0) = 0 := by
  refine C57_element (by norm_num [area2]) (linear_smooth _ _) (linear_smooth _ _)
    (linear_smooth L _) (fun x _ => ?_) (fun x _ => ?_)
  · show Except.ok _ = Except.ok _
    congr 1
    ext i j
    fin_cases i <;> fin_cases j <;>
      simp [jacobian, mixedEps, Matrix.trace, Fin.sum_univ_two, mulVec, dotProduct] <;> norm_num
  · funext j
    fin_cases j <;> simp [jacobian, mixedGradT, mulVec, dotProduct, Fin.sum_univ_two]

/-- C57, concrete instance: whatever smooth mixed variable satisfies the equations of that shear
flow, it is the strain rate and the temperature gradient. -/
example {Q : (Fin 2 → ℝ) → Fin 5 → ℝ} {Q' : (Fin 2 → ℝ) → (Fin 2 → ℝ) →L[ℝ] (Fin 5 → ℝ)}
    (hQ : Smooth (triangle ![0, 0] ![1, 0] ![0, 1]) Q Q')
    (h : ∀ P P', Smooth (triangle ![0, 0] ![1, 0] ![0, 1]) P P' →
      elementForm ![0, 0] ![1, 0] ![0, 1] Q P P'
        (Matrix.mulVecLin !![0, 1; 0, 0]).toContinuousLinearMap
        (Matrix.mulVecLin !![0, 1; 0, 0]).toContinuousLinearMap
        (fun x => (Matrix.mulVecLin !![1, 0]).toContinuousLinearMap x 0)
        (fun x => (Matrix.mulVecLin !![1, 0]).toContinuousLinearMap x 0) = 0) :
    ∀ x ∈ triangle ![0, 0] ![1, 0] ![0, 1], Q x = ![0, 1 / 2, 0, 1, 0] := by
  have hc : Smooth (triangle ![0, 0] ![1, 0] ![0, 1]) (fun _ => (![0, 1 / 2, 0, 1, 0] : Fin 5 → ℝ))
      fun _ => 0 := ⟨fun x _ => hasFDerivAt_const _ _, continuousOn_const⟩
  have hd : Smooth (triangle ![0, 0] ![1, 0] ![0, 1]) (fun x => Q x - ![0, 1 / 2, 0, 1, 0])
      fun x => Q' x - 0 := ⟨fun x hx => (hQ.deriv x hx).sub (hc.deriv x hx), hQ.cont.sub hc.cont⟩
  refine C57_unique (by norm_num [area2]) hQ hc (ContinuousLinearMap.continuous _).continuousOn
    ((continuous_apply 0).comp (ContinuousLinearMap.continuous _)).continuousOn
    ((h _ _ hd).trans (C57_element (by norm_num [area2]) (linear_smooth _ _) (linear_smooth _ _)
      hd (fun x _ => ?_) (fun x _ => ?_)).symm)
  · show Except.ok _ = Except.ok _
    congr 1
    ext i j
    fin_cases i <;> fin_cases j <;>
      simp [jacobian, mixedEps, Matrix.trace, Fin.sum_univ_two, mulVec, dotProduct] <;> norm_num
  · funext j
    fin_cases j <;> simp [jacobian, mixedGradT, mulVec, dotProduct, Fin.sum_univ_two]

end Dream
