import Verif.Props.MixedIntegral
import Verif.Props.TriangulationFlows
import Mathlib.LinearAlgebra.BilinearForm.Properties
import Mathlib.RingTheory.MvPolynomial.Basic
import Mathlib.Algebra.MvPolynomial.Funext

/-!
# C84: the mixed variables on triangulations

The mixed equations determine strain rate and temperature gradient in every triangle, whatever
the velocity, the temperature and their facet values; for polynomial velocities and temperatures
the solution is exact.
-/

noncomputable section

namespace Dream

open Matrix _root_.Spec MeasureTheory

variable {E : Type} [Fintype E] {K : Triangulation E} {R : VolumeRule} {S : SideRule}

/-- A polynomial that vanishes on a triangle vanishes. -/
theorem poly_zero_of_triangle {a b c : Fin 2 → ℝ} (h : 0 < Spec.area2 a b c)
    {p : MvPolynomial (Fin 2) ℝ} (hp : ∀ x ∈ triangle a b c, MvPolynomial.eval x p = 0) : p = 0 := by
  have hne : (interior (triangle a b c)).Nonempty := by
    by_contra hc
    rw [Set.not_nonempty_iff_eq_empty] at hc
    have h1 := triangle_interior h
    rw [hc, closure_empty, Set.subset_empty_iff] at h1
    have h2 : a ∈ triangle a b c := by
      rw [triangle_eq]
      exact ⟨(0, 0), by simp [refTri], by simp [triMap]⟩
    rw [h1] at h2
    exact h2
  obtain ⟨x, hx⟩ := hne
  obtain ⟨r, hr, hb⟩ := Metric.isOpen_iff.1 isOpen_interior x hx
  refine MvPolynomial.funext_set (fun i => Metric.ball (x i) r) (fun i => ?_) fun y hy => ?_
  · rw [Real.ball_eq_Ioo]
    exact Set.Ioo_infinite (by linarith)
  · rw [hp y (interior_subset (hb ?_)), map_zero]
    rw [ball_pi _ hr]
    exact hy

/-- A nonnegative polynomial without integral over a triangle vanishes. -/
theorem poly_zero_of_integral {a b c : Fin 2 → ℝ} (h : 0 < Spec.area2 a b c)
    {p : MvPolynomial (Fin 2) ℝ} (hp : ∀ x, 0 ≤ MvPolynomial.eval x p)
    (hi : triangleIntegral a b c (fun x => MvPolynomial.eval x p) = 0) : p = 0 := by
  have hN : ContinuousOn (fun x => MvPolynomial.eval x p) (triangle a b c) :=
    (poly_continuous p).continuousOn
  have e2 := hi
  rw [triangleIntegral_eq h hN, setIntegral_eq_zero_iff_of_nonneg_ae (.of_forall fun x => hp x)
    (hN.integrableOn_compact (triangle_compact a b c))] at e2
  exact poly_zero_of_triangle h fun x hx =>
    Measure.eqOn_of_ae_eq e2 hN continuousOn_const (triangle_interior h) hx

/-- What the integrals see of five polynomials per triangle. -/
def polyMixed (K : Triangulation E) (R : VolumeRule) (S : SideRule)
    (V : E → Fin 5 → MvPolynomial (Fin 2) ℝ) : MixedTest (E × Fin R.n) ((E × Fin 3) × Fin S.n) where
  val := fun v i => MvPolynomial.eval (K.pos R v) (V v.1 i)
  grad := fun v => Matrix.of fun i j =>
    MvPolynomial.eval (K.pos R v) (MvPolynomial.pderiv j (V v.1 i))
  trace := fun b i => MvPolynomial.eval (K.posB S b) (V b.1.1 i)

/-- The weights of the five components. -/
def mixedWeight : Fin 5 → ℝ := ![1, 2, 1, 1, 1]

theorem mixedWeight_pos (i : Fin 5) : 0 < mixedWeight i := by
  fin_cases i <;> simp [mixedWeight]

theorem mixedForm_split {V B : Type} [Fintype V] [Fintype B] (M : HdgMesh 2 V B)
    (Q : V → Fin 5 → ℝ) (u : V → Fin 2 → ℝ) (T : V → ℝ) (uHat : B → Fin 2 → ℝ) (THat : B → ℝ)
    (P : MixedTest V B) : mixedForm M Q u T uHat THat P
      = ∑ v, M.wV v * ∑ i, mixedWeight i * (Q v i * P.val v i)
        + mixedForm M (fun _ _ => 0) u T uHat THat P := by
  have e : ∀ v, M.wV v * (mixedStrainVolume (Q v) (P.val v) (P.grad v) (u v)
        + mixedHeatVolume (Q v) (P.val v) (P.grad v) (T v))
      = M.wV v * ∑ i, mixedWeight i * (Q v i * P.val v i)
        + M.wV v * (mixedStrainVolume (fun _ => 0) (P.val v) (P.grad v) (u v)
        + mixedHeatVolume (fun _ => 0) (P.val v) (P.grad v) (T v)) := by
    intro v
    simp [mixedStrainVolume, mixedHeatVolume, mixedEps, mixedGradT, dotProduct, Fin.sum_univ_five,
      mixedWeight]
    ring
  rw [mixedForm, mixedForm, Finset.sum_congr rfl fun v _ => e v, Finset.sum_add_distrib]
  ring

theorem mixedForm_add {V B : Type} [Fintype V] [Fintype B] (M : HdgMesh 2 V B)
    (u : V → Fin 2 → ℝ) (T : V → ℝ) (uHat : B → Fin 2 → ℝ) (THat : B → ℝ)
    {P P₁ P₂ : MixedTest V B} (h1 : ∀ v i j, P.grad v i j = P₁.grad v i j + P₂.grad v i j)
    (h2 : ∀ b i, P.trace b i = P₁.trace b i + P₂.trace b i) :
    mixedForm M (fun _ _ => 0) u T uHat THat P = mixedForm M (fun _ _ => 0) u T uHat THat P₁
      + mixedForm M (fun _ _ => 0) u T uHat THat P₂ := by
  have e : ∀ v, M.wV v * (mixedStrainVolume (fun _ => 0) (P.val v) (P.grad v) (u v)
        + mixedHeatVolume (fun _ => 0) (P.val v) (P.grad v) (T v))
      = M.wV v * (mixedStrainVolume (fun _ => 0) (P₁.val v) (P₁.grad v) (u v)
        + mixedHeatVolume (fun _ => 0) (P₁.val v) (P₁.grad v) (T v))
      + M.wV v * (mixedStrainVolume (fun _ => 0) (P₂.val v) (P₂.grad v) (u v)
        + mixedHeatVolume (fun _ => 0) (P₂.val v) (P₂.grad v) (T v)) := by
    intro v
    simp [mixedStrainVolume, mixedHeatVolume, mixedEps, mixedGradT, dotProduct, divDevZeta, divXi,
      h1]
    ring
  have e' : ∀ b, M.wB b * (mixedStrainFacet (P.trace b) (uHat b) (M.normal b)
        + mixedHeatFacet (P.trace b) (THat b) (M.normal b))
      = M.wB b * (mixedStrainFacet (P₁.trace b) (uHat b) (M.normal b)
        + mixedHeatFacet (P₁.trace b) (THat b) (M.normal b))
      + M.wB b * (mixedStrainFacet (P₂.trace b) (uHat b) (M.normal b)
        + mixedHeatFacet (P₂.trace b) (THat b) (M.normal b)) := by
    intro b
    simp [mixedStrainFacet, mixedHeatFacet, devZeta, mixedEps, mixedGradT, Matrix.trace,
      Fin.sum_univ_two, dotProduct, mulVec, h2]
    ring
  simp only [mixedForm]
  rw [Finset.sum_congr rfl fun v _ => e v, Finset.sum_congr rfl fun b _ => e' b,
    Finset.sum_add_distrib, Finset.sum_add_distrib]
  ring

theorem mixedForm_smul {V B : Type} [Fintype V] [Fintype B] (M : HdgMesh 2 V B)
    (u : V → Fin 2 → ℝ) (T : V → ℝ) (uHat : B → Fin 2 → ℝ) (THat : B → ℝ) (r : ℝ)
    {P P₁ : MixedTest V B} (h1 : ∀ v i j, P.grad v i j = r * P₁.grad v i j)
    (h2 : ∀ b i, P.trace b i = r * P₁.trace b i) :
    mixedForm M (fun _ _ => 0) u T uHat THat P = r * mixedForm M (fun _ _ => 0) u T uHat THat P₁ := by
  have e : ∀ v, M.wV v * (mixedStrainVolume (fun _ => 0) (P.val v) (P.grad v) (u v)
        + mixedHeatVolume (fun _ => 0) (P.val v) (P.grad v) (T v))
      = r * (M.wV v * (mixedStrainVolume (fun _ => 0) (P₁.val v) (P₁.grad v) (u v)
        + mixedHeatVolume (fun _ => 0) (P₁.val v) (P₁.grad v) (T v))) := by
    intro v
    simp [mixedStrainVolume, mixedHeatVolume, mixedEps, mixedGradT, dotProduct, divDevZeta, divXi,
      h1]
    ring
  have e' : ∀ b, M.wB b * (mixedStrainFacet (P.trace b) (uHat b) (M.normal b)
        + mixedHeatFacet (P.trace b) (THat b) (M.normal b))
      = r * (M.wB b * (mixedStrainFacet (P₁.trace b) (uHat b) (M.normal b)
        + mixedHeatFacet (P₁.trace b) (THat b) (M.normal b))) := by
    intro b
    simp [mixedStrainFacet, mixedHeatFacet, devZeta, mixedEps, mixedGradT, Matrix.trace,
      Fin.sum_univ_two, dotProduct, mulVec, h2]
    ring
  simp only [mixedForm]
  rw [Finset.sum_congr rfl fun v _ => e v, Finset.sum_congr rfl fun b _ => e' b,
    ← Finset.mul_sum, ← Finset.mul_sum]
  ring

/-- The quadratic part of the mixed form is definite. -/
theorem mixed_definite (hK : K.Conforming) {d : ℕ} (hR : R.Exact d) {order : E → ℕ}
    (ho : ∀ e, 2 * order e ≤ d) {V : E → Fin 5 → MvPolynomial (Fin 2) ℝ}
    (hV : ∀ e i, (V e i).totalDegree ≤ order e)
    (h0 : ∑ v, (K.mesh R S).wV v * ∑ i, mixedWeight i
      * (MvPolynomial.eval (K.pos R v) (V v.1 i) * MvPolynomial.eval (K.pos R v) (V v.1 i)) = 0) :
    ∀ e i, V e i = 0 := by
  set N : E → MvPolynomial (Fin 2) ℝ := fun e => ∑ i, MvPolynomial.C (mixedWeight i) * (V e i * V e i)
    with hN
  have hev : ∀ e x, MvPolynomial.eval x (N e) = ∑ i, mixedWeight i
      * (MvPolynomial.eval x (V e i) * MvPolynomial.eval x (V e i)) := by
    intro e x
    simp [hN]
  have hdeg : ∀ e, (N e).totalDegree ≤ d := by
    intro e
    refine (MvPolynomial.totalDegree_finset_sum _ _).trans (Finset.sup_le fun i _ => ?_)
    refine (MvPolynomial.totalDegree_mul _ _).trans ?_
    have := (MvPolynomial.totalDegree_mul (V e i) (V e i))
    have h1 := hV e i
    have h2 := ho e
    simp only [MvPolynomial.totalDegree_C, zero_add]
    omega
  have hnn : ∀ e x, 0 ≤ MvPolynomial.eval x (N e) := by
    intro e x
    rw [hev]
    exact Finset.sum_nonneg fun i _ => mul_nonneg (mixedWeight_pos i).le (mul_self_nonneg _)
  have hsum : ∑ e, triangleIntegral (K.corner e 0) (K.corner e 1) (K.corner e 2)
      (fun x => MvPolynomial.eval x (N e)) = 0 := by
    rw [← h0, Fintype.sum_prod_type]
    refine Finset.sum_congr rfl fun e _ => ?_
    rw [← volume_exact K hR e (hdeg e)]
    refine Finset.sum_congr rfl fun q _ => ?_
    rw [hev]
    rfl
  have hint : ∀ e, 0 ≤ triangleIntegral (K.corner e 0) (K.corner e 1) (K.corner e 2)
      (fun x => MvPolynomial.eval x (N e)) := by
    intro e
    rw [triangleIntegral_eq (hK.oriented e) (poly_continuous _).continuousOn]
    exact integral_nonneg fun x => hnn e x
  have hz := (Finset.sum_eq_zero_iff_of_nonneg fun e _ => hint e).1 hsum
  intro e i
  have hNe := poly_zero_of_integral (hK.oriented e) (hnn e) (hz e (Finset.mem_univ e))
  refine MvPolynomial.funext fun x => ?_
  have h1 := hev e x
  rw [hNe, map_zero] at h1
  have h2 := (Finset.sum_eq_zero_iff_of_nonneg fun i _ =>
    mul_nonneg (mixedWeight_pos i).le (mul_self_nonneg _)).1 h1.symm i (Finset.mem_univ i)
  rw [map_zero]
  exact mul_self_eq_zero.1 ((mul_eq_zero.1 h2).resolve_left (mixedWeight_pos i).ne')

/-- The finite-dimensional space of the mixed variables. -/
abbrev MixedSpace (order : E → ℕ) : Type :=
  ∀ e : E, Fin 5 → MvPolynomial.restrictTotalDegree (Fin 2) ℝ (order e)

/-- The quadratic part of the mixed form. -/
def mixedBilin (K : Triangulation E) (R : VolumeRule) (S : SideRule) (order : E → ℕ) :
    LinearMap.BilinForm ℝ (MixedSpace order) :=
  LinearMap.mk₂ ℝ (fun Q P => ∑ v, (K.mesh R S).wV v * ∑ i, mixedWeight i
      * (MvPolynomial.eval (K.pos R v) (Q v.1 i).1 * MvPolynomial.eval (K.pos R v) (P v.1 i).1))
    (fun a b c => by
      rw [← Finset.sum_add_distrib]
      refine Finset.sum_congr rfl fun v _ => ?_
      rw [← mul_add, ← Finset.sum_add_distrib]
      congr 1
      exact Finset.sum_congr rfl fun i _ => by simp; ring)
    (fun r a c => by
      rw [smul_eq_mul, Finset.mul_sum]
      refine Finset.sum_congr rfl fun v _ => ?_
      rw [mul_left_comm r]
      congr 1
      rw [Finset.mul_sum]
      exact Finset.sum_congr rfl fun i _ => by simp; ring)
    (fun a b c => by
      rw [← Finset.sum_add_distrib]
      refine Finset.sum_congr rfl fun v _ => ?_
      rw [← mul_add, ← Finset.sum_add_distrib]
      congr 1
      exact Finset.sum_congr rfl fun i _ => by simp; ring)
    (fun r a c => by
      rw [smul_eq_mul, Finset.mul_sum]
      refine Finset.sum_congr rfl fun v _ => ?_
      rw [mul_left_comm r]
      congr 1
      rw [Finset.mul_sum]
      exact Finset.sum_congr rfl fun i _ => by simp; ring)

/-- The part of the mixed form that does not depend on the mixed variables. -/
def mixedLoad (K : Triangulation E) (R : VolumeRule) (S : SideRule) (order : E → ℕ)
    (u : E × Fin R.n → Fin 2 → ℝ) (T : E × Fin R.n → ℝ) (uHat : (E × Fin 3) × Fin S.n → Fin 2 → ℝ)
    (THat : (E × Fin 3) × Fin S.n → ℝ) : Module.Dual ℝ (MixedSpace order) where
  toFun := fun P => mixedForm (K.mesh R S) (fun _ _ => 0) u T uHat THat
    (polyMixed K R S fun e i => (P e i).1)
  map_add' := fun a b => mixedForm_add _ _ _ _ _ (fun v i j => by simp [polyMixed])
    fun b i => by simp [polyMixed]
  map_smul' := fun r a => mixedForm_smul _ _ _ _ _ r (fun v i j => by simp [polyMixed])
    fun b i => by simp [polyMixed]

/-- **C84** The mixed equations are uniquely solvable: on every conforming triangulation, for all
orders and whatever the velocity, the temperature and their facet values, there is exactly one
choice of five polynomials per triangle that satisfies the mixed equations, provided the
quadrature integrates the products of two polynomials exactly. -/
theorem C84_mixed_solvable (hK : K.Conforming) {d : ℕ} (hR : R.Exact d) {order : E → ℕ}
    (ho : ∀ e, 2 * order e ≤ d) (u : E × Fin R.n → Fin 2 → ℝ) (T : E × Fin R.n → ℝ)
    (uHat : (E × Fin 3) × Fin S.n → Fin 2 → ℝ) (THat : (E × Fin 3) × Fin S.n → ℝ) :
    ∃! Q : E → Fin 5 → MvPolynomial (Fin 2) ℝ, (∀ e i, (Q e i).totalDegree ≤ order e) ∧
      ∀ P ∈ K.mixedSpace order R S, mixedForm (K.mesh R S)
        (fun v i => MvPolynomial.eval (K.pos R v) (Q v.1 i)) u T uHat THat P = 0 := by
  have hnd : (mixedBilin K R S order).Nondegenerate := by
    have key : ∀ Q, mixedBilin K R S order Q Q = 0 → Q = 0 := by
      intro Q hQ
      have := mixed_definite (S := S) hK hR ho (V := fun e i => (Q e i).1)
        (fun e i => (MvPolynomial.mem_restrictTotalDegree _ _ _).1 (Q e i).2) hQ
      exact funext fun e => funext fun i => Subtype.ext (this e i)
    exact ⟨fun Q h => key Q (h Q), fun Q h => key Q (h Q)⟩
  refine ⟨fun e i => (((mixedBilin K R S order).toDual hnd).symm
    (-mixedLoad K R S order u T uHat THat) e i).1, ⟨fun e i =>
      (MvPolynomial.mem_restrictTotalDegree _ _ _).1 (Subtype.property _), ?_⟩, ?_⟩
  · rintro _ ⟨V, hV, rfl⟩
    have h := LinearMap.BilinForm.apply_toDual_symm_apply (hB := hnd)
      (-mixedLoad K R S order u T uHat THat)
      (fun e i => ⟨V e i, (MvPolynomial.mem_restrictTotalDegree _ _ _).2 (hV e i)⟩)
    rw [mixedForm_split]
    exact eq_neg_iff_add_eq_zero.1 h
  · rintro Q' ⟨hd, hQ'⟩
    set Q := ((mixedBilin K R S order).toDual hnd).symm (-mixedLoad K R S order u T uHat THat)
    set W : MixedSpace order := fun e i =>
      ⟨Q' e i, (MvPolynomial.mem_restrictTotalDegree _ _ _).2 (hd e i)⟩ with hW
    have hWQ : W = Q := by
      refine ((mixedBilin K R S order).toDual hnd).injective ?_
      rw [LinearEquiv.apply_symm_apply]
      refine LinearMap.ext fun P => ?_
      have h := hQ' _ ⟨fun e i => (P e i).1, fun e i =>
        (MvPolynomial.mem_restrictTotalDegree _ _ _).1 (P e i).2, rfl⟩
      rw [mixedForm_split] at h
      exact eq_neg_iff_add_eq_zero.2 h
    funext e i
    rw [← hWQ]

/-- Strain rate and temperature gradient of polynomial fields. -/
def polyStrainHeat (u : Fin 2 → MvPolynomial (Fin 2) ℝ) (θ : MvPolynomial (Fin 2) ℝ) :
    Fin 5 → MvPolynomial (Fin 2) ℝ :=
  let G := fun k j => MvPolynomial.pderiv j (u k)
  ![G 0 0 - MvPolynomial.C (1 / 3) * (G 0 0 + G 1 1), MvPolynomial.C (1 / 2) * (G 0 1 + G 1 0),
    G 1 1 - MvPolynomial.C (1 / 3) * (G 0 0 + G 1 1), MvPolynomial.pderiv 0 θ,
    MvPolynomial.pderiv 1 θ]

theorem parts_polynomial (hK : K.Conforming) {d m : ℕ} (hR : R.Exact d) (hS : S.Exact (d + 1))
    {order : E → ℕ} (ho : ∀ e, order e + m ≤ d + 1) {f : MvPolynomial (Fin 2) ℝ}
    (hf : f.totalDegree ≤ m) :
    IntegratesByParts (K.mesh R S) (K.pos R) (K.posB S) (K.mixedSpace order R S)
      (fun y => MvPolynomial.eval y f) (fun y j => MvPolynomial.eval y (MvPolynomial.pderiv j f)) := by
  rintro _ ⟨V, hV, rfl⟩ i j
  have h := mesh_divergence hK hR hS (fun e => f * V e i) (fun e =>
    (MvPolynomial.totalDegree_mul _ _).trans (by have := hV e i; have := ho e; omega)) j
  refine Eq.trans (Finset.sum_congr rfl fun v _ => ?_) (h.trans (Finset.sum_congr rfl fun b _ => ?_))
  · congr 1
    simp
    ring
  · simp only [map_mul]
    exact congrArg _ (mul_assoc _ _ _)

/-- **C84** Computed gradients are exact: if velocity and temperature are polynomials whose degree
exceeds the order of the method in no triangle by more than one, and the facet values are their
traces, the solution of the mixed equations is their deviatoric strain rate and temperature
gradient, in all triangles. -/
theorem C84_mixed_exact (hK : K.Conforming) {d m : ℕ} (hR : R.Exact d) (hS : S.Exact (d + 1))
    {order : E → ℕ} (ho : ∀ e, order e + m ≤ d + 1) (ho' : ∀ e, 2 * order e ≤ d)
    (hm : ∀ e, m ≤ order e + 1) {u : Fin 2 → MvPolynomial (Fin 2) ℝ} {θ : MvPolynomial (Fin 2) ℝ}
    (hu : ∀ k, (u k).totalDegree ≤ m) (hθ : θ.totalDegree ≤ m)
    {Q : E → Fin 5 → MvPolynomial (Fin 2) ℝ} (hQ : ∀ e i, (Q e i).totalDegree ≤ order e)
    (hs : ∀ P ∈ K.mixedSpace order R S, mixedForm (K.mesh R S)
        (fun v i => MvPolynomial.eval (K.pos R v) (Q v.1 i))
        (fun v k => MvPolynomial.eval (K.pos R v) (u k))
        (fun v => MvPolynomial.eval (K.pos R v) θ)
        (fun b k => MvPolynomial.eval (K.posB S b) (u k))
        (fun b => MvPolynomial.eval (K.posB S b) θ) P = 0) (e : E) (y : Fin 2 → ℝ) :
    (fun i => MvPolynomial.eval y (Q e i))
      = strainHeat (fun k j => MvPolynomial.eval y (MvPolynomial.pderiv j (u k)))
          (fun j => MvPolynomial.eval y (MvPolynomial.pderiv j θ)) := by
  have hev : ∀ y, (fun i => MvPolynomial.eval y (polyStrainHeat u θ i))
      = strainHeat (fun k j => MvPolynomial.eval y (MvPolynomial.pderiv j (u k)))
          (fun j => MvPolynomial.eval y (MvPolynomial.pderiv j θ)) := by
    intro y
    funext i
    fin_cases i <;> simp [polyStrainHeat, strainHeat] <;> ring
  have hpd : ∀ {p : MvPolynomial (Fin 2) ℝ} (j : Fin 2) (e : E), p.totalDegree ≤ m →
      (MvPolynomial.pderiv j p).totalDegree ≤ order e := by
    intro p j e hp
    have := totalDegree_pderiv_le p j
    have := hm e
    omega
  have hdeg : ∀ e i, (polyStrainHeat u θ i).totalDegree ≤ order e := by
    intro e i
    have hG : ∀ k j, (MvPolynomial.pderiv j (u k)).totalDegree ≤ order e := fun k j =>
      hpd j e (hu k)
    have hC : ∀ (r : ℝ) {p : MvPolynomial (Fin 2) ℝ}, p.totalDegree ≤ order e →
        (MvPolynomial.C r * p).totalDegree ≤ order e := fun r p hp => by
      have := deg_mul (deg_C r 0) hp
      rwa [zero_add] at this
    have hsub : ∀ {p q : MvPolynomial (Fin 2) ℝ}, p.totalDegree ≤ order e →
        q.totalDegree ≤ order e → (p - q).totalDegree ≤ order e := fun hp hq =>
      (MvPolynomial.totalDegree_sub _ _).trans (max_le hp hq)
    fin_cases i
    · exact hsub (hG 0 0) (hC _ (deg_add (hG 0 0) (hG 1 1)))
    · exact hC _ (deg_add (hG 0 1) (hG 1 0))
    · exact hsub (hG 1 1) (hC _ (deg_add (hG 0 0) (hG 1 1)))
    · exact hpd 0 e hθ
    · exact hpd 1 e hθ
  obtain ⟨Q', -, huniq⟩ := C84_mixed_solvable (S := S) hK hR ho'
    (fun v k => MvPolynomial.eval (K.pos R v) (u k)) (fun v => MvPolynomial.eval (K.pos R v) θ)
    (fun b k => MvPolynomial.eval (K.posB S b) (u k)) (fun b => MvPolynomial.eval (K.posB S b) θ)
  have h1 := huniq Q ⟨hQ, hs⟩
  have h2 := huniq (fun _ => polyStrainHeat u θ) ⟨hdeg, fun P hP => by
    have := C80_mixed (K.mesh R S) (K.pos R) (K.posB S) (K.mixedSpace order R S)
      (fun y k => MvPolynomial.eval y (u k)) (fun y => MvPolynomial.eval y θ)
      (fun y => fun k j => MvPolynomial.eval y (MvPolynomial.pderiv j (u k)))
      (fun y j => MvPolynomial.eval y (MvPolynomial.pderiv j θ))
      (fun k => parts_polynomial hK hR hS ho (hu k)) (parts_polynomial hK hR hS ho hθ) hP
    simp only [← hev] at this
    exact this⟩
  rw [h1, ← h2]
  exact hev y

/-- Both theorems apply to the square cut into two triangles, for the order 2, with a shear flow
that is not linear and a quadratic temperature. -/
example (per : Bool) : ∃ (R : VolumeRule) (S : SideRule)
    (Q : Bool → Fin 5 → MvPolynomial (Fin 2) ℝ),
    (∀ e i, (Q e i).totalDegree ≤ 2) ∧
    ∀ e y, (fun i => MvPolynomial.eval y (Q e i))
      = ![0, y 1, 0, 2 * y 0, 0] := by
  obtain ⟨R, hR⟩ := C84_volume_rules 4
  obtain ⟨S, hS⟩ := C84_side_rules 5
  set u : Fin 2 → MvPolynomial (Fin 2) ℝ := ![MvPolynomial.X 1 * MvPolynomial.X 1, 0] with hu
  set θ : MvPolynomial (Fin 2) ℝ := MvPolynomial.C 3 + MvPolynomial.X 0 * MvPolynomial.X 0 with hθ
  obtain ⟨Q, ⟨hQ, hs⟩, -⟩ := C84_mixed_solvable (S := S) (squareMesh_conforming per) hR
    (order := fun _ => 2) (fun _ => le_rfl)
    (fun v k => MvPolynomial.eval ((squareMesh per).pos R v) (u k))
    (fun v => MvPolynomial.eval ((squareMesh per).pos R v) θ)
    (fun b k => MvPolynomial.eval ((squareMesh per).posB S b) (u k))
    (fun b => MvPolynomial.eval ((squareMesh per).posB S b) θ)
  refine ⟨R, S, Q, hQ, fun e y => ?_⟩
  have hx : ∀ i : Fin 2, (MvPolynomial.X i * MvPolynomial.X i : MvPolynomial (Fin 2) ℝ).totalDegree
      ≤ 2 := fun i => deg_mul (deg_X i 0) (deg_X i 0)
  rw [C84_mixed_exact (squareMesh_conforming per) hR hS (m := 2) (order := fun _ => 2)
    (fun _ => by norm_num) (fun _ => by norm_num) (fun _ => by norm_num) (u := u) (θ := θ)
    (fun k => by fin_cases k; exacts [hx 1, by simp [hu]]) (deg_add (deg_C 3 2) (hx 0)) hQ hs e y]
  funext i
  fin_cases i <;> simp [strainHeat, hu, hθ, MvPolynomial.pderiv_X] <;> ring

end Dream
