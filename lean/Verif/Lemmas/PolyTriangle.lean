import Verif.Lemmas.Triangle
import Verif.Model.Triangulation
import Mathlib.RingTheory.Polynomial.Basic
import Mathlib.Analysis.Calculus.FDeriv.Mul
import Mathlib.Analysis.Calculus.FDeriv.Pi
import Mathlib.Analysis.Calculus.FDeriv.Add
import Mathlib.Topology.Algebra.MvPolynomial

/-!
# Quadrature of polynomials on triangles
-/

noncomputable section

namespace Dream

open Matrix Spec

/-- Substituting polynomials of degree at most one does not increase the degree. -/
theorem totalDegree_aeval_le {σ τ : Type} (p : MvPolynomial σ ℝ) (g : σ → MvPolynomial τ ℝ)
    (hg : ∀ i, (g i).totalDegree ≤ 1) : (MvPolynomial.aeval g p).totalDegree ≤ p.totalDegree := by
  rw [MvPolynomial.aeval_def, MvPolynomial.eval₂_eq]
  refine (MvPolynomial.totalDegree_finsetSum _ _).trans (Finset.sup_le fun d hd => ?_)
  refine (MvPolynomial.totalDegree_mul _ _).trans ?_
  rw [MvPolynomial.algebraMap_eq, MvPolynomial.totalDegree_C, zero_add]
  refine (MvPolynomial.totalDegree_finsetProd _ _).trans ?_
  refine le_trans (Finset.sum_le_sum fun i _ => ?_) (MvPolynomial.le_totalDegree hd)
  exact (MvPolynomial.totalDegree_pow _ _).trans (by nlinarith [hg i])

theorem totalDegree_pderiv_le {σ : Type} (p : MvPolynomial σ ℝ) (j : σ) :
    (MvPolynomial.pderiv j p).totalDegree ≤ p.totalDegree - 1 := by
  classical
  rw [MvPolynomial.totalDegree]
  refine Finset.sup_le fun m hm => ?_
  have h1 : m + Finsupp.single j 1 ∈ p.support := by
    rw [MvPolynomial.mem_support_iff] at hm ⊢
    intro h
    rw [MvPolynomial.coeff_pderiv, h] at hm
    simp at hm
  have h2 := MvPolynomial.le_totalDegree h1
  rw [Finsupp.sum_add_index' (by simp) (by simp), Finsupp.sum_single_index (by simp)] at h2
  omega

/-- The derivative of a polynomial function. -/
def polyDeriv (p : MvPolynomial (Fin 2) ℝ) (x : Fin 2 → ℝ) : (Fin 2 → ℝ) →L[ℝ] ℝ :=
  ∑ j, MvPolynomial.eval x (MvPolynomial.pderiv j p) • ContinuousLinearMap.proj j

theorem polyDeriv_single (p : MvPolynomial (Fin 2) ℝ) (x : Fin 2 → ℝ) (j : Fin 2) :
    polyDeriv p x (Pi.single j 1) = MvPolynomial.eval x (MvPolynomial.pderiv j p) := by
  fin_cases j <;> simp [polyDeriv, Fin.sum_univ_two]

theorem poly_hasFDerivAt (p : MvPolynomial (Fin 2) ℝ) (x : Fin 2 → ℝ) :
    HasFDerivAt (fun y => MvPolynomial.eval y p) (polyDeriv p x) x := by
  induction p using MvPolynomial.induction_on with
  | C a =>
    have : polyDeriv (MvPolynomial.C a) x = 0 := by simp [polyDeriv]
    rw [this]
    simpa using hasFDerivAt_const a x
  | add p q hp hq =>
    have : polyDeriv (p + q) x = polyDeriv p x + polyDeriv q x := by
      simp [polyDeriv, add_smul, Finset.sum_add_distrib]
    rw [this]
    have e : (fun y : Fin 2 → ℝ => MvPolynomial.eval y (p + q))
        = (fun y => MvPolynomial.eval y p) + fun y => MvPolynomial.eval y q := by
      funext y; simp
    rw [e]
    exact hp.add hq
  | mul_X p i hp =>
    have h := hp.mul (hasFDerivAt_apply (𝕜 := ℝ) i x)
    have e : polyDeriv (p * MvPolynomial.X i) x
        = MvPolynomial.eval x p • ContinuousLinearMap.proj (R := ℝ) (φ := fun _ : Fin 2 => ℝ) i
          + x i • polyDeriv p x := by
      ext v
      fin_cases i <;>
        simp [polyDeriv, Fin.sum_univ_two, MvPolynomial.pderiv_mul, MvPolynomial.pderiv_X] <;> ring
    have e' : (fun y : Fin 2 → ℝ => MvPolynomial.eval y (p * MvPolynomial.X i))
        = (fun y => MvPolynomial.eval y p) * fun y => y i := by
      funext y; simp
    rw [e, e']
    exact h

theorem poly_continuous (p : MvPolynomial (Fin 2) ℝ) :
    Continuous fun y : Fin 2 → ℝ => MvPolynomial.eval y p := MvPolynomial.continuous_eval p

theorem polyDeriv_continuous (p : MvPolynomial (Fin 2) ℝ) : Continuous (polyDeriv p) := by
  unfold polyDeriv
  exact continuous_finset_sum _ fun j _ => (poly_continuous _).smul continuous_const

variable {E : Type} (K : Triangulation E)

/-- The rule on the triangle integrates polynomials exactly. -/
theorem volume_exact {R : VolumeRule} {d : ℕ} (hR : R.Exact d) (e : E)
    {p : MvPolynomial (Fin 2) ℝ} (hp : p.totalDegree ≤ d) :
    ∑ q, K.area2 e * R.w q * MvPolynomial.eval (K.point e (R.pt q)) p
      = triangleIntegral (K.corner e 0) (K.corner e 1) (K.corner e 2)
          fun x => MvPolynomial.eval x p := by
  set g : Fin 2 → MvPolynomial (Fin 2) ℝ := fun i => MvPolynomial.C (K.corner e 0 i)
    + MvPolynomial.C (K.corner e 1 i - K.corner e 0 i) * MvPolynomial.X 0
    + MvPolynomial.C (K.corner e 2 i - K.corner e 0 i) * MvPolynomial.X 1 with hg
  have hdeg : ∀ i, (g i).totalDegree ≤ 1 := by
    intro i
    have h1 : ∀ (r : ℝ) (j : Fin 2),
        (MvPolynomial.C r * MvPolynomial.X j : MvPolynomial (Fin 2) ℝ).totalDegree ≤ 1 := by
      intro r j
      refine (MvPolynomial.totalDegree_mul _ _).trans ?_
      simp
    refine (MvPolynomial.totalDegree_add _ _).trans (max_le ?_ (h1 _ _))
    exact (MvPolynomial.totalDegree_add _ _).trans (max_le (by simp) (h1 _ _))
  have hev : ∀ v : Fin 2 → ℝ, MvPolynomial.eval v (MvPolynomial.aeval g p)
      = MvPolynomial.eval (K.point e v) p := by
    intro v
    rw [← MvPolynomial.coe_aeval_eq_eval, ← MvPolynomial.coe_aeval_eq_eval]
    show MvPolynomial.aeval v (MvPolynomial.aeval g p) = MvPolynomial.aeval (K.point e v) p
    rw [← AlgHom.comp_apply, MvPolynomial.comp_aeval]
    congr 2
    funext i
    simp [hg, Triangulation.point]
    ring
  have h := hR _ ((totalDegree_aeval_le p g hdeg).trans hp)
  simp only [hev] at h
  simp only [mul_assoc, ← Finset.mul_sum]
  rw [h, triangleIntegral, Triangulation.area2]
  rfl

/-- The restriction of a polynomial to a side. -/
theorem exists_sidePoly (x : E × Fin 3) (p : MvPolynomial (Fin 2) ℝ) :
    ∃ r : Polynomial ℝ, r.natDegree ≤ p.totalDegree ∧
      ∀ s, r.eval s = MvPolynomial.eval (K.sidePoint x s) p := by
  refine ⟨MvPolynomial.aeval (fun i => Polynomial.C (K.start x i)
    + Polynomial.C (K.stop x i - K.start x i) * Polynomial.X) p, ?_, ?_⟩
  · have := MvPolynomial.aeval_natDegree_le (m := p.totalDegree) (n := 1) p le_rfl
      (fun i => Polynomial.C (K.start x i) + Polynomial.C (K.stop x i - K.start x i) * Polynomial.X)
      (fun i => by
        rw [add_comm]
        exact Polynomial.natDegree_linear_le)
    simpa using this
  · intro s
    rw [← Polynomial.coe_aeval_eq_eval, ← MvPolynomial.coe_aeval_eq_eval]
    show Polynomial.aeval s (MvPolynomial.aeval _ p) = MvPolynomial.aeval _ p
    rw [← AlgHom.comp_apply, MvPolynomial.comp_aeval]
    congr 2
    funext i
    simp [Triangulation.sidePoint]
    ring

/-- The rule on the segment integrates polynomials exactly. -/
theorem side_exact {S : SideRule} {d : ℕ} (hS : S.Exact d) (x : E × Fin 3)
    {p : MvPolynomial (Fin 2) ℝ} (hp : p.totalDegree ≤ d) :
    ∑ q, S.w q * MvPolynomial.eval (K.sidePoint x (S.pt q)) p
      = segmentMean (K.start x) (K.stop x) fun y => MvPolynomial.eval y p := by
  obtain ⟨r, hr, he⟩ := exists_sidePoly K x p
  have h := hS r (hr.trans hp)
  simp only [he] at h
  rw [h]
  rfl

theorem length_pos (hK : K.Conforming) (x : E × Fin 3) : 0 < K.length x := by
  rw [Triangulation.length]
  refine Real.sqrt_pos.2 ?_
  have ho := hK.oriented x.1
  rw [Triangulation.area2, Spec.area2] at ho
  by_contra hle
  have h0 : K.stop x 0 - K.start x 0 = 0 := by nlinarith [sq_nonneg (K.stop x 0 - K.start x 0), sq_nonneg (K.stop x 1 - K.start x 1)]
  have h1 : K.stop x 1 - K.start x 1 = 0 := by nlinarith [sq_nonneg (K.stop x 0 - K.start x 0), sq_nonneg (K.stop x 1 - K.start x 1)]
  obtain ⟨e, i⟩ := x
  simp only [Triangulation.stop, Triangulation.start] at h0 h1
  simp only at ho
  fin_cases i
  · simp at h0 h1
    rw [h0, h1] at ho
    simp at ho
  · simp at h0 h1
    rw [sub_eq_zero.1 h0, sub_eq_zero.1 h1] at ho
    linarith
  · simp at h0 h1
    rw [← sub_eq_zero.1 h0, ← sub_eq_zero.1 h1] at ho
    linarith

theorem normal_unit (hK : K.Conforming) (x : E × Fin 3) :
    K.normal x 0 ^ 2 + K.normal x 1 ^ 2 = 1 := by
  have hl := length_pos K hK x
  have hs : K.length x ^ 2 = (K.stop x 0 - K.start x 0) ^ 2 + (K.stop x 1 - K.start x 1) ^ 2 :=
    Real.sq_sqrt (by positivity)
  simp only [Triangulation.normal, cons_val_zero, cons_val_one]
  field_simp
  linear_combination -hs

theorem length_normal (hK : K.Conforming) (x : E × Fin 3) (j : Fin 2) :
    K.length x * K.normal x j = scaledNormal (K.start x) (K.stop x) j := by
  have hl := (length_pos K hK x).ne'
  fin_cases j <;> simp [Triangulation.normal, scaledNormal] <;> field_simp

/-- The divergence theorem for a polynomial on one triangle, with quadrature. -/
theorem element_divergence (hK : K.Conforming) {R : VolumeRule} {S : SideRule} {d : ℕ}
    (hR : R.Exact d) (hS : S.Exact (d + 1)) (e : E) {p : MvPolynomial (Fin 2) ℝ}
    (hp : p.totalDegree ≤ d + 1) (j : Fin 2) :
    ∑ q, K.area2 e * R.w q * MvPolynomial.eval (K.point e (R.pt q)) (MvPolynomial.pderiv j p)
      = ∑ i, ∑ q, K.length (e, i) * S.w q *
          (MvPolynomial.eval (K.sidePoint (e, i) (S.pt q)) p * K.normal (e, i) j) := by
  rw [volume_exact K hR e (by have := totalDegree_pderiv_le p j; omega)]
  have h := triangle_component (a := K.corner e 0) (b := K.corner e 1) (c := K.corner e 2)
    (f := fun y => MvPolynomial.eval y p) (f' := polyDeriv p) (fun x _ => poly_hasFDerivAt p x)
    (polyDeriv_continuous p).continuousOn j
  simp only [polyDeriv_single] at h
  rw [h]
  have hs : ∀ i, ∑ q, K.length (e, i) * S.w q *
      (MvPolynomial.eval (K.sidePoint (e, i) (S.pt q)) p * K.normal (e, i) j)
      = scaledNormal (K.start (e, i)) (K.stop (e, i)) j
        * segmentMean (K.start (e, i)) (K.stop (e, i)) fun y => MvPolynomial.eval y p := by
    intro i
    rw [← side_exact K hS (e, i) hp, ← length_normal K hK, Finset.mul_sum]
    exact Finset.sum_congr rfl fun q _ => by ring
  simp only [hs, Fin.sum_univ_three]
  rfl

end Dream
