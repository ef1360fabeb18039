import Verif.Props.TriangulationFlows
import Verif.Props.Units

/-!
# C84: changes of units on triangulations
-/

noncomputable section

namespace Dream

open Matrix Spec

variable {E : Type} [Fintype E] {K : Triangulation E} {R : VolumeRule} {S : SideRule}

/-- **C84** The test space of a triangulation is a product of one space per component, with
independent facet functions on different boundary regions, also if there are periodic
boundaries. -/
theorem C84_components {bcs : Conditions} (hK : K.Conforming) (hc : K.Covered bcs)
    (order : E → ℕ) (orderHat : E × Fin 3 → ℕ) :
    ComponentSpace (K.mesh R S) bcs (K.space 4 order orderHat R S) := by
  classical
  rintro a c hone _ ⟨φ, rfl⟩
  refine ⟨⟨fun e i => MvPolynomial.C (a i) * φ.V e i,
    fun x i => Polynomial.C ((if K.across x = none then c (K.region x) else 1) * a i) * φ.hat x i,
    fun e i => ?_, fun x i => ?_, fun x y h i => ?_⟩, ?_⟩
  · refine (MvPolynomial.totalDegree_mul _ _).trans ?_
    simpa using φ.degree e i
  · refine Polynomial.natDegree_mul_le.trans ?_
    simpa using φ.degreeHat x i
  · rw [if_neg (by rw [hK.symm x y h]; exact Option.some_ne_none _),
      if_neg (by rw [h]; exact Option.some_ne_none _), φ.single x y h i,
      Polynomial.mul_comp, Polynomial.C_comp]
  · have hhat : ∀ b : (E × Fin 3) × Fin S.n,
        (if K.across b.1 = none then c (K.region b.1) else 1) = c (K.region b.1) := by
      intro b
      split_ifs with h
      · rfl
      · exact (hone b (hc.mask_one (R := R) b h)).symm
    simp only [PolyTest.toTest, scaleTest, HdgTest.mk.injEq]
    refine ⟨?_, ?_, ?_, ?_⟩
    · funext v
      ext i j
      simp [MvPolynomial.pderiv_C_mul]
    · funext v i
      simp
    · funext b i
      simp
    · funext b i
      simp only [Polynomial.eval_mul, Polynomial.eval_C, hhat b]
      exact mul_assoc _ _ _

/-- **C84** On a triangulation, the discrete equations of a time step hold in one system of units
exactly when they hold in every other. -/
theorem C84_units {bcs : Conditions} (hK : K.Conforming) (hc : K.Covered bcs)
    {order : E → ℕ} {orderHat : E × Fin 3 → ℕ} {s : ℝ} (hs : 0 < s) {κ : Option Name → ℝ}
    (hκ : ∀ r, 0 < κ r) (sch : Scheme) (dt : ℝ) (t t' : ℚ)
    {x : HdgState 2 4 (E × Fin R.n) ((E × Fin 3) × Fin S.n)}
    (cur prev : HdgState 2 4 (E × Fin R.n) ((E × Fin 3) × Fin S.n))
    (hR : ∀ b, K.across b.1 ≠ none → x.R b = 0) :
    hdgStep (K.mesh R S) ((K.mesh R S).mask bcs) (K.space 4 order orderHat R S)
        (sch.quotient (dt / s)) t' (scaleState s (fun b => κ (K.region b.1)) x)
        (scaleState s (fun b => κ (K.region b.1)) cur)
        (scaleState s (fun b => κ (K.region b.1)) prev) ↔
      hdgStep (K.mesh R S) ((K.mesh R S).mask bcs) (K.space 4 order orderHat R S)
        (sch.quotient dt) t x cur prev :=
  C77_step hs hκ (K.mesh R S) bcs (C84_components hK hc order orderHat) sch dt t t' cur prev
    fun b hb => hR b fun h => by
      rw [hc.mask_zero (R := R) b h] at hb
      exact zero_ne_one hb

/-- C84, concrete instance: the periodic channel of two triangles. -/
example (R : VolumeRule) (S : SideRule) :
    ComponentSpace ((squareMesh true).mesh R S) (squareConditions true)
      ((squareMesh true).space 4 (fun _ => 3) (fun _ => 3) R S) :=
  C84_components (squareMesh_conforming true) (squareMesh_covered true) _ _

end Dream
