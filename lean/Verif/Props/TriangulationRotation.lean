import Verif.Props.TriangulationFlows
import Verif.Props.Rotation

/-!
# C84: turned and shifted triangulations
-/

noncomputable section

namespace Dream

open Matrix _root_.Spec

variable {E : Type} [Fintype E] {R : VolumeRule} {S : SideRule}

/-- The triangulation turned by `Q` and shifted by `c`. -/
def Triangulation.move (K : Triangulation E) (Q : Matrix (Fin 2) (Fin 2) ℝ) (c : Fin 2 → ℝ) :
    Triangulation E :=
  { K with corner := fun e i => Q *ᵥ K.corner e i + c }

variable {K : Triangulation E} {Q : Matrix (Fin 2) (Fin 2) ℝ}

theorem rot_entries (hQ : Orthogonal Q) (hd : Q.det = 1) :
    Q 1 1 = Q 0 0 ∧ Q 1 0 = -Q 0 1 ∧ Q 0 0 ^ 2 + Q 0 1 ^ 2 = 1 := by
  have h0 := congrFun (congrFun hQ 0) 0
  have h1 := congrFun (congrFun hQ 1) 1
  simp [Matrix.mul_apply, Fin.sum_univ_two] at h0 h1
  rw [det_fin_two] at hd
  have h2 : (Q 1 1 - Q 0 0) ^ 2 = 0 := by nlinarith [sq_nonneg (Q 1 1 - Q 0 0), sq_nonneg (Q 1 0 + Q 0 1)]
  have h3 : (Q 1 0 + Q 0 1) ^ 2 = 0 := by nlinarith [sq_nonneg (Q 1 1 - Q 0 0), sq_nonneg (Q 1 0 + Q 0 1)]
  have h4 := pow_eq_zero_iff two_ne_zero |>.1 h2
  have h5 := pow_eq_zero_iff two_ne_zero |>.1 h3
  refine ⟨by linarith, by linarith, ?_⟩
  rw [show Q 0 1 = -Q 1 0 by linarith]
  nlinarith

theorem move_start (c : Fin 2 → ℝ) (x : E × Fin 3) :
    (K.move Q c).start x = Q *ᵥ K.start x + c := rfl

theorem move_stop (c : Fin 2 → ℝ) (x : E × Fin 3) :
    (K.move Q c).stop x = Q *ᵥ K.stop x + c := rfl

theorem move_length (hQ : Orthogonal Q) (hd : Q.det = 1) (c : Fin 2 → ℝ) (x : E × Fin 3) :
    (K.move Q c).length x = K.length x := by
  obtain ⟨h1, h2, h3⟩ := rot_entries hQ hd
  rw [Triangulation.length, Triangulation.length, move_start, move_stop]
  congr 1
  simp only [Pi.add_apply, mulVec, dotProduct, Fin.sum_univ_two, h1, h2]
  linear_combination ((K.stop x 0 - K.start x 0) ^ 2 + (K.stop x 1 - K.start x 1) ^ 2) * h3

theorem move_normal (hQ : Orthogonal Q) (hd : Q.det = 1) (c : Fin 2 → ℝ) (x : E × Fin 3) :
    (K.move Q c).normal x = Q *ᵥ K.normal x := by
  obtain ⟨h1, h2, -⟩ := rot_entries hQ hd
  rw [Triangulation.normal, Triangulation.normal, move_length hQ hd, move_start, move_stop]
  funext j
  fin_cases j <;>
    simp [Pi.add_apply, mulVec, dotProduct, Fin.sum_univ_two, h1, h2] <;> ring

theorem move_area2 (hQ : Orthogonal Q) (hd : Q.det = 1) (c : Fin 2 → ℝ) (e : E) :
    (K.move Q c).area2 e = K.area2 e := by
  obtain ⟨h1, h2, h3⟩ := rot_entries hQ hd
  simp only [Triangulation.area2, Spec.area2, Triangulation.move, Pi.add_apply, mulVec, dotProduct,
    Fin.sum_univ_two, h1, h2]
  linear_combination ((K.corner e 1 0 - K.corner e 0 0) * (K.corner e 2 1 - K.corner e 0 1)
    - (K.corner e 2 0 - K.corner e 0 0) * (K.corner e 1 1 - K.corner e 0 1)) * h3

/-- **C84** The turned mesh: weights and regions are the same, the normals are turned. -/
theorem C84_moved_mesh (hQ : Orthogonal Q) (hd : Q.det = 1) (c : Fin 2 → ℝ) :
    (K.move Q c).mesh R S = rotMesh Q (K.mesh R S) := by
  simp only [Triangulation.mesh, rotMesh, move_area2 hQ hd, move_length hQ hd, move_normal hQ hd]
  rfl

theorem move_pos (c : Fin 2 → ℝ) (v : E × Fin R.n) :
    (K.move Q c).pos R v = Q *ᵥ K.pos R v + c := by
  simp only [Triangulation.pos, Triangulation.point, Triangulation.move]
  rw [add_sub_add_right_eq_sub, add_sub_add_right_eq_sub, ← mulVec_sub, ← mulVec_sub,
    ← mulVec_smul, ← mulVec_smul, mulVec_add, mulVec_add]
  abel

theorem move_posB (c : Fin 2 → ℝ) (b : (E × Fin 3) × Fin S.n) :
    (K.move Q c).posB S b = Q *ᵥ K.posB S b + c := by
  simp only [Triangulation.posB, Triangulation.sidePoint, move_start, move_stop]
  rw [add_sub_add_right_eq_sub, ← mulVec_sub, ← mulVec_smul, mulVec_add]
  abel

theorem move_conforming (hQ : Orthogonal Q) (hd : Q.det = 1) (c : Fin 2 → ℝ) (hK : K.Conforming) :
    (K.move Q c).Conforming where
  oriented := fun e => by rw [move_area2 hQ hd]; exact hK.oriented e
  symm := hK.symm
  fits := fun x y h => by
    obtain ⟨v, h1, h2⟩ := hK.fits x y h
    refine ⟨Q *ᵥ v, ?_, ?_⟩
    · rw [move_start, move_stop, h1, mulVec_add]
      abel
    · rw [move_start, move_stop, h2, mulVec_add]
      abel

/-- The polynomials that undo the motion. -/
def unmove (Q : Matrix (Fin 2) (Fin 2) ℝ) (c : Fin 2 → ℝ) (j : Fin 2) : MvPolynomial (Fin 2) ℝ :=
  ∑ k, MvPolynomial.C (Q k j) * (MvPolynomial.X k - MvPolynomial.C (c k))

theorem unmove_degree (c : Fin 2 → ℝ) (j : Fin 2) : (unmove Q c j).totalDegree ≤ 1 := by
  refine (MvPolynomial.totalDegree_finset_sum _ _).trans (Finset.sup_le fun k _ => ?_)
  have h : (MvPolynomial.X k - MvPolynomial.C (c k) : MvPolynomial (Fin 2) ℝ).totalDegree ≤ 1 :=
    (MvPolynomial.totalDegree_sub _ _).trans (max_le (deg_X k 0) (deg_C _ 1))
  have := deg_mul (deg_C (Q k j) 0) h
  rwa [zero_add] at this

theorem unmove_eval (hQ : Orthogonal Q) (c y : Fin 2 → ℝ) (j : Fin 2) :
    MvPolynomial.eval (Q *ᵥ y + c) (unmove Q c j) = y j := by
  have h : Qᵀ *ᵥ (Q *ᵥ y) = y := by rw [mulVec_mulVec, hQ, one_mulVec]
  have h' := congrFun h j
  rw [unmove, map_sum, ← h', mulVec, dotProduct]
  refine Finset.sum_congr rfl fun k _ => ?_
  simp

theorem unmove_comp (hQ : Orthogonal Q) (c y : Fin 2 → ℝ) (p : MvPolynomial (Fin 2) ℝ) :
    MvPolynomial.eval (Q *ᵥ y + c) (MvPolynomial.aeval (unmove Q c) p) = MvPolynomial.eval y p := by
  rw [← MvPolynomial.coe_aeval_eq_eval, ← MvPolynomial.coe_aeval_eq_eval]
  show MvPolynomial.aeval (Q *ᵥ y + c) (MvPolynomial.aeval (unmove Q c) p) = MvPolynomial.aeval y p
  rw [← AlgHom.comp_apply, MvPolynomial.comp_aeval]
  congr 2
  funext j
  exact unmove_eval hQ c y j

theorem unmove_pderiv (c : Fin 2 → ℝ) (j k : Fin 2) :
    MvPolynomial.pderiv j (unmove Q c k) = MvPolynomial.C (Q j k) := by
  simp only [unmove, map_sum, MvPolynomial.pderiv_C_mul, map_sub, MvPolynomial.pderiv_C, sub_zero]
  rw [Finset.sum_eq_single j]
  · simp [MvPolynomial.C_mul']
  · intro b _ hb
    rw [MvPolynomial.pderiv_X_of_ne hb]
    simp
  · simp

/-- The chain rule for polynomials. -/
theorem pderiv_aeval (g : Fin 2 → MvPolynomial (Fin 2) ℝ) (p : MvPolynomial (Fin 2) ℝ) (j : Fin 2) :
    MvPolynomial.pderiv j (MvPolynomial.aeval g p)
      = ∑ k, MvPolynomial.aeval g (MvPolynomial.pderiv k p) * MvPolynomial.pderiv j (g k) := by
  induction p using MvPolynomial.induction_on with
  | C a => simp [MvPolynomial.algebraMap_eq]
  | add p q hp hq => simp [hp, hq, add_mul, Finset.sum_add_distrib]
  | mul_X p n hp =>
    simp only [map_mul, Derivation.leibniz, MvPolynomial.aeval_X, smul_eq_mul, hp, map_add, add_mul,
      Finset.sum_add_distrib, Finset.mul_sum]
    congr 1
    · rw [Finset.sum_eq_single n]
      · simp
      · intro b _ hb
        rw [MvPolynomial.pderiv_X_of_ne hb.symm]
        simp
      · simp
    · refine Finset.sum_congr rfl fun k _ => ?_
      ring

theorem unmove_grad (hQ : Orthogonal Q) (c y : Fin 2 → ℝ) (p : MvPolynomial (Fin 2) ℝ) (j : Fin 2) :
    MvPolynomial.eval (Q *ᵥ y + c) (MvPolynomial.pderiv j (MvPolynomial.aeval (unmove Q c) p))
      = ∑ k, MvPolynomial.eval y (MvPolynomial.pderiv k p) * Q j k := by
  rw [pderiv_aeval, map_sum]
  refine Finset.sum_congr rfl fun k _ => ?_
  rw [map_mul, unmove_comp hQ, unmove_pderiv, MvPolynomial.eval_C]

theorem move_space_subset (hQ : Orthogonal Q) (c : Fin 2 → ℝ) (order : E → ℕ)
    (orderHat : E × Fin 3 → ℕ) :
    rotTest Q '' K.space 4 order orderHat R S ⊆ (K.move Q c).space 4 order orderHat R S := by
  rintro _ ⟨_, ⟨φ, rfl⟩, rfl⟩
  have hdeg : ∀ e i, (∑ l, MvPolynomial.C (rotM Q i l)
      * MvPolynomial.aeval (unmove Q c) (φ.V e l)).totalDegree ≤ order e := by
    intro e i
    refine (MvPolynomial.totalDegree_finset_sum _ _).trans (Finset.sup_le fun l _ => ?_)
    have := deg_mul (deg_C (rotM Q i l) 0)
      ((totalDegree_aeval_le (φ.V e l) (unmove Q c) (unmove_degree c)).trans (φ.degree e l))
    rwa [zero_add] at this
  refine ⟨⟨fun e i => ∑ l, MvPolynomial.C (rotM Q i l) * MvPolynomial.aeval (unmove Q c) (φ.V e l),
    fun x i => ∑ l, Polynomial.C (rotM Q i l) * φ.hat x l, hdeg, fun x i => ?_,
    fun x y h i => ?_⟩, ?_⟩
  · refine Polynomial.natDegree_sum_le_of_forall_le _ _ fun l _ => ?_
    refine Polynomial.natDegree_mul_le.trans ?_
    simpa using φ.degreeHat x l
  · simp only [Polynomial.sum_comp, Polynomial.mul_comp, Polynomial.C_comp]
    exact Finset.sum_congr rfl fun l _ => by rw [φ.single x y h l]
  · simp only [PolyTest.toTest, rotTest, HdgTest.mk.injEq]
    refine ⟨?_, ?_, ?_, ?_⟩
    · funext v
      ext i j
      rw [rotFlux_eq, Matrix.mul_apply, Matrix.of_apply, move_pos]
      simp only [map_sum, MvPolynomial.pderiv_C_mul, Matrix.mul_apply, Matrix.transpose_apply,
        Matrix.of_apply, Finset.sum_mul]
      rw [Finset.sum_comm]
      refine Finset.sum_congr rfl fun l _ => ?_
      rw [map_mul, MvPolynomial.eval_C, unmove_grad hQ, Finset.mul_sum]
      exact Finset.sum_congr rfl fun k _ => (mul_assoc _ _ _).symm
    · funext v i
      rw [rotVec_eq, move_pos, map_sum, mulVec, dotProduct]
      exact Finset.sum_congr rfl fun l _ => by rw [map_mul, MvPolynomial.eval_C, unmove_comp hQ]
    · funext b i
      rw [rotVec_eq, move_posB, map_sum, mulVec, dotProduct]
      exact Finset.sum_congr rfl fun l _ => by rw [map_mul, MvPolynomial.eval_C, unmove_comp hQ]
    · funext b i
      rw [rotVec_eq, Polynomial.eval_finset_sum, mulVec, dotProduct]
      exact Finset.sum_congr rfl fun l _ => by rw [Polynomial.eval_mul, Polynomial.eval_C]

theorem rotTest_back (hQ : Orthogonal Q) {V B : Type} (φ : HdgTest 2 4 V B) :
    rotTest Q (rotTest Qᵀ φ) = φ := by
  have hM : rotM Q * rotM Qᵀ = 1 := by
    rw [rotM_transpose]
    exact mul_eq_one_comm.1 (rotM_orthogonal hQ)
  have hv : ∀ w : Fin 4 → ℝ, rotVec Q (rotVec Qᵀ w) = w := by
    intro w
    rw [rotVec_eq, rotVec_eq, mulVec_mulVec, hM, one_mulVec]
  have hF : ∀ F : Matrix (Fin 4) (Fin 2) ℝ, rotFlux Q (rotFlux Qᵀ F) = F := by
    intro F
    rw [rotFlux_eq, rotFlux_eq, Matrix.transpose_transpose]
    have : rotM Q * (rotM Qᵀ * F * Q) * Qᵀ = (rotM Q * rotM Qᵀ) * F * (Q * Qᵀ) := by
      simp only [Matrix.mul_assoc]
    rw [this, hM, hQ.symm, Matrix.one_mul, Matrix.mul_one]
  cases φ
  simp only [rotTest, hv, hF]

theorem move_back (hQ : Orthogonal Q) (c : Fin 2 → ℝ) :
    (K.move Q c).move Qᵀ (-(Qᵀ *ᵥ c)) = K := by
  cases K
  simp only [Triangulation.move, Triangulation.mk.injEq, and_self, and_true]
  funext e i
  rw [mulVec_add, mulVec_mulVec, hQ, one_mulVec]
  abel

/-- **C84** The test functions on the turned mesh are the turned test functions. -/
theorem C84_moved_space (hQ : Orthogonal Q) (c : Fin 2 → ℝ) (order : E → ℕ)
    (orderHat : E × Fin 3 → ℕ) :
    (K.move Q c).space 4 order orderHat R S = rotTest Q '' K.space 4 order orderHat R S := by
  refine Set.Subset.antisymm (fun φ hφ => ?_) (move_space_subset hQ c order orderHat)
  have hQ' : Orthogonal Qᵀ := by
    rw [Orthogonal, Matrix.transpose_transpose]
    exact hQ.symm
  have h := move_space_subset (R := R) (S := S) hQ' (K := K.move Q c) (-(Qᵀ *ᵥ c)) order orderHat
    ⟨φ, hφ, rfl⟩
  rw [move_back hQ] at h
  exact ⟨_, h, rotTest_back hQ φ⟩

/-- **C84** Position and orientation of the mesh do not matter: on the mesh turned by `Q` and
shifted by `c`, with the same boundary conditions, the turned states satisfy the discrete
equations of a time step exactly when the given states satisfy them on the given mesh. -/
theorem C84_moved (hQ : Orthogonal Q) (hd : Q.det = 1) (c : Fin 2 → ℝ) (bcs : Conditions)
    (order : E → ℕ) (orderHat : E × Fin 3 → ℕ) (s : Scheme) (dt : ℝ) (t : ℚ)
    (x cur prev : HdgState 2 4 (E × Fin R.n) ((E × Fin 3) × Fin S.n)) :
    hdgStep ((K.move Q c).mesh R S) (((K.move Q c).mesh R S).mask bcs)
        ((K.move Q c).space 4 order orderHat R S) (s.quotient dt) t (rotState Q x)
        (rotState Q cur) (rotState Q prev) ↔
      hdgStep (K.mesh R S) ((K.mesh R S).mask bcs) (K.space 4 order orderHat R S)
        (s.quotient dt) t x cur prev := by
  rw [C84_moved_space hQ, C84_moved_mesh hQ hd]
  exact C76_step hQ (K.mesh R S) ((K.mesh R S).mask bcs) (K.space 4 order orderHat R S) s dt t x cur
    prev

/-- C84, concrete instance: the square turned by a quarter and shifted. -/
example (per : Bool) : ((squareMesh per).move !![0, -1; 1, 0] ![3, 0]).Conforming
    ∧ ((squareMesh per).move !![0, -1; 1, 0] ![3, 0]).Covered (squareConditions per)
    ∧ ((squareMesh per).move !![0, -1; 1, 0] ![3, 0]) ≠ squareMesh per := by
  have hQ : Orthogonal !![(0 : ℝ), -1; 1, 0] := by
    rw [Orthogonal]
    ext i j
    fin_cases i <;> fin_cases j <;> simp [Matrix.mul_apply, Fin.sum_univ_two]
  refine ⟨move_conforming hQ (by simp [det_fin_two]) _ (squareMesh_conforming per),
    ⟨(squareMesh_covered per).nodup, (squareMesh_covered per).boundary,
      (squareMesh_covered per).interior⟩, fun h => ?_⟩
  have h1 := congrArg (fun K => K.corner false 0 0) h
  cases per <;> simp [Triangulation.move, squareMesh, mulVec, dotProduct, Fin.sum_univ_two] at h1

end Dream
