import Verif.Props.Characteristic

/-!
# C27: incoming and outgoing parts; C35: characteristic variables
-/

namespace Dream
open Matrix Spec

variable {γ rho c : ℝ} {u d : Fin 2 → ℝ} {U : Flow 2}

/-- **C27** Conservative Jacobians: the "incoming", "outgoing" and "absolute" versions are the
negative part, the positive part and the absolute value of the full Jacobian; the two parts
sum to the full Jacobian and their difference is the absolute value. -/
theorem C27_conservative (hγ : 1 < γ) (hr : U.rho = some rho) (hu : U.u = some u)
    (hc : U.c = some c) (r0 : 0 < rho) (c0 : 0 < c) (hd : d 0 ^ 2 + d 1 ^ 2 = 1) :
    ∃ A Ain Aout Aabs, conservativeConvectiveJacobian γ U d none = .ok A ∧
      conservativeConvectiveJacobian γ U d (some "incoming") = .ok Ain ∧
      conservativeConvectiveJacobian γ U d (some "outgoing") = .ok Aout ∧
      conservativeConvectiveJacobian γ U d (some "absolute") = .ok Aabs ∧
      Ain + Aout = A ∧ Aout - Ain = Aabs ∧
      IsFun (fun x => min x 0) A Ain ∧ IsFun (fun x => max x 0) A Aout ∧
      IsFun (fun x => |x|) A Aabs := by
  have hP := Pinv_mul_P (u := u) r0.ne' c0.ne' (γ := γ) (by linarith) hd
  refine ⟨_, _, _, _, consJac_eq hr hu hc id none (by simp),
    consJac_eq hr hu hc (fun x => min x 0) _ (by simp),
    consJac_eq hr hu hc (fun x => max x 0) _ (by simp),
    consJac_eq hr hu hc (fun x => |x|) _ (by simp), ?_, ?_, isFun_conj hP _ _, isFun_conj hP _ _,
    isFun_conj hP _ _⟩
  · rw [conj_add, diagonal_add]
    congr 3; funext i
    exact min_add_max (lams c u d i) 0 |>.trans (add_zero _)
  · rw [conj_sub, diagonal_sub]
    congr 3; funext i
    show max _ 0 - min _ 0 = _
    rw [max_sub_min_eq_abs', sub_zero]

/-- **C27** The same for the primitive Jacobians. -/
theorem C27_primitive (hr : U.rho = some rho) (hu : U.u = some u)
    (hc : U.c = some c) (r0 : 0 < rho) (c0 : 0 < c) (hd : d 0 ^ 2 + d 1 ^ 2 = 1) :
    ∃ A Ain Aout Aabs, primitiveConvectiveJacobian U d none = .ok A ∧
      primitiveConvectiveJacobian U d (some "incoming") = .ok Ain ∧
      primitiveConvectiveJacobian U d (some "outgoing") = .ok Aout ∧
      primitiveConvectiveJacobian U d (some "absolute") = .ok Aabs ∧
      Ain + Aout = A ∧ Aout - Ain = Aabs ∧
      IsFun (fun x => min x 0) A Ain ∧ IsFun (fun x => max x 0) A Aout ∧
      IsFun (fun x => |x|) A Aabs := by
  have hP := Linv_mul_L r0.ne' c0.ne' hd
  refine ⟨_, _, _, _, primJac_eq hr hu hc id none (by simp),
    primJac_eq hr hu hc (fun x => min x 0) _ (by simp),
    primJac_eq hr hu hc (fun x => max x 0) _ (by simp),
    primJac_eq hr hu hc (fun x => |x|) _ (by simp), ?_, ?_, isFun_conj hP _ _, isFun_conj hP _ _,
    isFun_conj hP _ _⟩
  · rw [conj_add, diagonal_add]
    congr 3; funext i
    exact min_add_max (lams c u d i) 0 |>.trans (add_zero _)
  · rw [conj_sub, diagonal_sub]
    congr 3; funext i
    show max _ 0 - min _ 0 = _
    rw [max_sub_min_eq_abs', sub_zero]

theorem posInd_add_negInd (x : ℝ) : negInd x + posInd x = 1 ↔ x ≠ 0 := by
  unfold negInd posInd
  rcases lt_trichotomy x 0 with h | h | h
  · simp [h, h.ne, h.le]
  · simp [h]
  · simp [h, h.ne', h.le]

theorem diag_sum_one {v : Fin 4 → ℝ} :
    diagonal (fun i => negInd (v i)) + diagonal (fun i => posInd (v i)) = 1 ↔ ∀ i, v i ≠ 0 := by
  rw [diagonal_add, ← diagonal_one, diagonal_eq_diagonal_iff]
  exact forall_congr' fun i => posInd_add_negInd (v i)

theorem lams_ne_zero : (∀ i, lams c u d i ≠ 0) ↔
    u ⬝ᵥ d - c ≠ 0 ∧ u ⬝ᵥ d ≠ 0 ∧ u ⬝ᵥ d + c ≠ 0 := by
  constructor
  · intro h; exact ⟨h 0, h 1, h 3⟩
  · rintro ⟨a, b, e⟩ i
    fin_cases i
    · exact a
    · exact b
    · exact b
    · exact e

theorem neg_sq (x : ℝ) : negInd x * negInd x = negInd x := by unfold negInd; split_ifs <;> simp
theorem pos_sq (x : ℝ) : posInd x * posInd x = posInd x := by unfold posInd; split_ifs <;> simp
theorem neg_pos_zero (x : ℝ) : negInd x * posInd x = 0 := by
  unfold negInd posInd; split_ifs with h1 h2 <;> simp; linarith
theorem pos_neg_zero (x : ℝ) : posInd x * negInd x = 0 := by rw [mul_comm, neg_pos_zero]

/-- **C27** The conservative identities are complementary projections onto the incoming and the
outgoing eigenspaces; their sum is the identity exactly if no characteristic velocity is zero. -/
theorem C27_identities (hγ : 1 < γ) (hr : U.rho = some rho) (hu : U.u = some u)
    (hc : U.c = some c) (r0 : 0 < rho) (c0 : 0 < c) (hd : d 0 ^ 2 + d 1 ^ 2 = 1) :
    ∃ A Ain Aout Iin Iout, conservativeConvectiveJacobian γ U d none = .ok A ∧
      conservativeConvectiveJacobian γ U d (some "incoming") = .ok Ain ∧
      conservativeConvectiveJacobian γ U d (some "outgoing") = .ok Aout ∧
      conservativeConvectiveIdentity γ U d (some "incoming") = .ok Iin ∧
      conservativeConvectiveIdentity γ U d (some "outgoing") = .ok Iout ∧
      Iin * Iin = Iin ∧ Iout * Iout = Iout ∧ Iin * Iout = 0 ∧ Iout * Iin = 0 ∧
      Iin * A = Ain ∧ Iout * A = Aout ∧
      (Iin + Iout = 1 ↔ u ⬝ᵥ d - c ≠ 0 ∧ u ⬝ᵥ d ≠ 0 ∧ u ⬝ᵥ d + c ≠ 0) := by
  have hP := Pinv_mul_P (u := u) r0.ne' c0.ne' (γ := γ) (by linarith) hd
  refine ⟨_, _, _, matP γ rho c u d * diagonal (fun i => negInd (lams c u d i)) *
      matPinv γ rho c u d, matP γ rho c u d * diagonal (fun i => posInd (lams c u d i)) *
      matPinv γ rho c u d, consJac_eq hr hu hc id none (by simp),
    consJac_eq hr hu hc (fun x => min x 0) _ (by simp),
    consJac_eq hr hu hc (fun x => max x 0) _ (by simp), ?_, ?_, ?_, ?_, ?_, ?_, ?_, ?_, ?_⟩
  · unfold conservativeConvectiveIdentity
    rw [charId_eq hu hc negInd _ (by simp)]
    exact transCons hr hu hc _
  · unfold conservativeConvectiveIdentity
    rw [charId_eq hu hc posInd _ (by simp)]
    exact transCons hr hu hc _
  · rw [conj_mul hP, diagonal_mul_diagonal]; simp only [neg_sq]
  · rw [conj_mul hP, diagonal_mul_diagonal]; simp only [pos_sq]
  · rw [conj_mul hP, diagonal_mul_diagonal]; simp [neg_pos_zero]
  · rw [conj_mul hP, diagonal_mul_diagonal]; simp [pos_neg_zero]
  · rw [conj_mul hP, diagonal_mul_diagonal]
    congr 3; funext i
    show negInd (lams c u d i) * lams c u d i = min (lams c u d i) 0
    unfold negInd
    split_ifs with h
    · rw [one_mul, min_eq_left h.le]
    · rw [zero_mul, min_eq_right (not_lt.1 h)]
  · rw [conj_mul hP, diagonal_mul_diagonal]
    congr 3; funext i
    show posInd (lams c u d i) * lams c u d i = max (lams c u d i) 0
    unfold posInd
    split_ifs with h
    · rw [one_mul, max_eq_left h.le]
    · rw [zero_mul, max_eq_right (not_lt.1 h)]
  · rw [conj_add, conj_one_iff hP, diag_sum_one, lams_ne_zero]

/-- **C27** Any other type than "incoming" or "outgoing" is refused for the identities. -/
theorem C27_identity_refuses (V : Flow 2) (type : Option String) (h1 : type ≠ some "incoming")
    (h2 : type ≠ some "outgoing") :
    ∃ e, conservativeConvectiveIdentity γ V d type = .error e := by
  unfold conservativeConvectiveIdentity characteristicIdentity
  cases characteristicVelocities V d type with
  | error e => exact ⟨e, rfl⟩
  | ok l =>
    refine ⟨.valueError, ?_⟩
    simp only [bind, Except.bind]

/-- A subsonic state with a zero characteristic velocity: flow parallel to the boundary, so
that `C27_identities` is used in both directions. -/
example : (![1, 0] : Fin 2 → ℝ) ⬝ᵥ ![0, 1] = 0 ∧
    (![3/5, 0] : Fin 2 → ℝ) ⬝ᵥ ![1, 0] - 1 ≠ 0 ∧ (![3/5, 0] : Fin 2 → ℝ) ⬝ᵥ ![1, 0] ≠ 0 ∧
    (![3/5, 0] : Fin 2 → ℝ) ⬝ᵥ ![1, 0] + 1 ≠ 0 := by
  norm_num [dotProduct, Fin.sum_univ_two]

/-- **C35** The characteristic variables are the inverse characteristic matrix applied to the
normal derivative of the primitive variables `(ρ, u, v, p)`. -/
theorem C35_variables {dU : Grads 2} {gr gp : Fin 2 → ℝ} {gu : Matrix (Fin 2) (Fin 2) ℝ}
    (hr : U.rho = some rho) (hc : U.c = some c) (h1 : dU.grad_rho = some gr)
    (h2 : dU.grad_p = some gp) (h3 : dU.grad_u = some gu) :
    ∃ Linv, characteristicFromPrimitive U d = .ok Linv ∧
      characteristicVariables U dU d =
        .ok (Linv *ᵥ ![gr ⬝ᵥ d, gu 0 ⬝ᵥ d, gu 1 ⬝ᵥ d, gp ⬝ᵥ d]) := by
  refine ⟨_, charFromPrim hr hc, ?_⟩
  simp only [characteristicVariables, hr, hc, h1, h2, h3]
  simp only [equation, equationE, bind, Option.bind, Except.ok.injEq]
  funext i
  fin_cases i <;> simp [matLinv, mulVec, dotProduct, Fin.sum_univ_succ] <;> ring

/-- **C35** If the supplied gradients are those of differentiable fields, the primitive vector
above is the derivative along the normal. -/
theorem C35_normal_derivative {n : ℕ} {f : (Fin n → ℝ) → ℝ} {x g e : Fin n → ℝ}
    (hf : DifferentiableAt ℝ f x) (hg : IsGrad f x g) :
    HasDerivAt (fun t : ℝ => f (x + t • e)) (g ⬝ᵥ e) 0 := by
  have hD := hf.hasFDerivAt
  have line (v : Fin n → ℝ) : HasDerivAt (fun t : ℝ => f (x + t • v)) (fderiv ℝ f x v) 0 := by
    have hl : HasDerivAt (fun t : ℝ => x + t • v) v 0 := by
      simpa using ((hasDerivAt_id (0 : ℝ)).smul_const v).const_add x
    have hD' : HasFDerivAt f (fderiv ℝ f x) (x + (0 : ℝ) • v) := by simpa using hD
    have h3 := hD'.comp_hasDerivAt (0 : ℝ) hl
    exact h3
  have hj (j : Fin n) : g j = fderiv ℝ f x (Pi.single j 1) := (hg j).unique (line _)
  have he : e = ∑ j, e j • (Pi.single j 1 : Fin n → ℝ) := by
    funext k; simp [Finset.sum_apply, Pi.single_apply]
  have : g ⬝ᵥ e = fderiv ℝ f x e := by
    conv_rhs => rw [he, map_sum]
    simp only [dotProduct, map_smul, smul_eq_mul, ← hj, mul_comm]
  rw [this]
  exact line e

/-- **C35** The amplitudes are the characteristic velocities, of the requested type, times the
characteristic variables; they are computed exactly if both are. -/
theorem C35_amplitudes (dU : Grads 2) (type : Option String) (a : Fin 4 → ℝ) :
    characteristicAmplitudes U dU d type = .ok a ↔
      ∃ l w, characteristicVelocities U d type = .ok l ∧ characteristicVariables U dU d = .ok w ∧
        ∀ i, a i = l i * w i := by
  unfold characteristicAmplitudes
  by_cases h : U.u.isSome ∧ U.c.isSome
  swap
  · rw [if_neg h]
    have hv : characteristicVelocities U d type = .error .valueError := by
      unfold characteristicVelocities
      cases hu : U.u <;> cases hc : U.c <;> simp_all
    rw [hv]
    cases characteristicVariables U dU d <;> simp [bind, Except.bind]
  rw [if_pos h]
  cases characteristicVelocities U d type with
  | error e => simp [bind, Except.bind]
  | ok l =>
    cases characteristicVariables U dU d with
    | error e => simp [bind, Except.bind]
    | ok w =>
      simp only [bind, Except.bind, Except.ok.injEq]
      constructor
      · rintro rfl; exact ⟨l, w, rfl, rfl, fun i => rfl⟩
      · rintro ⟨l', w', rfl, rfl, h⟩; funext i; exact (h i).symm

/-- **C35** The amplitudes without type are the projection of the quasi-linear flux: `L` times
them is the primitive Jacobian times the normal derivative. -/
theorem C35_amplitudes_flux {dU : Grads 2} {gr gp : Fin 2 → ℝ} {gu : Matrix (Fin 2) (Fin 2) ℝ}
    (hr : U.rho = some rho) (hc : U.c = some c) (hu : U.u = some u) (h1 : dU.grad_rho = some gr)
    (h2 : dU.grad_p = some gp) (h3 : dU.grad_u = some gu) :
    ∃ a A L, characteristicAmplitudes U dU d none = .ok a ∧
      primitiveConvectiveJacobian U d none = .ok A ∧ primitiveFromCharacteristic U d = .ok L ∧
      L *ᵥ a = A *ᵥ ![gr ⬝ᵥ d, gu 0 ⬝ᵥ d, gu 1 ⬝ᵥ d, gp ⬝ᵥ d] := by
  obtain ⟨Linv, h4, h5⟩ := C35_variables (d := d) hr hc h1 h2 h3
  have h6 := charFromPrim (d := d) hr hc
  rw [h6] at h4
  obtain rfl := Except.ok.inj h4
  refine ⟨_, _, _, (C35_amplitudes dU none _).2 ⟨_, _, charVel_eq hu hc id none (by simp), h5,
    fun i => rfl⟩, primJac_eq hr hu hc id none (by simp), primFromChar hr hc, ?_⟩
  rw [← mulVec_mulVec, ← mulVec_mulVec]
  congr 1
  funext i
  simp [mulVec_diagonal]

end Dream
