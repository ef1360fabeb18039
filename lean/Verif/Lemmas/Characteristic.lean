import Verif.Model.Characteristic
import Verif.Lemmas.Bla
import Verif.Lemmas.Flow
import Mathlib.Tactic.LinearCombination

namespace Dream
open Matrix Spec

variable {γ rho c : ℝ} {u d : Fin 2 → ℝ}

theorem lamVec_two (a b c : ℝ) : lamVec 2 a b c = ![a, b, b, c] := by
  ext i; fin_cases i <;> rfl

theorem M_mul_Minv (hr : rho ≠ 0) (hγ : γ - 1 ≠ 0) : matM γ rho u * matMinv γ rho u = 1 := by
  ext i j
  fin_cases i <;> fin_cases j <;>
    simp [matM, matMinv, Matrix.mul_apply, Fin.sum_univ_succ, dotProduct] <;>
    field_simp <;> ring

theorem L_mul_Linv (hr : rho ≠ 0) (hc : c ≠ 0) (hd : d 0 ^ 2 + d 1 ^ 2 = 1) :
    matL rho c d * matLinv rho c d = 1 := by
  ext i j
  fin_cases i <;> fin_cases j <;>
    simp [matL, matLinv, Matrix.mul_apply, Fin.sum_univ_succ] <;> field_simp <;>
    first
    | ring1
    | linear_combination 2 * hd

theorem P_eq (hr : rho ≠ 0) (hc : c ≠ 0) : matP γ rho c u d = matM γ rho u * matL rho c d := by
  ext i j
  fin_cases i <;> fin_cases j <;>
    simp [matM, matL, matP, Matrix.mul_apply, Fin.sum_univ_succ, dotProduct] <;>
    field_simp <;> ring

theorem Pinv_eq (hr : rho ≠ 0) :
    matPinv γ rho c u d = matLinv rho c d * matMinv γ rho u := by
  ext i j
  fin_cases i <;> fin_cases j <;>
    simp [matMinv, matLinv, matPinv, Matrix.mul_apply, Fin.sum_univ_succ, dotProduct] <;>
    field_simp <;> ring

theorem Minv_mul_M (hr : rho ≠ 0) (hγ : γ - 1 ≠ 0) : matMinv γ rho u * matM γ rho u = 1 :=
  mul_eq_one_comm.1 (M_mul_Minv hr hγ)

theorem Linv_mul_L (hr : rho ≠ 0) (hc : c ≠ 0) (hd : d 0 ^ 2 + d 1 ^ 2 = 1) :
    matLinv rho c d * matL rho c d = 1 := mul_eq_one_comm.1 (L_mul_Linv hr hc hd)

theorem P_mul_Pinv (hr : rho ≠ 0) (hc : c ≠ 0) (hγ : γ - 1 ≠ 0) (hd : d 0 ^ 2 + d 1 ^ 2 = 1) :
    matP γ rho c u d * matPinv γ rho c u d = 1 := by
  rw [P_eq hr hc, Pinv_eq hr, Matrix.mul_assoc, ← Matrix.mul_assoc (matL _ _ _),
    L_mul_Linv hr hc hd, Matrix.one_mul, M_mul_Minv hr hγ]

theorem Pinv_mul_P (hr : rho ≠ 0) (hc : c ≠ 0) (hγ : γ - 1 ≠ 0) (hd : d 0 ^ 2 + d 1 ^ 2 = 1) :
    matPinv γ rho c u d * matP γ rho c u d = 1 :=
  mul_eq_one_comm.1 (P_mul_Pinv hr hc hγ hd)

/-- Normal primitive Jacobian. -/
noncomputable def primN (rho c : ℝ) (u d : Fin 2 → ℝ) : Matrix (Fin 4) (Fin 4) ℝ :=
  d 0 • matPrimX rho c u + d 1 • matPrimY rho c u

/-- Normal conservative Jacobian. -/
noncomputable def consN (γ E : ℝ) (u d : Fin 2 → ℝ) : Matrix (Fin 4) (Fin 4) ℝ :=
  d 0 • matA γ E u + d 1 • matB γ E u

theorem primN_mul_L (hr : rho ≠ 0) (hc : c ≠ 0) (hd : d 0 ^ 2 + d 1 ^ 2 = 1) :
    primN rho c u d * matL rho c d = matL rho c d *
      Matrix.diagonal ![u ⬝ᵥ d - c, u ⬝ᵥ d, u ⬝ᵥ d, u ⬝ᵥ d + c] := by
  have h1 : d 1 ^ 2 = 1 - d 0 ^ 2 := by linarith
  ext i j
  fin_cases i <;> fin_cases j <;>
    simp [primN, matPrimX, matPrimY, matL, Matrix.mul_apply, Fin.sum_univ_succ, dotProduct] <;>
    field_simp <;> ring_nf <;> (try rw [h1]) <;> (try ring)

theorem primN_eq (hr : rho ≠ 0) (hc : c ≠ 0) (hd : d 0 ^ 2 + d 1 ^ 2 = 1) :
    matL rho c d * Matrix.diagonal ![u ⬝ᵥ d - c, u ⬝ᵥ d, u ⬝ᵥ d, u ⬝ᵥ d + c] * matLinv rho c d
      = primN rho c u d := by
  rw [← primN_mul_L hr hc hd, Matrix.mul_assoc, L_mul_Linv hr hc hd, Matrix.mul_one]

theorem A_mul_M {E : ℝ} (hr : rho ≠ 0) (hγ : γ - 1 ≠ 0)
    (hE : γ * (γ - 1) * (E - (u ⬝ᵥ u) / 2) = c ^ 2) :
    matA γ E u * matM γ rho u = matM γ rho u * matPrimX rho c u := by
  simp only [dotProduct, Fin.sum_univ_two] at hE
  ext i j
  fin_cases i <;> fin_cases j <;>
    simp [matA, matPrimX, matM, Matrix.mul_apply, Fin.sum_univ_succ, dotProduct, ← hE] <;>
    field_simp <;> ring

theorem B_mul_M {E : ℝ} (hr : rho ≠ 0) (hγ : γ - 1 ≠ 0)
    (hE : γ * (γ - 1) * (E - (u ⬝ᵥ u) / 2) = c ^ 2) :
    matB γ E u * matM γ rho u = matM γ rho u * matPrimY rho c u := by
  simp only [dotProduct, Fin.sum_univ_two] at hE
  ext i j
  fin_cases i <;> fin_cases j <;>
    simp [matB, matPrimY, matM, Matrix.mul_apply, Fin.sum_univ_succ, dotProduct, ← hE] <;>
    field_simp <;> ring

theorem consN_eq_prim {E : ℝ} (hr : rho ≠ 0) (hγ : γ - 1 ≠ 0)
    (hE : γ * (γ - 1) * (E - (u ⬝ᵥ u) / 2) = c ^ 2) :
    consN γ E u d = matM γ rho u * primN rho c u d * matMinv γ rho u := by
  have h : consN γ E u d * matM γ rho u = matM γ rho u * primN rho c u d := by
    simp only [consN, primN, Matrix.add_mul, Matrix.mul_add, Matrix.smul_mul, Matrix.mul_smul,
      A_mul_M hr hγ hE, B_mul_M hr hγ hE]
  rw [← h, Matrix.mul_assoc, M_mul_Minv hr hγ, Matrix.mul_one]

theorem consN_eq {E : ℝ} (hr : rho ≠ 0) (hc : c ≠ 0) (hγ : γ - 1 ≠ 0)
    (hd : d 0 ^ 2 + d 1 ^ 2 = 1) (hE : γ * (γ - 1) * (E - (u ⬝ᵥ u) / 2) = c ^ 2) :
    matP γ rho c u d * Matrix.diagonal ![u ⬝ᵥ d - c, u ⬝ᵥ d, u ⬝ᵥ d, u ⬝ᵥ d + c]
      * matPinv γ rho c u d = consN γ E u d := by
  rw [consN_eq_prim hr hγ hE, ← primN_eq hr hc hd, P_eq hr hc, Pinv_eq hr]
  simp only [Matrix.mul_assoc]

end Dream
