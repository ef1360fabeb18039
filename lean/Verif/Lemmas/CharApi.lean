import Verif.Lemmas.Characteristic
import Verif.Spec.Euler
import Verif.Props.Conservative

/-! Evaluation of the characteristic API on dictionaries that contain the fields it reads. -/

namespace Dream
open Matrix Spec

variable {γ rho c : ℝ} {u d : Fin 2 → ℝ} {U : Flow 2}

/-- The documented characteristic velocities in two dimensions. -/
def lams (c : ℝ) (u d : Fin 2 → ℝ) : Fin 4 → ℝ := ![u ⬝ᵥ d - c, u ⬝ᵥ d, u ⬝ᵥ d, u ⬝ᵥ d + c]

theorem charVel_eq (hu : U.u = some u) (hc : U.c = some c) (f : ℝ → ℝ) (type : Option String)
    (h : (type = none ∧ f = id) ∨ (type = some "absolute" ∧ f = fun x => |x|) ∨
      (type = some "incoming" ∧ f = fun x => min x 0) ∨
      (type = some "outgoing" ∧ f = fun x => max x 0)) :
    characteristicVelocities U d type = .ok fun i => f (lams c u d i) := by
  rcases h with ⟨rfl, rfl⟩ | ⟨rfl, rfl⟩ | ⟨rfl, rfl⟩ | ⟨rfl, rfl⟩ <;>
    simp only [characteristicVelocities, hu, hc, lamVec_two, Bla.abs_eq, Bla.max_eq,
      Bla.min_eq] <;> congr 1 <;> funext i <;> fin_cases i <;> rfl

theorem consFromChar (hr : U.rho = some rho) (hu : U.u = some u) (hc : U.c = some c) :
    conservativeFromCharacteristic γ U d = .ok (matP γ rho c u d) := by
  simp [conservativeFromCharacteristic, hr, hu, hc, equation, equationE]

theorem charFromCons (hr : U.rho = some rho) (hu : U.u = some u) (hc : U.c = some c) :
    characteristicFromConservative γ U d = .ok (matPinv γ rho c u d) := by
  simp [characteristicFromConservative, hr, hu, hc, equation, equationE]

theorem primFromChar (hr : U.rho = some rho) (hc : U.c = some c) :
    primitiveFromCharacteristic U d = .ok (matL rho c d) := by
  simp [primitiveFromCharacteristic, hr, hc, equation, equationE]

theorem charFromPrim (hr : U.rho = some rho) (hc : U.c = some c) :
    characteristicFromPrimitive U d = .ok (matLinv rho c d) := by
  simp [characteristicFromPrimitive, hr, hc, equation, equationE]

theorem consFromPrim (hr : U.rho = some rho) (hu : U.u = some u) :
    conservativeFromPrimitive γ U = .ok (matM γ rho u) := by
  simp [conservativeFromPrimitive, hr, hu, equation, equationE]

theorem primFromCons (hr : U.rho = some rho) (hu : U.u = some u) :
    primitiveFromConservative γ U = .ok (matMinv γ rho u) := by
  simp [primitiveFromConservative, hr, hu, equation, equationE]

theorem transCons (hr : U.rho = some rho) (hu : U.u = some u) (hc : U.c = some c)
    (A : Matrix (Fin 4) (Fin 4) ℝ) :
    transformCharacteristicToConservative γ A U d
      = .ok (matP γ rho c u d * A * matPinv γ rho c u d) := by
  unfold transformCharacteristicToConservative
  rw [consFromChar hr hu hc, charFromCons hr hu hc]; rfl

theorem transPrim (hr : U.rho = some rho) (hc : U.c = some c)
    (A : Matrix (Fin 4) (Fin 4) ℝ) :
    transformCharacteristicToPrimitive A U d = .ok (matL rho c d * A * matLinv rho c d) := by
  unfold transformCharacteristicToPrimitive
  rw [primFromChar hr hc, charFromPrim hr hc]; rfl

theorem consJac_eq (hr : U.rho = some rho) (hu : U.u = some u) (hc : U.c = some c) (f : ℝ → ℝ)
    (type : Option String)
    (h : (type = none ∧ f = id) ∨ (type = some "absolute" ∧ f = fun x => |x|) ∨
      (type = some "incoming" ∧ f = fun x => min x 0) ∨
      (type = some "outgoing" ∧ f = fun x => max x 0)) :
    conservativeConvectiveJacobian γ U d type = .ok (matP γ rho c u d *
      diagonal (fun i => f (lams c u d i)) * matPinv γ rho c u d) := by
  unfold conservativeConvectiveJacobian
  rw [charVel_eq hu hc f type h]
  simp only [bind, Except.bind, Bla.diagonalM_eq]
  exact transCons hr hu hc _

theorem primJac_eq (hr : U.rho = some rho) (hu : U.u = some u) (hc : U.c = some c) (f : ℝ → ℝ)
    (type : Option String)
    (h : (type = none ∧ f = id) ∨ (type = some "absolute" ∧ f = fun x => |x|) ∨
      (type = some "incoming" ∧ f = fun x => min x 0) ∨
      (type = some "outgoing" ∧ f = fun x => max x 0)) :
    primitiveConvectiveJacobian U d type = .ok (matL rho c d *
      diagonal (fun i => f (lams c u d i)) * matLinv rho c d) := by
  unfold primitiveConvectiveJacobian
  rw [charVel_eq hu hc f type h]
  simp only [bind, Except.bind, Bla.diagonalM_eq]
  exact transPrim hr hc _

theorem charId_eq (hu : U.u = some u) (hc : U.c = some c) (f : ℝ → ℝ) (type : Option String)
    (h : (type = some "incoming" ∧ f = negInd) ∨ (type = some "outgoing" ∧ f = posInd)) :
    characteristicIdentity U d type = .ok (diagonal fun i => f (lams c u d i)) := by
  rcases h with ⟨rfl, rfl⟩ | ⟨rfl, rfl⟩
  · unfold characteristicIdentity
    rw [charVel_eq hu hc (fun x => min x 0) _ (by simp)]
    simp only [bind, Except.bind, Bla.diagonalM_eq]
    congr 2; funext i
    unfold Bla.ifPos negInd
    by_cases hx : lams c u d i < 0
    · rw [if_pos hx, if_pos]; rw [min_eq_left hx.le]; linarith
    · rw [if_neg hx, if_neg]; rw [min_eq_right (not_lt.1 hx)]; simp
  · unfold characteristicIdentity
    rw [charVel_eq hu hc (fun x => max x 0) _ (by simp)]
    simp only [bind, Except.bind, Bla.diagonalM_eq]
    congr 2; funext i
    unfold Bla.ifPos posInd
    by_cases hx : 0 < lams c u d i
    · rw [if_pos hx, if_pos]; rw [max_eq_left hx.le]; exact hx
    · rw [if_neg hx, if_neg]; rw [max_eq_right (not_lt.1 hx)]; simp

theorem mulDiag {P Q : Matrix (Fin 4) (Fin 4) ℝ} (h : Q * P = 1) (v : Fin 4 → ℝ) :
    P * diagonal v * Q * P = P * diagonal v := by
  rw [Matrix.mul_assoc _ Q P, h, Matrix.mul_one]

theorem isUnit_of {P Q : Matrix (Fin 4) (Fin 4) ℝ} (h : Q * P = 1) : IsUnit P :=
  ⟨⟨P, Q, mul_eq_one_comm.1 h, h⟩, rfl⟩

theorem isFun_conj {P Q : Matrix (Fin 4) (Fin 4) ℝ} (h : Q * P = 1) (f : ℝ → ℝ)
    (v : Fin 4 → ℝ) :
    IsFun f (P * diagonal v * Q) (P * diagonal (fun i => f (v i)) * Q) :=
  ⟨P, v, isUnit_of h, mulDiag h v, mulDiag h _⟩

theorem conj_add {P Q A B : Matrix (Fin 4) (Fin 4) ℝ} : P * A * Q + P * B * Q = P * (A + B) * Q := by
  rw [Matrix.mul_add, Matrix.add_mul]

theorem conj_sub {P Q A B : Matrix (Fin 4) (Fin 4) ℝ} : P * A * Q - P * B * Q = P * (A - B) * Q := by
  rw [Matrix.mul_sub, Matrix.sub_mul]

theorem conj_mul {P Q A B : Matrix (Fin 4) (Fin 4) ℝ} (h : Q * P = 1) :
    P * A * Q * (P * B * Q) = P * (A * B) * Q := by
  simp only [Matrix.mul_assoc]
  rw [← Matrix.mul_assoc Q P, h, Matrix.one_mul]

theorem conj_one_iff {P Q A : Matrix (Fin 4) (Fin 4) ℝ} (h : Q * P = 1) :
    P * A * Q = 1 ↔ A = 1 := by
  have h' : P * Q = 1 := mul_eq_one_comm.1 h
  constructor
  · intro e
    have : Q * (P * A * Q) * P = Q * P := by rw [e, Matrix.mul_one]
    rw [h] at this
    rw [← this]
    simp only [Matrix.mul_assoc]
    rw [h, Matrix.mul_one, ← Matrix.mul_assoc Q P, h, Matrix.one_mul]
  · rintro rfl; rw [Matrix.mul_one, h']

end Dream
