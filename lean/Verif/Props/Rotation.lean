import Verif.Spec.Rotation
import Verif.Props.FreestreamViscous

/-!
# C76: the choice of the coordinate axes does not matter
-/

set_option linter.unusedSectionVars false

noncomputable section

namespace Dream
open Matrix Spec

variable {n : ℕ} {γ : ℝ}

/-! ### General facts -/

theorem _root_.Spec.Orthogonal.dot {Q : Matrix (Fin n) (Fin n) ℝ} (hQ : Orthogonal Q) (x y : Fin n → ℝ) :
    (Q *ᵥ x) ⬝ᵥ (Q *ᵥ y) = x ⬝ᵥ y := by
  rw [dotProduct_mulVec, ← vecMul_transpose, vecMul_vecMul, hQ, vecMul_one]

theorem _root_.Spec.Orthogonal.symm {Q : Matrix (Fin n) (Fin n) ℝ} (hQ : Orthogonal Q) : Q * Qᵀ = 1 :=
  mul_eq_one_comm.1 hQ

theorem _root_.Spec.IdealGas.rotate {Q : Matrix (Fin n) (Fin n) ℝ} (hQ : Orthogonal Q) {S : GasState n}
    (hS : IdealGas γ S) : IdealGas γ (S.rotate Q) where
  gamma := hS.gamma
  rho_pos := hS.rho_pos
  T_pos := hS.T_pos
  gas_law := hS.gas_law
  caloric := hS.caloric
  sound_pos := hS.sound_pos
  sound := hS.sound
  kinetic := by simp only [GasState.rotate, hQ.dot]; exact hS.kinetic
  total := hS.total
  enthalpy := hS.enthalpy
  momentum := by simp only [GasState.rotate]; rw [hS.momentum, mulVec_smul]
  rho_E := hS.rho_E
  rho_Ei := hS.rho_Ei
  rho_Ek := hS.rho_Ek
  rho_H := hS.rho_H

theorem rotVec_consVec (Q : Matrix (Fin n) (Fin n) ℝ) (ρ : ℝ) (m : Fin n → ℝ) (e : ℝ) :
    rotVec Q (consVec ρ m e) = consVec ρ (Q *ᵥ m) e := by
  have h1 : (fun i : Fin n => consVec ρ m e i.castSucc.succ) = m := by
    funext i
    simp [consVec]
  have h2 : consVec ρ m e (Fin.last (n + 1)) = e := by
    rw [← Fin.succ_last]
    simp [consVec]
  simp only [rotVec, h1, h2]
  rfl

theorem eulerFlux_rotate {Q : Matrix (Fin n) (Fin n) ℝ} (hQ : Orthogonal Q) (d : Fin n → ℝ) (ρ : ℝ)
    (m : Fin n → ℝ) (e : ℝ) :
    eulerFlux γ (Q *ᵥ d) ρ (Q *ᵥ m) e = rotVec Q (eulerFlux γ d ρ m e) := by
  have h := rotVec_consVec Q (m ⬝ᵥ d) (fun i : Fin n => m i * (m ⬝ᵥ d) / ρ
    + (γ - 1) * (e - (m ⬝ᵥ m) / (2 * ρ)) * d i)
    ((e + (γ - 1) * (e - (m ⬝ᵥ m) / (2 * ρ))) * (m ⬝ᵥ d) / ρ)
  have e1 : Q *ᵥ (fun i : Fin n => m i * (m ⬝ᵥ d) / ρ
      + (γ - 1) * (e - (m ⬝ᵥ m) / (2 * ρ)) * d i)
      = fun i => (Q *ᵥ m) i * (m ⬝ᵥ d) / ρ + (γ - 1) * (e - (m ⬝ᵥ m) / (2 * ρ)) * (Q *ᵥ d) i := by
    have : (fun i : Fin n => m i * (m ⬝ᵥ d) / ρ + (γ - 1) * (e - (m ⬝ᵥ m) / (2 * ρ)) * d i)
        = ((m ⬝ᵥ d) / ρ) • m + ((γ - 1) * (e - (m ⬝ᵥ m) / (2 * ρ))) • d := by
      funext i
      simp only [Pi.add_apply, Pi.smul_apply, smul_eq_mul]
      ring
    rw [this, mulVec_add, mulVec_smul, mulVec_smul]
    funext i
    simp only [Pi.add_apply, Pi.smul_apply, smul_eq_mul]
    ring
  rw [e1] at h
  simp only [eulerFlux, hQ.dot]
  exact h.symm

/-- **C76** The convective flux, in any number of space dimensions: the flux of the turned state
through a turned face is the turned flux. -/
theorem C76_convective {Q : Matrix (Fin n) (Fin n) ℝ} (hQ : Orthogonal Q) {S : GasState n}
    (hS : IdealGas γ S) (d : Fin n → ℝ) :
    ∃ F F', convectiveFlux γ (conservativeDict S) = .ok F ∧
      convectiveFlux γ (conservativeDict (S.rotate Q)) = .ok F' ∧
      F' *ᵥ (Q *ᵥ d) = rotVec Q (F *ᵥ d) := by
  obtain ⟨F, h1, h2⟩ := C26_flux_conservative hS d
  obtain ⟨F', h3, h4⟩ := C26_flux_conservative (hS.rotate hQ) (Q *ᵥ d)
  refine ⟨F, F', h1, h3, ?_⟩
  rw [h2, h4]
  exact eulerFlux_rotate hQ d S.rho S.rho_u S.rho_E

/-! ### Two dimensions -/

/-- `rotVec` in two dimensions as a matrix. -/
def rotM (Q : Matrix (Fin 2) (Fin 2) ℝ) : Matrix (Fin 4) (Fin 4) ℝ :=
  !![1, 0, 0, 0; 0, Q 0 0, Q 0 1, 0; 0, Q 1 0, Q 1 1, 0; 0, 0, 0, 1]

theorem rotVec_eq (Q : Matrix (Fin 2) (Fin 2) ℝ) (w : Fin 4 → ℝ) : rotVec Q w = rotM Q *ᵥ w := by
  have hl : Fin.last (2 + 1) = 3 := rfl
  funext i
  fin_cases i
  · simp [rotVec, rotM, mulVec, dotProduct, Fin.sum_univ_four]
  · show (Q *ᵥ fun i : Fin 2 => w i.castSucc.succ) 0 = _
    simp [rotM, mulVec, dotProduct, Fin.sum_univ_four, Fin.sum_univ_two]
  · show (Q *ᵥ fun i : Fin 2 => w i.castSucc.succ) 1 = _
    simp [rotM, mulVec, dotProduct, Fin.sum_univ_four, Fin.sum_univ_two]
  · show w (Fin.last (2 + 1)) = _
    simp [rotM, mulVec, dotProduct, Fin.sum_univ_four]

/-- The form of orthogonal matrices of order two. -/
theorem _root_.Spec.Orthogonal.form {Q : Matrix (Fin 2) (Fin 2) ℝ} (hQ : Orthogonal Q) :
    ∃ a b δ : ℝ, Q = !![a, -(δ * b); b, δ * a] ∧ a ^ 2 + b ^ 2 = 1 ∧ δ ^ 2 = 1 := by
  have h : ∀ i j, (Qᵀ * Q) i j = (1 : Matrix (Fin 2) (Fin 2) ℝ) i j := fun i j => by rw [hQ]
  have h00 := h 0 0
  have h01 := h 0 1
  have h11 := h 1 1
  simp [Matrix.mul_apply, Fin.sum_univ_two] at h00 h01 h11
  refine ⟨Q 0 0, Q 1 0, Q 0 0 * Q 1 1 - Q 0 1 * Q 1 0, ?_, by linarith, ?_⟩
  · ext i j
    fin_cases i <;> fin_cases j
    · rfl
    · show Q 0 1 = -((Q 0 0 * Q 1 1 - Q 0 1 * Q 1 0) * Q 1 0)
      linear_combination (-Q 0 1) * h00 + (Q 0 0) * h01
    · rfl
    · show Q 1 1 = (Q 0 0 * Q 1 1 - Q 0 1 * Q 1 0) * Q 0 0
      linear_combination (-Q 1 1) * h00 + (Q 1 0) * h01
  · linear_combination (Q 0 1 * Q 0 1 + Q 1 1 * Q 1 1) * h00 + h11
      - (Q 0 0 * Q 0 1 + Q 1 0 * Q 1 1) * h01

/-- The sign of the vorticity wave. -/
def signM (δ : ℝ) : Matrix (Fin 4) (Fin 4) ℝ := diagonal ![1, 1, δ, 1]

theorem matP_rotate {a b δ : ℝ} (h1 : a ^ 2 + b ^ 2 = 1) (h2 : δ ^ 2 = 1) (rho c : ℝ)
    (u d : Fin 2 → ℝ) :
    let Q : Matrix (Fin 2) (Fin 2) ℝ := !![a, -(δ * b); b, δ * a]
    matP γ rho c (Q *ᵥ u) (Q *ᵥ d) = rotM Q * matP γ rho c u d * signM δ := by
  intro Q
  ext i j
  fin_cases i <;> fin_cases j <;>
    simp [matP, rotM, signM, Q, Matrix.mul_apply, Fin.sum_univ_four, mulVec, dotProduct,
      Fin.sum_univ_two]
  · ring
  · ring
  · linear_combination (-b * d 0 * rho) * h2
  · ring
  · ring
  · ring
  · linear_combination (a * d 0 * rho) * h2
  · ring
  · linear_combination (-(d 0 * u 0 + δ ^ 2 * d 1 * u 1) / (2 * c)
      + (u 0 ^ 2 + δ ^ 2 * u 1 ^ 2) / (4 * c ^ 2)) * h1
      + (-(d 1 * u 1) / (2 * c) + u 1 ^ 2 / (4 * c ^ 2)) * h2
  · linear_combination ((u 0 ^ 2 + δ ^ 2 * u 1 ^ 2) / (2 * c ^ 2)) * h1
      + (u 1 ^ 2 / (2 * c ^ 2)) * h2
  · linear_combination (δ * rho * (d 1 * u 0 - d 0 * u 1)) * h1
  · linear_combination ((d 0 * u 0 + δ ^ 2 * d 1 * u 1) / (2 * c)
      + (u 0 ^ 2 + δ ^ 2 * u 1 ^ 2) / (4 * c ^ 2)) * h1
      + ((d 1 * u 1) / (2 * c) + u 1 ^ 2 / (4 * c ^ 2)) * h2

theorem matPinv_rotate {a b δ : ℝ} (h1 : a ^ 2 + b ^ 2 = 1) (h2 : δ ^ 2 = 1) (rho c : ℝ)
    (u d : Fin 2 → ℝ) :
    let Q : Matrix (Fin 2) (Fin 2) ℝ := !![a, -(δ * b); b, δ * a]
    matPinv γ rho c (Q *ᵥ u) (Q *ᵥ d) = signM δ * matPinv γ rho c u d * rotM Qᵀ := by
  intro Q
  ext i j
  fin_cases i <;> fin_cases j <;>
    simp [matPinv, rotM, signM, Q, Matrix.mul_apply, Fin.sum_univ_four, mulVec, dotProduct,
      Fin.sum_univ_two, Matrix.vecMul]
  · linear_combination (c * (d 0 * u 0 + δ ^ 2 * d 1 * u 1)
      + (γ - 1) / 2 * (u 0 ^ 2 + δ ^ 2 * u 1 ^ 2)) * h1
      + (c * (d 1 * u 1) + (γ - 1) / 2 * u 1 ^ 2) * h2
  · ring
  · ring
  · left
    linear_combination (u 0 ^ 2 + δ ^ 2 * u 1 ^ 2) * h1 + u 1 ^ 2 * h2
  · ring
  · ring
  · linear_combination (δ * (d 0 * u 1 - d 1 * u 0) / rho) * h1
  · linear_combination (-b * d 0 / rho) * h2
  · linear_combination (a * d 0 / rho) * h2
  · linear_combination (-c * (d 0 * u 0 + δ ^ 2 * d 1 * u 1)
      + (γ - 1) / 2 * (u 0 ^ 2 + δ ^ 2 * u 1 ^ 2)) * h1
      + (-c * (d 1 * u 1) + (γ - 1) / 2 * u 1 ^ 2) * h2
  · ring
  · ring

theorem rotM_transpose (Q : Matrix (Fin 2) (Fin 2) ℝ) : rotM Qᵀ = (rotM Q)ᵀ := by
  ext i j
  fin_cases i <;> fin_cases j <;> rfl

theorem rotM_orthogonal {Q : Matrix (Fin 2) (Fin 2) ℝ} (hQ : Orthogonal Q) :
    (rotM Q)ᵀ * rotM Q = 1 := by
  have h : ∀ i j, (Qᵀ * Q) i j = (1 : Matrix (Fin 2) (Fin 2) ℝ) i j := fun i j => by rw [hQ]
  have h00 := h 0 0
  have h01 := h 0 1
  have h10 := h 1 0
  have h11 := h 1 1
  simp [Matrix.mul_apply, Fin.sum_univ_two] at h00 h01 h10 h11
  ext i j
  fin_cases i <;> fin_cases j <;>
    simp [rotM, Matrix.mul_apply, Fin.sum_univ_four, h00, h01, h10, h11]

theorem conj_rotate {Q : Matrix (Fin 2) (Fin 2) ℝ} (hQ : Orthogonal Q) (rho c : ℝ)
    (u d : Fin 2 → ℝ) (σ : Fin 4 → ℝ) :
    matP γ rho c (Q *ᵥ u) (Q *ᵥ d) * diagonal σ * matPinv γ rho c (Q *ᵥ u) (Q *ᵥ d)
      = rotM Q * (matP γ rho c u d * diagonal σ * matPinv γ rho c u d) * (rotM Q)ᵀ := by
  obtain ⟨a, b, δ, rfl, h1, h2⟩ := hQ.form
  have hs : signM δ * diagonal σ * signM δ = diagonal σ := by
    rw [signM, diagonal_mul_diagonal, diagonal_mul_diagonal]
    congr 1
    funext i
    fin_cases i
    · simp
    · simp
    · show δ * σ 2 * δ = σ 2
      linear_combination σ 2 * h2
    · simp
  rw [matP_rotate h1 h2, matPinv_rotate h1 h2, rotM_transpose]
  calc _ = rotM !![a, -(δ * b); b, δ * a] * (matP γ rho c u d * (signM δ * diagonal σ * signM δ)
        * matPinv γ rho c u d) * (rotM !![a, -(δ * b); b, δ * a])ᵀ := by
        simp only [Matrix.mul_assoc]
    _ = _ := by rw [hs]

/-- What the stabilisation matrix does to a turned jump. -/
theorem conj_rotate_apply {Q : Matrix (Fin 2) (Fin 2) ℝ} (hQ : Orthogonal Q) (rho c : ℝ)
    (u d : Fin 2 → ℝ) (σ : Fin 4 → ℝ) (w : Fin 4 → ℝ) :
    (matP γ rho c (Q *ᵥ u) (Q *ᵥ d) * diagonal σ * matPinv γ rho c (Q *ᵥ u) (Q *ᵥ d)) *ᵥ rotVec Q w
      = rotVec Q ((matP γ rho c u d * diagonal σ * matPinv γ rho c u d) *ᵥ w) := by
  rw [conj_rotate hQ, rotVec_eq, rotVec_eq, mulVec_mulVec, Matrix.mul_assoc, rotM_orthogonal hQ,
    Matrix.mul_one, ← mulVec_mulVec]

theorem rotVec_add (Q : Matrix (Fin 2) (Fin 2) ℝ) (w w' : Fin 4 → ℝ) :
    rotVec Q (w + w') = rotVec Q w + rotVec Q w' := by
  simp only [rotVec_eq, mulVec_add]

theorem rotVec_sub (Q : Matrix (Fin 2) (Fin 2) ℝ) (w w' : Fin 4 → ℝ) :
    rotVec Q (w - w') = rotVec Q w - rotVec Q w' := by
  simp only [rotVec_eq, mulVec_sub]

theorem rotVec_smul (Q : Matrix (Fin 2) (Fin 2) ℝ) (a : ℝ) (w : Fin 4 → ℝ) :
    rotVec Q (a • w) = a • rotVec Q w := by
  simp only [rotVec_eq, mulVec_smul]

theorem rotVec_dot {Q : Matrix (Fin 2) (Fin 2) ℝ} (hQ : Orthogonal Q) (w w' : Fin 4 → ℝ) :
    rotVec Q w ⬝ᵥ rotVec Q w' = w ⬝ᵥ w' := by
  simp only [rotVec_eq]
  rw [dotProduct_mulVec, ← vecMul_transpose, vecMul_vecMul, rotM_orthogonal hQ, vecMul_one]

theorem normal_rotate {Q : Matrix (Fin 2) (Fin 2) ℝ} (hQ : Orthogonal Q) {d : Fin 2 → ℝ}
    (hd : d 0 ^ 2 + d 1 ^ 2 = 1) : (Q *ᵥ d) 0 ^ 2 + (Q *ᵥ d) 1 ^ 2 = 1 := by
  have := hQ.dot d d
  simp only [dotProduct, Fin.sum_univ_two] at this
  linear_combination this + hd

theorem lams_rotate {Q : Matrix (Fin 2) (Fin 2) ℝ} (hQ : Orthogonal Q) (c : ℝ) (u d : Fin 2 → ℝ) :
    lams c (Q *ᵥ u) (Q *ᵥ d) = lams c u d := by
  simp only [lams, hQ.dot]

theorem sigma_rotate {Q : Matrix (Fin 2) (Fin 2) ℝ} (hQ : Orthogonal Q) (rs : Riemann) (c : ℝ)
    (u d : Fin 2 → ℝ) : rs.sigma c (Q *ᵥ u) (Q *ᵥ d) = rs.sigma c u d := by
  cases rs <;> simp only [Riemann.sigma, lams_rotate hQ, hQ.dot]

/-- **C76** The numerical flux of every Riemann solver: for the turned states and the turned normal
it is the turned flux. -/
theorem C76_numerical {Q : Matrix (Fin 2) (Fin 2) ℝ} (hQ : Orthogonal Q) {S : GasState 2}
    (hS : IdealGas γ S) (rs : Riemann) {d : Fin 2 → ℝ} (hd : d 0 ^ 2 + d 1 ^ 2 = 1)
    (w wHat : Fin 4 → ℝ) :
    ∃ f, convectiveNumericalFlux γ rs w wHat (conservativeDict S) d = .ok f ∧
      convectiveNumericalFlux γ rs (rotVec Q w) (rotVec Q wHat) (conservativeDict (S.rotate Q))
        (Q *ᵥ d) = .ok (rotVec Q f) := by
  obtain ⟨τ, h1, h2⟩ := C28_flux rs hS hd w wHat
  obtain ⟨τ', h3, h4⟩ := C28_flux rs (hS.rotate hQ) (normal_rotate hQ hd) (rotVec Q w)
    (rotVec Q wHat)
  refine ⟨_, h2, ?_⟩
  rw [h4, rotVec_add, ← eulerFlux_rotate hQ]
  have e1 := rs.tau_eq (γ := γ) (U := conservativeDict S) (d := d) hS.gamma rfl rfl rfl hS.rho_pos
    hS.sound_pos hd
  have e2 := rs.tau_eq (γ := γ) (U := conservativeDict (S.rotate Q)) (d := Q *ᵥ d) hS.gamma rfl rfl
    rfl hS.rho_pos hS.sound_pos (normal_rotate hQ hd)
  rw [h1] at e1
  rw [h3] at e2
  cases e1
  cases e2
  congr 2
  rw [← rotVec_sub]
  have : rs.sigma (S.rotate Q).c (S.rotate Q).u (Q *ᵥ d) = rs.sigma S.c S.u d :=
    sigma_rotate hQ rs S.c S.u d
  rw [this]
  exact conj_rotate_apply hQ _ _ _ _ _ _

/-! ### Boundary conditions -/

theorem gasVec_rotate (Q : Matrix (Fin 2) (Fin 2) ℝ) (S : GasState 2) :
    gasVec (S.rotate Q) = rotVec Q (gasVec S) :=
  (rotVec_consVec Q S.rho S.rho_u S.rho_E).symm

theorem consJac_rotate {Q : Matrix (Fin 2) (Fin 2) ℝ} (hQ : Orthogonal Q) (S : GasState 2)
    (d : Fin 2 → ℝ) (f : ℝ → ℝ) (type : Option String)
    (h : (type = none ∧ f = id) ∨ (type = some "absolute" ∧ f = fun x => |x|) ∨
      (type = some "incoming" ∧ f = fun x => min x 0) ∨
      (type = some "outgoing" ∧ f = fun x => max x 0)) :
    ∃ A A', conservativeConvectiveJacobian γ (conservativeDict S) d type = .ok A ∧
      conservativeConvectiveJacobian γ (conservativeDict (S.rotate Q)) (Q *ᵥ d) type = .ok A' ∧
      ∀ w, A' *ᵥ rotVec Q w = rotVec Q (A *ᵥ w) := by
  refine ⟨_, _, consJac_eq rfl rfl rfl f type h, consJac_eq rfl rfl rfl f type h, fun w => ?_⟩
  have : (fun i => f (lams (S.rotate Q).c (S.rotate Q).u (Q *ᵥ d) i))
      = fun i => f (lams S.c S.u d i) := by
    rw [show lams (S.rotate Q).c (S.rotate Q).u (Q *ᵥ d) = lams S.c S.u d from lams_rotate hQ _ _ _]
  rw [this]
  exact conj_rotate_apply hQ _ _ _ _ _ _

theorem consId_rotate {Q : Matrix (Fin 2) (Fin 2) ℝ} (hQ : Orthogonal Q) (S : GasState 2)
    (d : Fin 2 → ℝ) (f : ℝ → ℝ) (type : Option String)
    (h : (type = some "incoming" ∧ f = negInd) ∨ (type = some "outgoing" ∧ f = posInd)) :
    ∃ A A', conservativeConvectiveIdentity γ (conservativeDict S) d type = .ok A ∧
      conservativeConvectiveIdentity γ (conservativeDict (S.rotate Q)) (Q *ᵥ d) type = .ok A' ∧
      ∀ w, A' *ᵥ rotVec Q w = rotVec Q (A *ᵥ w) := by
  refine ⟨_, _, consId_eq rfl rfl rfl f type h, consId_eq rfl rfl rfl f type h, fun w => ?_⟩
  have : (fun i => f (lams (S.rotate Q).c (S.rotate Q).u (Q *ᵥ d) i))
      = fun i => f (lams S.c S.u d i) := by
    rw [show lams (S.rotate Q).c (S.rotate Q).u (Q *ᵥ d) = lams S.c S.u d from lams_rotate hQ _ _ _]
  rw [this]
  exact conj_rotate_apply hQ _ _ _ _ _ _

/-- **C76** The far-field condition, in both variants. -/
theorem C76_farfield {Q : Matrix (Fin 2) (Fin 2) ℝ} (hQ : Orthogonal Q) (S Sinf : GasState 2)
    (ident : Bool) (d : Fin 2 → ℝ) (w wHat : Fin 4 → ℝ) :
    ∃ R, farfieldResidual γ ident (conservativeDict Sinf) d w wHat (conservativeDict S) = .ok R ∧
      farfieldResidual γ ident (conservativeDict (Sinf.rotate Q)) (Q *ᵥ d) (rotVec Q w)
        (rotVec Q wHat) (conservativeDict (S.rotate Q)) = .ok (rotVec Q R) := by
  have e : consVec (Sinf.rotate Q).rho (Sinf.rotate Q).rho_u (Sinf.rotate Q).rho_E
      = rotVec Q (consVec Sinf.rho Sinf.rho_u Sinf.rho_E) := gasVec_rotate Q Sinf
  cases ident with
  | true =>
    obtain ⟨A, A', h1, h2, h3⟩ := consId_rotate (γ := γ) hQ S d negInd (some "incoming")
      (.inl ⟨rfl, rfl⟩)
    obtain ⟨C, C', h4, h5, h6⟩ := consId_rotate (γ := γ) hQ S d posInd (some "outgoing")
      (.inr ⟨rfl, rfl⟩)
    refine ⟨wHat - C *ᵥ w - A *ᵥ consVec Sinf.rho Sinf.rho_u Sinf.rho_E, ?_, ?_⟩
    · simp [farfieldResidual, stateVec_dict, h1, h4, bind, Except.bind]
    · simp only [farfieldResidual, stateVec_dict, h2, h5, bind, Except.bind, if_true]
      rw [e, h3, h6, rotVec_sub, rotVec_sub]
  | false =>
    obtain ⟨A, A', h1, h2, h3⟩ := consJac_rotate (γ := γ) hQ S d (fun x => min x 0)
      (some "incoming") (.inr (.inr (.inl ⟨rfl, rfl⟩)))
    obtain ⟨C, C', h4, h5, h6⟩ := consJac_rotate (γ := γ) hQ S d (fun x => max x 0)
      (some "outgoing") (.inr (.inr (.inr ⟨rfl, rfl⟩)))
    refine ⟨C *ᵥ (wHat - w) - A *ᵥ (wHat - consVec Sinf.rho Sinf.rho_u Sinf.rho_E), ?_, ?_⟩
    · simp [farfieldResidual, stateVec_dict, h1, h4, bind, Except.bind]
    · simp only [farfieldResidual, stateVec_dict, h2, h5, bind, Except.bind]
      rw [e, ← rotVec_sub, ← rotVec_sub, h3, h6, ← rotVec_sub]
      rfl

/-- **C76** The inviscid wall and the symmetry plane. -/
theorem C76_wall {Q : Matrix (Fin 2) (Fin 2) ℝ} (hQ : Orthogonal Q) (S : GasState 2)
    (d : Fin 2 → ℝ) (wHat : Fin 4 → ℝ) :
    ∃ R, inviscidWallResidual γ d (conservativeDict S) wHat = .ok R ∧
      inviscidWallResidual γ (Q *ᵥ d) (conservativeDict (S.rotate Q)) (rotVec Q wHat)
        = .ok (rotVec Q R) := by
  obtain ⟨h1, h2, h3⟩ := dictState γ S
  obtain ⟨h4, h5, h6⟩ := dictState γ (S.rotate Q)
  refine ⟨wHat - consVec S.rho (S.rho_u - (S.rho_u ⬝ᵥ d) • d) S.rho_E, ?_, ?_⟩
  · simp [inviscidWallResidual, h1, h2, h3, bind, Except.bind]
  · simp only [inviscidWallResidual, h4, h5, h6, bind, Except.bind]
    rw [rotVec_sub, rotVec_consVec, mulVec_sub, mulVec_smul]
    simp only [GasState.rotate, hQ.dot]

/-- **C76** The isothermal wall. -/
theorem C76_isothermal (Q : Matrix (Fin 2) (Fin 2) ℝ) (S : GasState 2) {bc : Flow 2} {T : ℝ}
    (hT : bc.T = some T) (wHat : Fin 4 → ℝ) :
    ∃ R, isothermalWallResidual γ bc (conservativeDict S) wHat = .ok R ∧
      isothermalWallResidual γ bc (conservativeDict (S.rotate Q)) (rotVec Q wHat)
        = .ok (rotVec Q R) := by
  refine ⟨wHat - consVec S.rho 0 (S.rho * T / γ), ?_, ?_⟩
  · simp [isothermalWallResidual, given, hT, conservativeDict, density, EOS.density, momentum,
      innerEnergy, EOS.innerEnergy, equation, equationE, bind, Except.bind]
    rfl
  · rw [rotVec_sub, rotVec_consVec, mulVec_zero]
    simp [isothermalWallResidual, given, hT, conservativeDict, density, EOS.density, momentum,
      innerEnergy, EOS.innerEnergy, equation, equationE, bind, Except.bind, GasState.rotate]
    rfl

/-- **C76** The pressure outflow. -/
theorem C76_outflow (Q : Matrix (Fin 2) (Fin 2) ℝ) (S : GasState 2) {bc : Flow 2} {p : ℝ}
    (hp : bc.p = some p) (wHat : Fin 4 → ℝ) :
    ∃ R, outflowResidual γ bc (conservativeDict S) wHat = .ok R ∧
      outflowResidual γ bc (conservativeDict (S.rotate Q)) (rotVec Q wHat) = .ok (rotVec Q R) := by
  refine ⟨wHat - consVec S.rho S.rho_u (p / (γ - 1) + S.rho_Ek), ?_, ?_⟩
  · simp [outflowResidual, outflowState, stateVec, given, hp, conservativeDict, density,
      EOS.density, momentum, energy, innerEnergy, EOS.innerEnergy, kineticEnergy, equation,
      equationE, bind, Except.bind]
  · rw [rotVec_sub, rotVec_consVec]
    simp [outflowResidual, outflowState, stateVec, given, hp, conservativeDict, density,
      EOS.density, momentum, energy, innerEnergy, EOS.innerEnergy, kineticEnergy, equation,
      equationE, bind, Except.bind, GasState.rotate]

theorem cbcState_rotate {Q : Matrix (Fin 2) (Fin 2) ℝ} (hQ : Orthogonal Q) (S Sbc : GasState 2)
    (t : CbcTarget) :
    ∃ R, cbcState γ t (conservativeDict Sbc) (conservativeDict S) = .ok R ∧
      cbcState γ t (conservativeDict (Sbc.rotate Q)) (conservativeDict (S.rotate Q))
        = .ok (rotVec Q R) := by
  cases t with
  | farfield =>
    refine ⟨_, stateVec_dict γ Sbc, ?_⟩
    rw [rotVec_consVec]
    exact stateVec_dict γ (Sbc.rotate Q)
  | outflow =>
    refine ⟨consVec S.rho S.rho_u (Sbc.p / (γ - 1) + S.rho_Ek), ?_, ?_⟩
    · simp [cbcState, outflowState, stateVec, given, conservativeDict, density,
        EOS.density, momentum, energy, innerEnergy, EOS.innerEnergy, kineticEnergy, equation,
        equationE, bind, Except.bind]
    · rw [rotVec_consVec]
      simp [cbcState, outflowState, stateVec, given, conservativeDict, density,
        EOS.density, momentum, energy, innerEnergy, EOS.innerEnergy, kineticEnergy, equation,
        equationE, bind, Except.bind, GasState.rotate]
  | massInflow =>
    refine ⟨consVec Sbc.rho Sbc.rho_u (S.p / (γ - 1) + Sbc.rho_Ek), ?_, ?_⟩
    · simp [cbcState, stateVec, given, conservativeDict, density,
        EOS.density, momentum, energy, innerEnergy, EOS.innerEnergy, kineticEnergy, equation,
        equationE, bind, Except.bind]
    · rw [rotVec_consVec]
      simp [cbcState, stateVec, given, conservativeDict, density,
        EOS.density, momentum, energy, innerEnergy, EOS.innerEnergy, kineticEnergy, equation,
        equationE, bind, Except.bind, GasState.rotate]
  | temperatureInflow =>
    let ρ := Sbc.rho * (S.p / Sbc.p) ^ (1 / γ)
    refine ⟨consVec ρ (ρ • Sbc.u) (ρ * S.T / γ + 2⁻¹ * ρ * (Sbc.u ⬝ᵥ Sbc.u)), ?_, ?_⟩
    · simp [cbcState, stateVec, given, isentropicDensity, specificKineticEnergy, conservativeDict,
        density, EOS.density, momentum, energy, innerEnergy, EOS.innerEnergy, kineticEnergy,
        equation, equationE, bind, Except.bind, ρ]
    · have hd := hQ.dot Sbc.u Sbc.u
      simp only [dotProduct, Fin.sum_univ_two] at hd
      rw [rotVec_consVec]
      simp [cbcState, stateVec, given, isentropicDensity, specificKineticEnergy, conservativeDict,
        density, EOS.density, momentum, energy, innerEnergy, EOS.innerEnergy, kineticEnergy,
        equation, equationE, bind, Except.bind, ρ, GasState.rotate, hd, mulVec_smul]

/-- **C76** The characteristic conditions, for every target and diagonal relaxation matrix. -/
theorem C76_cbc_partial {Q : Matrix (Fin 2) (Fin 2) ℝ} (hQ : Orthogonal Q) (S SHat Sbc : GasState 2)
    (t : CbcTarget) (σ : Fin 4 → ℝ) (β dt : ℝ) (d tng : Fin 2 → ℝ) (w wHat wHatN gradT : Fin 4 → ℝ) :
    ∃ R, cbcResidual γ t (conservativeDict Sbc) (conservativeDict S) (conservativeDict SHat)
        (diagonal σ) β dt d tng w wHat wHatN gradT = .ok R ∧
      cbcResidual γ t (conservativeDict (Sbc.rotate Q)) (conservativeDict (S.rotate Q))
        (conservativeDict (SHat.rotate Q)) (diagonal σ) β dt (Q *ᵥ d) (Q *ᵥ tng) (rotVec Q w)
        (rotVec Q wHat) (rotVec Q wHatN) (rotVec Q gradT) = .ok (rotVec Q R) := by
  obtain ⟨Ubc, b1, b2⟩ := cbcState_rotate (γ := γ) hQ S Sbc t
  obtain ⟨A, A', h1, h2, h3⟩ := consId_rotate (γ := γ) hQ SHat d negInd (some "incoming")
    (.inl ⟨rfl, rfl⟩)
  obtain ⟨C, C', h4, h5, h6⟩ := consId_rotate (γ := γ) hQ SHat d posInd (some "outgoing")
    (.inr ⟨rfl, rfl⟩)
  obtain ⟨N, N', h7, h8, h9⟩ := consJac_rotate (γ := γ) hQ SHat tng id none (.inl ⟨rfl, rfl⟩)
  have t1 := transCons (γ := γ) (U := conservativeDict SHat) (d := d) rfl rfl rfl (diagonal σ)
  have t2 := transCons (γ := γ) (U := conservativeDict (SHat.rotate Q)) (d := Q *ᵥ d) rfl rfl rfl
    (diagonal σ)
  refine ⟨_, by simp only [cbcResidual, b1, t1, h1, h4, h7, bind, Except.bind]; rfl, ?_⟩
  simp only [cbcResidual, b2, t2, h2, h5, h8, bind, Except.bind]
  rw [← rotVec_sub]
  have e : ∀ v, (matP γ (SHat.rotate Q).rho (SHat.rotate Q).c (SHat.rotate Q).u (Q *ᵥ d) * diagonal σ
      * matPinv γ (SHat.rotate Q).rho (SHat.rotate Q).c (SHat.rotate Q).u (Q *ᵥ d)) *ᵥ rotVec Q v
      = rotVec Q ((matP γ SHat.rho SHat.c SHat.u d * diagonal σ
        * matPinv γ SHat.rho SHat.c SHat.u d) *ᵥ v) := fun v =>
    conj_rotate_apply hQ SHat.rho SHat.c SHat.u d σ v
  rw [e, h3, h3, h6, h9, h3]
  simp only [← rotVec_sub, ← rotVec_add, ← rotVec_smul]

/-- **C76** The sponge layer. -/
theorem C76_sponge {Q : Matrix (Fin 2) (Fin 2) ℝ} (σ : ℝ) (S : GasState 2) (w : Fin 4 → ℝ) :
    ∃ R, spongeResidual γ σ (conservativeDict S) w = .ok R ∧
      spongeResidual γ σ (conservativeDict (S.rotate Q)) (rotVec Q w) = .ok (rotVec Q R) := by
  refine ⟨σ • (w - consVec S.rho S.rho_u S.rho_E), ?_, ?_⟩
  · simp [spongeResidual, stateVec_dict, bind, Except.bind]
  · simp only [spongeResidual, stateVec_dict, bind, Except.bind]
    rw [rotVec_smul, rotVec_sub]
    congr 3

/-! ### Viscous terms -/

theorem viscousFlux_rotate {n : ℕ} {Q : Matrix (Fin n) (Fin n) ℝ} (hQ : Orthogonal Q)
    (τ : Matrix (Fin n) (Fin n) ℝ) (κ : ℝ) (gT u d : Fin n → ℝ) :
    viscousFlux (Q * τ * Qᵀ) κ (Q *ᵥ gT) (Q *ᵥ u) (Q *ᵥ d) = rotVec Q (viscousFlux τ κ gT u d) := by
  have e : (Q * τ * Qᵀ) *ᵥ (Q *ᵥ d) = Q *ᵥ (τ *ᵥ d) := by
    rw [mulVec_mulVec, Matrix.mul_assoc, hQ, Matrix.mul_one, mulVec_mulVec]
  have h := rotVec_consVec Q 0 (τ *ᵥ d) ((τ *ᵥ d) ⬝ᵥ u + κ * (gT ⬝ᵥ d))
  refine Eq.trans ?_ h.symm
  show consVec 0 ((Q * τ * Qᵀ) *ᵥ (Q *ᵥ d)) (((Q * τ * Qᵀ) *ᵥ (Q *ᵥ d)) ⬝ᵥ (Q *ᵥ u)
    + κ * ((Q *ᵥ gT) ⬝ᵥ (Q *ᵥ d))) = _
  rw [e, hQ.dot, hQ.dot]

theorem viscosity_rotate (cfg : FlowCfg) (Q : Matrix (Fin 2) (Fin 2) ℝ) (S : GasState 2) :
    viscosity cfg (conservativeDict (S.rotate Q)) = viscosity cfg (conservativeDict S) := rfl

theorem rotMixed_eps (Q : Matrix (Fin 2) (Fin 2) ℝ) (q : Fin 5 → ℝ) :
    !![rotMixed Q q 0, rotMixed Q q 1; rotMixed Q q 1, rotMixed Q q 2]
      = Q * !![q 0, q 1; q 1, q 2] * Qᵀ := by
  ext i j
  fin_cases i <;> fin_cases j
  · rfl
  · rfl
  · show (Q * !![q 0, q 1; q 1, q 2] * Qᵀ) 0 1 = (Q * !![q 0, q 1; q 1, q 2] * Qᵀ) 1 0
    simp [Matrix.mul_apply, Fin.sum_univ_two]
    ring
  · rfl

theorem rotMixed_gradT (Q : Matrix (Fin 2) (Fin 2) ℝ) (q : Fin 5 → ℝ) :
    ![rotMixed Q q 3, rotMixed Q q 4] = Q *ᵥ ![q 3, q 4] := by
  funext i
  fin_cases i <;> rfl

/-- **C76** The viscous flux of the strain-heat method, and its numerical flux. -/
theorem C76_diffusive {Q : Matrix (Fin 2) (Fin 2) ℝ} (hQ : Orthogonal Q) {cfg : FlowCfg}
    (h : cfg.Accepted) (hv : cfg.visc ≠ .inviscid) (hM : 0 < cfg.Ma) {S : GasState 2}
    (hS : IdealGas cfg.γ S) (q : Fin 5 → ℝ) :
    ∃ F F', diffusiveFlux cfg (conservativeDict S) (strainHeatFields q) = .ok F ∧
      diffusiveFlux cfg (conservativeDict (S.rotate Q)) (strainHeatFields (rotMixed Q q)) = .ok F' ∧
      (∀ d, F' *ᵥ (Q *ᵥ d) = rotVec Q (F *ᵥ d)) ∧
      ∀ d w wHat, ∃ f, diffusiveNumericalFlux cfg w wHat (conservativeDict S)
          (strainHeatFields q) d = .ok f ∧
        diffusiveNumericalFlux cfg (rotVec Q w) (rotVec Q wHat) (conservativeDict (S.rotate Q))
          (strainHeatFields (rotMixed Q q)) (Q *ᵥ d) = .ok (rotVec Q f) := by
  obtain ⟨F, μ, r, hF, hμ, hr, -⟩ := C55_strain_heat_partial h hv hM hS q 0
  obtain ⟨F', μ', r', hF', hμ', hr', -⟩ := C55_strain_heat_partial h hv hM (hS.rotate hQ) (rotMixed Q q) 0
  have hFd : ∀ d, F' *ᵥ (Q *ᵥ d) = rotVec Q (F *ᵥ d) := by
    intro d
    obtain ⟨F₁, μ₁, r₁, h1, h2, h3, h4⟩ := C55_strain_heat_partial h hv hM hS q d
    obtain ⟨F₂, μ₂, r₂, h5, h6, h7, h8⟩ := C55_strain_heat_partial h hv hM (hS.rotate hQ) (rotMixed Q q)
      (Q *ᵥ d)
    rw [hF] at h1
    rw [hF'] at h5
    rw [viscosity_rotate, h2] at h6
    rw [h3] at h7
    cases h1
    cases h5
    cases h6
    cases h7
    rw [h4, h8, rotMixed_eps, rotMixed_gradT, ← viscousFlux_rotate hQ, Matrix.mul_smul,
      Matrix.smul_mul]
    rfl
  refine ⟨F, F', hF, hF', hFd, fun d w wHat => ?_⟩
  have hp := prandtl_eq (cfg := cfg) hv
  refine ⟨_, by simp only [diffusiveNumericalFlux, diffusiveStabilisation, hF, hμ, hr, hp, bind,
    Except.bind]; rfl, ?_⟩
  simp only [diffusiveNumericalFlux, diffusiveStabilisation, hF', viscosity_rotate, hμ, hr, hp, bind,
    Except.bind]
  rw [hFd, rotVec_sub, ← rotVec_sub]
  congr 2
  rw [rotVec_eq, rotVec_eq, mulVec_mulVec, mulVec_mulVec]
  congr 1
  rw [Matrix.smul_mul, Matrix.mul_smul, Bla.diagonalM_eq, lamVec_two]
  congr 1
  ext i j
  fin_cases i <;> fin_cases j <;>
    simp [rotM, Matrix.mul_apply, Fin.sum_univ_four, diagonal, lamVec]

/-! ### The integrals -/

theorem rotFlux_eq (Q : Matrix (Fin 2) (Fin 2) ℝ) (F : Matrix (Fin 4) (Fin 2) ℝ) :
    rotFlux Q F = rotM Q * F * Qᵀ := by
  rw [rotFlux]
  congr 1
  ext i j
  show rotVec Q (fun l => F l j) i = _
  rw [rotVec_eq]
  rfl

theorem frobenius_eq {k n : ℕ} (A C : Matrix (Fin k) (Fin n) ℝ) : frobenius A C = (Aᵀ * C).trace := by
  simp only [frobenius, Matrix.trace, Matrix.diag, Matrix.mul_apply, Matrix.transpose_apply]
  exact Finset.sum_comm

theorem frobenius_rotate {Q : Matrix (Fin 2) (Fin 2) ℝ} (hQ : Orthogonal Q)
    (A C : Matrix (Fin 4) (Fin 2) ℝ) : frobenius (rotFlux Q A) (rotFlux Q C) = frobenius A C := by
  rw [frobenius_eq, frobenius_eq, rotFlux_eq, rotFlux_eq]
  have : (rotM Q * A * Qᵀ)ᵀ * (rotM Q * C * Qᵀ) = Q * (Aᵀ * C) * Qᵀ := by
    rw [transpose_mul, transpose_mul, transpose_transpose]
    calc Q * (Aᵀ * (rotM Q)ᵀ) * (rotM Q * C * Qᵀ)
        = Q * (Aᵀ * ((rotM Q)ᵀ * rotM Q) * C) * Qᵀ := by simp only [Matrix.mul_assoc]
      _ = _ := by rw [rotM_orthogonal hQ, Matrix.mul_one]
  rw [this, trace_mul_comm, ← Matrix.mul_assoc, hQ, Matrix.one_mul]

variable {V B : Type} [Fintype V] [Fintype B]

theorem timeForm_rotate {Q : Matrix (Fin 2) (Fin 2) ℝ} (hQ : Orthogonal Q) (M : HdgMesh 2 V B)
    (dU : V → Fin 4 → ℝ) (φ : HdgTest 2 4 V B) :
    timeForm (rotMesh Q M) (fun v => rotVec Q (dU v)) (rotTest Q φ) = timeForm M dU φ := by
  simp only [timeForm, rotMesh, rotTest, rotVec_dot hQ]

theorem convectionForm_rotate {Q : Matrix (Fin 2) (Fin 2) ℝ} (hQ : Orthogonal Q)
    (M : HdgMesh 2 V B) (mask : B → ℝ) (F : V → Matrix (Fin 4) (Fin 2) ℝ) (Fn : B → Fin 4 → ℝ)
    (φ : HdgTest 2 4 V B) :
    convectionForm (rotMesh Q M) mask (fun v => rotFlux Q (F v)) (fun b => rotVec Q (Fn b))
      (rotTest Q φ) = convectionForm M mask F Fn φ := by
  simp only [convectionForm, rotMesh, rotTest, rotVec_dot hQ, frobenius_rotate hQ]

theorem diffusionForm_rotate {Q : Matrix (Fin 2) (Fin 2) ℝ} (hQ : Orthogonal Q)
    (M : HdgMesh 2 V B) (mask : B → ℝ) (F : V → Matrix (Fin 4) (Fin 2) ℝ) (Fn : B → Fin 4 → ℝ)
    (φ : HdgTest 2 4 V B) :
    diffusionForm (rotMesh Q M) mask (fun v => rotFlux Q (F v)) (fun b => rotVec Q (Fn b))
      (rotTest Q φ) = diffusionForm M mask F Fn φ := by
  simp only [diffusionForm, rotMesh, rotTest, rotVec_dot hQ, frobenius_rotate hQ]

theorem boundaryForm_rotate {Q : Matrix (Fin 2) (Fin 2) ℝ} (hQ : Orthogonal Q)
    (M : HdgMesh 2 V B) (R : B → Fin 4 → ℝ) (φ : HdgTest 2 4 V B) :
    boundaryForm (rotMesh Q M) (fun b => rotVec Q (R b)) (rotTest Q φ) = boundaryForm M R φ := by
  simp only [boundaryForm, rotMesh, rotTest, rotVec_dot hQ]

theorem mixedEps_rotate (Q : Matrix (Fin 2) (Fin 2) ℝ) (P : Fin 5 → ℝ) :
    mixedEps (rotMixed Q P) = Q * mixedEps P * Qᵀ := rotMixed_eps Q P

theorem mixedGradT_rotate (Q : Matrix (Fin 2) (Fin 2) ℝ) (P : Fin 5 → ℝ) :
    mixedGradT (rotMixed Q P) = Q *ᵥ mixedGradT P := rotMixed_gradT Q P

theorem devZeta_rotate {Q : Matrix (Fin 2) (Fin 2) ℝ} (hQ : Orthogonal Q) (P : Fin 5 → ℝ) :
    devZeta (rotMixed Q P) = Q * devZeta P * Qᵀ := by
  rw [devZeta, mixedEps_rotate, trace_mul_comm, ← Matrix.mul_assoc, hQ, Matrix.one_mul, devZeta,
    Matrix.mul_sub, Matrix.sub_mul, Matrix.mul_smul, Matrix.mul_one, Matrix.smul_mul, hQ.symm]

theorem orth_entries {Q : Matrix (Fin 2) (Fin 2) ℝ} (hQ : Orthogonal Q) :
    Q 0 0 * Q 0 0 + Q 1 0 * Q 1 0 = 1 ∧ Q 0 0 * Q 0 1 + Q 1 0 * Q 1 1 = 0 ∧
      Q 0 1 * Q 0 1 + Q 1 1 * Q 1 1 = 1 := by
  have h : ∀ i j, (Qᵀ * Q) i j = (1 : Matrix (Fin 2) (Fin 2) ℝ) i j := fun i j => by rw [hQ]
  have h00 := h 0 0
  have h01 := h 0 1
  have h11 := h 1 1
  simp [Matrix.mul_apply, Fin.sum_univ_two] at h00 h01 h11
  exact ⟨h00, h01, h11⟩

theorem divDevZeta_rotate {Q : Matrix (Fin 2) (Fin 2) ℝ} (hQ : Orthogonal Q)
    (g : Matrix (Fin 5) (Fin 2) ℝ) : divDevZeta (rotMixedGrad Q g) = Q *ᵥ divDevZeta g := by
  obtain ⟨h00, h01, h11⟩ := orth_entries hQ
  have key : ∀ i : Fin 2, divDevZeta (rotMixedGrad Q g) i = (Q *ᵥ divDevZeta g) i := by
    intro i
    fin_cases i
    · simp [divDevZeta, rotMixedGrad, rotMixed, Matrix.mul_apply, mulVec, dotProduct,
        Fin.sum_univ_two]
      linear_combination
        Q 0 0 * (g 0 0 * h00 + (g 1 0 + g 0 1) * h01 + g 1 1 * h11)
        + Q 0 1 * (g 1 0 * h00 + (g 2 0 + g 1 1) * h01 + g 2 1 * h11)
        - 1 / 3 * (Q 0 0 * (g 0 0 * h00 + 2 * g 1 0 * h01 + g 2 0 * h11)
          + Q 0 1 * (g 0 1 * h00 + 2 * g 1 1 * h01 + g 2 1 * h11))
    · simp [divDevZeta, rotMixedGrad, rotMixed, Matrix.mul_apply, mulVec, dotProduct,
        Fin.sum_univ_two]
      linear_combination
        Q 1 0 * (g 0 0 * h00 + (g 1 0 + g 0 1) * h01 + g 1 1 * h11)
        + Q 1 1 * (g 1 0 * h00 + (g 2 0 + g 1 1) * h01 + g 2 1 * h11)
        - 1 / 3 * (Q 1 0 * (g 0 0 * h00 + 2 * g 1 0 * h01 + g 2 0 * h11)
          + Q 1 1 * (g 0 1 * h00 + 2 * g 1 1 * h01 + g 2 1 * h11))
  exact funext key

theorem divXi_rotate {Q : Matrix (Fin 2) (Fin 2) ℝ} (hQ : Orthogonal Q)
    (g : Matrix (Fin 5) (Fin 2) ℝ) : divXi (rotMixedGrad Q g) = divXi g := by
  obtain ⟨h00, h01, h11⟩ := orth_entries hQ
  simp [divXi, rotMixedGrad, rotMixed, Matrix.mul_apply, mulVec, dotProduct, Fin.sum_univ_two]
  linear_combination g 3 0 * h00 + (g 4 0 + g 3 1) * h01 + g 4 1 * h11

/-- **C76** The equations of the mixed variables. -/
theorem C76_mixed {Q : Matrix (Fin 2) (Fin 2) ℝ} (hQ : Orthogonal Q) (M : HdgMesh 2 V B)
    (q : V → Fin 5 → ℝ) (u : V → Fin 2 → ℝ) (T : V → ℝ) (uHat : B → Fin 2 → ℝ) (THat : B → ℝ)
    (P : MixedTest V B) :
    mixedForm (rotMesh Q M) (fun v => rotMixed Q (q v)) (fun v => Q *ᵥ u v) T
      (fun b => Q *ᵥ uHat b) THat (rotMixedTest Q P) = mixedForm M q u T uHat THat P := by
  have e1 : ∀ A C : Matrix (Fin 2) (Fin 2) ℝ,
      ∑ i, ∑ j, (Q * A * Qᵀ) i j * (Q * C * Qᵀ) i j = ∑ i, ∑ j, A i j * C i j := by
    intro A C
    have := frobenius_eq (Q * A * Qᵀ) (Q * C * Qᵀ)
    have h2 := frobenius_eq A C
    unfold frobenius at this h2
    rw [this, h2, transpose_mul, transpose_mul, transpose_transpose]
    calc (Q * (Aᵀ * Qᵀ) * (Q * C * Qᵀ)).trace = (Q * (Aᵀ * (Qᵀ * Q) * C) * Qᵀ).trace := by
          simp only [Matrix.mul_assoc]
      _ = _ := by
          rw [hQ, Matrix.mul_one, trace_mul_comm, ← Matrix.mul_assoc, hQ, Matrix.one_mul]
  have e2 : ∀ (A : Matrix (Fin 2) (Fin 2) ℝ) (d : Fin 2 → ℝ),
      (Q * A * Qᵀ) *ᵥ (Q *ᵥ d) = Q *ᵥ (A *ᵥ d) := by
    intro A d
    rw [mulVec_mulVec, Matrix.mul_assoc, hQ, Matrix.mul_one, mulVec_mulVec]
  simp only [mixedForm, mixedStrainVolume, mixedHeatVolume, mixedStrainFacet, mixedHeatFacet,
    rotMesh, rotMixedTest, mixedEps_rotate, mixedGradT_rotate, devZeta_rotate hQ,
    divDevZeta_rotate hQ, divXi_rotate hQ, e1, e2, hQ.dot, ← mulVec_smul]

theorem rotFlux_apply {Q : Matrix (Fin 2) (Fin 2) ℝ} (hQ : Orthogonal Q)
    {F F' : Matrix (Fin 4) (Fin 2) ℝ} (h : ∀ d, F' *ᵥ (Q *ᵥ d) = rotVec Q (F *ᵥ d)) :
    F' = rotFlux Q F := by
  have e : F' * Q = rotM Q * F := by
    ext i j
    have := congrFun (h (Pi.single j 1)) i
    rw [rotVec_eq, mulVec_mulVec, mulVec_mulVec] at this
    simpa using this
  rw [rotFlux_eq, ← e, Matrix.mul_assoc, hQ.symm, Matrix.mul_one]

/-- **C76** The discrete equations of a time step hold in one system of axes exactly when they
hold in every other: turn the mesh, the test functions and the three states. -/
theorem C76_step {Q : Matrix (Fin 2) (Fin 2) ℝ} (hQ : Orthogonal Q) (M : HdgMesh 2 V B)
    (mask : B → ℝ) (T : Set (HdgTest 2 4 V B)) (s : Scheme) (dt : ℝ) (t : ℚ)
    (x cur prev : HdgState 2 4 V B) :
    hdgStep (rotMesh Q M) mask (rotTest Q '' T) (s.quotient dt) t (rotState Q x) (rotState Q cur)
        (rotState Q prev) ↔
      hdgStep M mask T (s.quotient dt) t x cur prev := by
  have hq : (fun v i => s.quotient dt ((rotState Q x).U v i) ((rotState Q cur).U v i)
      ((rotState Q prev).U v i))
      = fun v => rotVec Q fun i => s.quotient dt (x.U v i) (cur.U v i) (prev.U v i) := by
    funext v i
    simp only [rotState, rotVec_eq]
    cases s
    · simp only [Scheme.quotient, backwardEuler, mulVec, dotProduct, Fin.sum_univ_four]
      ring
    · simp only [Scheme.quotient, backward2, mulVec, dotProduct, Fin.sum_univ_four]
      ring
  have key : ∀ φ : HdgTest 2 4 V B,
      timeForm (rotMesh Q M) (fun v i => s.quotient dt ((rotState Q x).U v i)
        ((rotState Q cur).U v i) ((rotState Q prev).U v i)) (rotTest Q φ)
      + convectionForm (rotMesh Q M) mask (rotState Q x).F (rotState Q x).Fn (rotTest Q φ)
      + diffusionForm (rotMesh Q M) mask (rotState Q x).G (rotState Q x).Gn (rotTest Q φ)
      + boundaryForm (rotMesh Q M) (rotState Q x).R (rotTest Q φ)
      + timeForm (rotMesh Q M) (rotState Q x).source (rotTest Q φ)
      = timeForm M (fun v i => s.quotient dt (x.U v i) (cur.U v i) (prev.U v i)) φ
      + convectionForm M mask x.F x.Fn φ + diffusionForm M mask x.G x.Gn φ
      + boundaryForm M x.R φ + timeForm M x.source φ := by
    intro φ
    rw [hq, timeForm_rotate hQ]
    congr 1
    · congr 1
      · congr 1
        · congr 1
          exact convectionForm_rotate hQ M mask x.F x.Fn φ
        · exact diffusionForm_rotate hQ M mask x.G x.Gn φ
      · exact boundaryForm_rotate hQ M x.R φ
    · exact timeForm_rotate hQ M x.source φ
  constructor
  · intro h φ hφ
    rw [← key φ]
    exact h _ ⟨φ, hφ, rfl⟩
  · rintro h _ ⟨φ, hφ, rfl⟩
    rw [key φ]
    exact h φ hφ

/-- **C76** The fluxes of the inviscid equations for the turned state are the turned fluxes. -/
theorem C76_euler {Q : Matrix (Fin 2) (Fin 2) ℝ} (hQ : Orthogonal Q) (rs : Riemann)
    {M : HdgMesh 2 V B} (hn : ∀ b, M.normal b 0 ^ 2 + M.normal b 1 ^ 2 = 1)
    {x : HdgState 2 4 V B} {tr hat : B → Fin 4 → ℝ} {S : V → GasState 2} {SHat : B → GasState 2}
    (hS : ∀ v, IdealGas γ (S v)) (hSHat : ∀ b, IdealGas γ (SHat b))
    (hU : ∀ v, x.U v = gasVec (S v)) (hHat : ∀ b, hat b = gasVec (SHat b))
    (h : x.IsEuler γ rs M tr hat) :
    (rotState Q x).IsEuler γ rs (rotMesh Q M) (fun b => rotVec Q (tr b))
      fun b => rotVec Q (hat b) where
  flux := by
    intro v
    obtain ⟨U, h1, h2⟩ := h.flux v
    rw [hU v, fields_vec (hS v)] at h1
    cases h1
    refine ⟨conservativeDict ((S v).rotate Q), ?_, ?_⟩
    · simp only [rotState, hU v, ← gasVec_rotate]
      exact fields_vec ((hS v).rotate hQ)
    · obtain ⟨F, F', e1, e2, -⟩ := C76_convective hQ (hS v) 0
      rw [h2] at e1
      cases e1
      rw [e2]
      congr 1
      refine rotFlux_apply hQ fun d => ?_
      obtain ⟨F₁, F₂, e3, e4, e5⟩ := C76_convective hQ (hS v) d
      rw [h2] at e3
      rw [e2] at e4
      cases e3
      cases e4
      exact e5
  numerical := by
    intro b
    obtain ⟨UHat, h1, h2⟩ := h.numerical b
    rw [hHat b, fields_vec (hSHat b)] at h1
    cases h1
    refine ⟨conservativeDict ((SHat b).rotate Q), ?_, ?_⟩
    · rw [hHat b, ← gasVec_rotate]
      exact fields_vec ((hSHat b).rotate hQ)
    · obtain ⟨f, e1, e2⟩ := C76_numerical hQ (hSHat b) rs (hn b) (tr b) (hat b)
      rw [h2] at e1
      cases e1
      exact e2
  inviscid := by
    have z : rotFlux Q (0 : Matrix (Fin 4) (Fin 2) ℝ) = 0 := by simp [rotFlux_eq]
    have z' : rotVec Q (0 : Fin 4 → ℝ) = 0 := by simp [rotVec_eq]
    exact ⟨funext fun v => by simp [rotState, h.inviscid.1, z],
      funext fun b => by simp [rotState, h.inviscid.2, z']⟩

/-- **C76** The same for the viscous equations with the strain-heat method. -/
theorem C76_navier_stokes {Q : Matrix (Fin 2) (Fin 2) ℝ} (hQ : Orthogonal Q) {cfg : FlowCfg}
    (ha : cfg.Accepted) (hv : cfg.visc ≠ .inviscid) (hM : 0 < cfg.Ma) (rs : Riemann)
    {M : HdgMesh 2 V B} (hn : ∀ b, M.normal b 0 ^ 2 + M.normal b 1 ^ 2 = 1)
    {x : HdgState 2 4 V B} {tr hat : B → Fin 4 → ℝ} {q : V → Fin 5 → ℝ} {qtr : B → Fin 5 → ℝ}
    {S : V → GasState 2} {SHat : B → GasState 2}
    (hS : ∀ v, IdealGas cfg.γ (S v)) (hSHat : ∀ b, IdealGas cfg.γ (SHat b))
    (hU : ∀ v, x.U v = gasVec (S v)) (hHat : ∀ b, hat b = gasVec (SHat b))
    (h : x.IsNavierStokes cfg rs M tr hat q qtr) :
    (rotState Q x).IsNavierStokes cfg rs (rotMesh Q M) (fun b => rotVec Q (tr b))
      (fun b => rotVec Q (hat b)) (fun v => rotMixed Q (q v)) fun b => rotMixed Q (qtr b) where
  flux := by
    intro v
    obtain ⟨U, h1, h2, h3⟩ := h.flux v
    rw [hU v, fields_vec (hS v)] at h1
    cases h1
    refine ⟨conservativeDict ((S v).rotate Q), ?_, ?_, ?_⟩
    · simp only [rotState, hU v, ← gasVec_rotate]
      exact fields_vec ((hS v).rotate hQ)
    · obtain ⟨F, F', e1, e2, -⟩ := C76_convective hQ (hS v) 0
      rw [h2] at e1
      cases e1
      rw [e2]
      congr 1
      refine rotFlux_apply hQ fun d => ?_
      obtain ⟨F₁, F₂, e3, e4, e5⟩ := C76_convective hQ (hS v) d
      rw [h2] at e3
      rw [e2] at e4
      cases e3
      cases e4
      exact e5
    · obtain ⟨F, F', e1, e2, e3, -⟩ := C76_diffusive hQ ha hv hM (hS v) (q v)
      rw [h3] at e1
      cases e1
      rw [e2]
      congr 1
      exact rotFlux_apply hQ e3
  numerical := by
    intro b
    obtain ⟨UHat, h1, h2, h3⟩ := h.numerical b
    rw [hHat b, fields_vec (hSHat b)] at h1
    cases h1
    refine ⟨conservativeDict ((SHat b).rotate Q), ?_, ?_, ?_⟩
    · rw [hHat b, ← gasVec_rotate]
      exact fields_vec ((hSHat b).rotate hQ)
    · obtain ⟨f, e1, e2⟩ := C76_numerical hQ (hSHat b) rs (hn b) (tr b) (hat b)
      rw [h2] at e1
      cases e1
      exact e2
    · obtain ⟨-, -, -, -, -, e⟩ := C76_diffusive hQ ha hv hM (hSHat b) (qtr b)
      obtain ⟨f, e1, e2⟩ := e (M.normal b) (tr b) (hat b)
      rw [h3] at e1
      cases e1
      exact e2

/-! ### Free stream and forces -/

theorem unit_rotate {n : ℕ} {Q : Matrix (Fin n) (Fin n) ℝ} (hQ : Orthogonal Q) (d : Fin n → ℝ) :
    Bla.unitVector (Q *ᵥ d) = Q *ᵥ Bla.unitVector d := by
  simp only [Bla.unitVector, hQ.dot, mulVec_smul]

/-- **C76** The free stream in a turned direction is the turned free stream. -/
theorem C76_freestream {n : ℕ} {Q : Matrix (Fin n) (Fin n) ℝ} (hQ : Orthogonal Q) {cfg : FlowCfg}
    (h : cfg.Accepted) (d : Fin n → ℝ) :
    ∃ S : GasState n, IdealGas cfg.γ S ∧
      getFarfieldState cfg n d = .ok
        { rho := some S.rho, u := some S.u, p := some S.p, T := some S.T, c := some S.c,
          rho_E := some S.rho_E, rho_Ek := some S.rho_Ek, rho_Ei := some S.rho_Ei } ∧
      getFarfieldState cfg n (Q *ᵥ d) = .ok
        { rho := some S.rho, u := some (Q *ᵥ S.u), p := some S.p, T := some S.T, c := some S.c,
          rho_E := some S.rho_E, rho_Ek := some S.rho_Ek, rho_Ei := some S.rho_Ei } := by
  refine ⟨farState cfg d, farState_ideal h d, farfield_eq h d, ?_⟩
  rw [farfield_eq h]
  have e : farState cfg (Q *ᵥ d) = (farState cfg d).rotate Q := by
    simp only [farState, GasState.of, GasState.rotate, unit_rotate hQ, ← mulVec_smul, hQ.dot]
  rw [e]
  rfl

/-- **C76** Drag and lift do not depend on the axes. -/
theorem C76_forces {Q : Matrix (Fin 2) (Fin 2) ℝ} (hQ : Orthogonal Q) {cfg : FlowCfg}
    (h : cfg.Accepted) (hv : cfg.visc ≠ .inviscid) (hM : 0 < cfg.Ma) {S : GasState 2}
    (hS : IdealGas cfg.γ S) (q : Fin 5 → ℝ) (Uref : Flow 2) (d dir : Fin 2 → ℝ) :
    forceCoefficient cfg (conservativeDict (S.rotate Q)) (strainHeatFields (rotMixed Q q)) Uref
        (Q *ᵥ d) (Q *ᵥ dir) =
      forceCoefficient cfg (conservativeDict S) (strainHeatFields q) Uref d dir := by
  obtain ⟨μ, hμ, μ0⟩ := visc_pos h hv (U := conservativeDict S) rfl hS.T_pos
  obtain ⟨r, hr, r0⟩ := ref_pos h hv hM
  have p1 : pressure cfg.γ (conservativeDict S) = .ok S.p := by
    simp [pressure, EOS.pressure, conservativeDict, equation, equationE]
  have p2 : pressure cfg.γ (conservativeDict (S.rotate Q)) = .ok S.p := by
    simp [pressure, EOS.pressure, conservativeDict, equation, equationE, GasState.rotate]
  have d1 : deviatoricStressTensor cfg (conservativeDict S) (strainHeatFields q)
      = .ok ((2 * μ / r) • !![q 0, q 1; q 1, q 2]) := by
    simp [deviatoricStressTensor, hμ, hr, strainRateTensor, strainHeatFields, equation, equationE,
      bind, Except.bind]
  have d2 : deviatoricStressTensor cfg (conservativeDict (S.rotate Q))
      (strainHeatFields (rotMixed Q q))
      = .ok ((2 * μ / r) • (Q * !![q 0, q 1; q 1, q 2] * Qᵀ)) := by
    rw [← rotMixed_eps]
    simp [deviatoricStressTensor, viscosity_rotate, hμ, hr, strainRateTensor, strainHeatFields,
      equation, equationE, bind, Except.bind]
  have s1 : stressTensor cfg (conservativeDict S) (strainHeatFields q)
      = .ok (-S.p • (1 : Matrix (Fin 2) (Fin 2) ℝ) + (2 * μ / r) • !![q 0, q 1; q 1, q 2]) := by
    simp only [stressTensor, p1, d1, bind, Except.bind]
  have s2 : stressTensor cfg (conservativeDict (S.rotate Q)) (strainHeatFields (rotMixed Q q))
      = .ok (Q * (-S.p • (1 : Matrix (Fin 2) (Fin 2) ℝ) + (2 * μ / r) • !![q 0, q 1; q 1, q 2])
        * Qᵀ) := by
    rw [Matrix.mul_add, Matrix.add_mul, Matrix.mul_smul, Matrix.mul_one, Matrix.smul_mul, hQ.symm,
      Matrix.mul_smul, Matrix.smul_mul]
    simp only [stressTensor, p2, d2, bind, Except.bind]
  simp only [forceCoefficient, s1, s2, bind, Except.bind, unit_rotate hQ]
  rw [mulVec_mulVec, Matrix.mul_assoc, hQ, Matrix.mul_one, ← mulVec_mulVec, hQ.dot]

/-! ### What fails -/

/-- **C76** The viscous terms of the characteristic conditions depend on the axes, for every fluid
and every state: after turning everything by a right angle they are not the turned terms. -/
theorem C76_fails_cbc_viscous {cfg : FlowCfg} (h : cfg.Accepted) (hv : cfg.visc ≠ .inviscid)
    (hM : 0 < cfg.Ma) {S : GasState 2} (hS : IdealGas cfg.γ S) (q : Fin 5 → ℝ) :
    ∃ (Q : Matrix (Fin 2) (Fin 2) ℝ) (gQ : Matrix (Fin 5) (Fin 2) ℝ) (v v' : Fin 4 → ℝ),
      Orthogonal Q ∧
      cbcViscousTerms cfg .outflow (conservativeDict S) (strainHeatFields q) 0 gQ ![1, 0] ![0, 1]
        = .ok v ∧
      cbcViscousTerms cfg .outflow (conservativeDict (S.rotate Q))
        (strainHeatFields (rotMixed Q q)) 0 (rotMixedGrad Q gQ) (Q *ᵥ ![1, 0]) (Q *ᵥ ![0, 1])
        = .ok v' ∧
      v' ≠ rotVec Q v := by
  obtain ⟨μ, hμ, μ0⟩ := visc_pos h hv (U := conservativeDict S) rfl hS.T_pos
  obtain ⟨r, hr, r0⟩ := ref_pos h hv hM
  have hμ' : viscosity cfg (conservativeDict (S.rotate !![0, -1; 1, 0])) = .ok μ := hμ
  have hQ : Orthogonal (!![0, -1; 1, 0] : Matrix (Fin 2) (Fin 2) ℝ) := by
    ext i j
    fin_cases i <;> fin_cases j <;> simp [Matrix.mul_apply, Fin.sum_univ_two]
  let gQ : Matrix (Fin 5) (Fin 2) ℝ := !![1, 0; 0, 0; 0, 0; 0, 0; 0, 0]
  have t1 : gQ *ᵥ ![0, 1] = 0 := by
    funext i; fin_cases i <;> simp [gQ, mulVec, dotProduct, Fin.sum_univ_two]
  have t2 : gQ *ᵥ ![1, 0] = ![1, 0, 0, 0, 0] := by
    funext i; fin_cases i <;> simp [gQ, mulVec, dotProduct, Fin.sum_univ_two]
  have r1 : (!![0, -1; 1, 0] : Matrix (Fin 2) (Fin 2) ℝ) *ᵥ ![1, 0] = ![0, 1] := by
    funext i; fin_cases i <;> simp [mulVec, dotProduct, Fin.sum_univ_two]
  have r2 : (!![0, -1; 1, 0] : Matrix (Fin 2) (Fin 2) ℝ) *ᵥ ![0, 1] = ![-1, 0] := by
    funext i; fin_cases i <;> simp [mulVec, dotProduct, Fin.sum_univ_two]
  have t3 : rotMixedGrad !![0, -1; 1, 0] gQ *ᵥ ![-1, 0] = 0 := by
    funext i
    fin_cases i <;> simp [gQ, rotMixedGrad, rotMixed, mulVec, dotProduct, Fin.sum_univ_two,
      Matrix.mul_apply]
  have t4 : rotMixedGrad !![0, -1; 1, 0] gQ *ᵥ ![0, 1] = ![0, 0, 1, 0, 0] := by
    funext i
    fin_cases i <;> simp [gQ, rotMixedGrad, rotMixed, mulVec, dotProduct, Fin.sum_univ_two,
      Matrix.mul_apply]
  have c1 : cbcGradQ .outflow ![1, 0] ![0, 1] ![1, 0, 0, 0, 0] = ![1, 0, 0, 0, 0] :=
    (C58_fails_outflow _).1.trans (by simp)
  have c2 : cbcGradQ .outflow ![0, 1] ![-1, 0] ![0, 0, 1, 0, 0] = 0 := by
    funext i
    fin_cases i <;>
      simp [cbcGradQ, flat, Matrix.mul_apply, Fin.sum_univ_two, Matrix.mulVec, dotProduct,
        Matrix.transpose_apply]
  have j := fun (S : GasState 2) (q : Fin 5 → ℝ) (d : Fin 2 → ℝ)
    (hμ : viscosity cfg (conservativeDict S) = .ok μ) => consDiffJac_eq (cfg := cfg)
    (U := conservativeDict S) (ρ := S.rho) rfl (u := S.u) rfl hμ hr q d
  have m := fun (S : GasState 2) (d : Fin 2 → ℝ)
    (hμ : viscosity cfg (conservativeDict S) = .ok μ) => mixedJac_eq hv
    (U := conservativeDict S) (u := S.u) rfl hμ hr d
  have hv1 : ∃ v, cbcViscousTerms cfg .outflow (conservativeDict S) (strainHeatFields q) 0 gQ
      ![1, 0] ![0, 1] = .ok v ∧ v 1 = 2 * (μ / r) := by
    refine ⟨_, by simp only [cbcViscousTerms, j _ _ _ hμ, m _ _ hμ, bind, Except.bind]; rfl, ?_⟩
    rw [t1, t2, c1]
    simp [mulVec, dotProduct, Fin.sum_univ_four, Fin.sum_univ_five]
    ring
  obtain ⟨v, e1, e2⟩ := hv1
  refine ⟨!![0, -1; 1, 0], gQ, v, 0, hQ, e1, ?_, ?_⟩
  · simp only [cbcViscousTerms, r1, r2, j _ _ _ hμ', m _ _ hμ', bind, Except.bind, t3, t4, c2,
      zero_mulVec, mulVec_zero, add_zero]
  · intro e
    have := congrFun e 2
    rw [rotVec_eq] at this
    simp [rotM, mulVec, dotProduct, Fin.sum_univ_four, e2] at this
    rcases this with h | h <;> linarith

/-! ### A concrete case -/

/-- C76, concrete instance: a rotation that maps no axis to an axis, and a reflection. -/
example : Orthogonal (!![3 / 5, -(4 / 5); 4 / 5, 3 / 5] : Matrix (Fin 2) (Fin 2) ℝ) ∧
    Orthogonal (!![3 / 5, 4 / 5; 4 / 5, -(3 / 5)] : Matrix (Fin 2) (Fin 2) ℝ) := by
  constructor <;>
  · ext i j
    fin_cases i <;> fin_cases j <;> norm_num [Matrix.mul_apply, Fin.sum_univ_two]

example : rotVec (!![3 / 5, -(4 / 5); 4 / 5, 3 / 5] : Matrix (Fin 2) (Fin 2) ℝ) ![1, 5, 0, 2]
    = ![1, 3, 4, 2] := by
  rw [rotVec_eq]
  funext i
  fin_cases i <;> simp [rotM, mulVec, dotProduct, Fin.sum_univ_four] <;> norm_num

example : ∃ f, convectiveNumericalFlux (7 / 5) (.hllem 1) ![1, 0, 0, 3] ![2, 0, 0, 3]
      (conservativeDict airState) ![1, 0] = .ok f ∧
    convectiveNumericalFlux (7 / 5) (.hllem 1) (rotVec !![3 / 5, -(4 / 5); 4 / 5, 3 / 5] ![1, 0, 0, 3])
      (rotVec !![3 / 5, -(4 / 5); 4 / 5, 3 / 5] ![2, 0, 0, 3])
      (conservativeDict (airState.rotate !![3 / 5, -(4 / 5); 4 / 5, 3 / 5]))
      (!![3 / 5, -(4 / 5); 4 / 5, 3 / 5] *ᵥ ![1, 0])
      = .ok (rotVec !![3 / 5, -(4 / 5); 4 / 5, 3 / 5] f) :=
  C76_numerical (by
    ext i j
    fin_cases i <;> fin_cases j <;> norm_num [Matrix.mul_apply, Fin.sum_univ_two])
    airState_ideal (.hllem 1) (by norm_num) _ _

end Dream
