import Verif.Props.Splitting

/-!
# C28: Riemann solvers
-/

namespace Dream
open Matrix Spec

variable {γ rho c : ℝ} {u d : Fin 2 → ℝ} {U : Flow 2}

theorem velocity_some {n : ℕ} {U : Flow n} {u : Fin n → ℝ} (hu : U.u = some u) :
    velocity U = .ok u := by
  simp [velocity, hu, equation, equationE]

theorem speedOfSound_some {n : ℕ} {U : Flow n} {c : ℝ} (hc : U.c = some c) :
    speedOfSound γ U = .ok c := by
  simp [speedOfSound, EOS.speedOfSound, hc, equation, equationE]

theorem tauLF_eq (hu : U.u = some u) (hc : U.c = some c) :
    tauLaxFriedrich γ U d = .ok ((|u ⬝ᵥ d| + c) • (1 : Matrix (Fin 4) (Fin 4) ℝ)) := by
  simp [tauLaxFriedrich, velocity_some hu, speedOfSound_some hc, bind, Except.bind, Bla.abs_eq]

theorem tauHLL_eq (hu : U.u = some u) (hc : U.c = some c) :
    tauHLL γ U d = .ok (max (u ⬝ᵥ d + c) 0 • (1 : Matrix (Fin 4) (Fin 4) ℝ)) := by
  simp [tauHLL, velocity_some hu, speedOfSound_some hc, bind, Except.bind, Bla.max_eq]

theorem tauRoe_eq (hr : U.rho = some rho) (hu : U.u = some u) (hc : U.c = some c) :
    tauRoe γ U d = .ok (matP γ rho c u d * diagonal (fun i => |lams c u d i|) *
      matPinv γ rho c u d) := by
  unfold tauRoe
  rw [charVel_eq hu hc (fun x => |x|) _ (by simp)]
  simp only [bind, Except.bind, Bla.diagonalM_eq]
  exact transCons hr hu hc _

theorem tauHLLEM_eq (θ₀ : ℝ) (hr : U.rho = some rho) (hu : U.u = some u) (hc : U.c = some c) :
    tauHLLEM γ θ₀ U d = .ok (matP γ rho c u d * diagonal (max (u ⬝ᵥ d + c) 0 •
      ![1, max (|u ⬝ᵥ d| / (|u ⬝ᵥ d| + c)) θ₀, max (|u ⬝ᵥ d| / (|u ⬝ᵥ d| + c)) θ₀, 1]) *
      matPinv γ rho c u d) := by
  unfold tauHLLEM
  rw [velocity_some hu, speedOfSound_some hc]
  simp only [bind, Except.bind, Bla.diagonalM_eq, Bla.max_eq, Bla.abs_eq, lamVec_two]
  rw [transCons hr hu hc]
  simp only [diagonal_smul, Matrix.mul_smul, Matrix.smul_mul]

theorem one_conj {P Q : Matrix (Fin 4) (Fin 4) ℝ} (h : P * Q = 1) (a : ℝ) :
    a • (1 : Matrix (Fin 4) (Fin 4) ℝ) = P * diagonal (fun _ => a) * Q := by
  have : diagonal (fun _ : Fin 4 => a) = a • (1 : Matrix (Fin 4) (Fin 4) ℝ) := by
    rw [smul_one_eq_diagonal]
  rw [this, Matrix.mul_smul, Matrix.smul_mul, Matrix.mul_one, h]

/-- The eigenvalues of the stabilisation matrix of each Riemann solver, in the order of the
characteristic velocities. -/
noncomputable def Riemann.sigma (c : ℝ) (u d : Fin 2 → ℝ) : Riemann → Fin 4 → ℝ
  | .upwind => fun i => max (lams c u d i) 0
  | .laxFriedrich => fun _ => |u ⬝ᵥ d| + c
  | .roe => fun i => |lams c u d i|
  | .hll => fun _ => max (u ⬝ᵥ d + c) 0
  | .hllem θ₀ => max (u ⬝ᵥ d + c) 0 •
      ![1, max (|u ⬝ᵥ d| / (|u ⬝ᵥ d| + c)) θ₀, max (|u ⬝ᵥ d| / (|u ⬝ᵥ d| + c)) θ₀, 1]

theorem Riemann.tau_eq (rs : Riemann) (hγ : 1 < γ) (hr : U.rho = some rho) (hu : U.u = some u)
    (hc : U.c = some c) (r0 : 0 < rho) (c0 : 0 < c) (hd : d 0 ^ 2 + d 1 ^ 2 = 1) :
    rs.tau γ U d = .ok (matP γ rho c u d * diagonal (rs.sigma c u d) * matPinv γ rho c u d) := by
  have hP := P_mul_Pinv (u := u) r0.ne' c0.ne' (γ := γ) (by linarith) hd
  cases rs with
  | upwind => exact consJac_eq hr hu hc (fun x => max x 0) _ (by simp)
  | laxFriedrich =>
    rw [Riemann.tau, tauLF_eq hu hc, one_conj hP]; rfl
  | roe => exact tauRoe_eq hr hu hc
  | hll =>
    rw [Riemann.tau, tauHLL_eq hu hc, one_conj hP]; rfl
  | hllem θ₀ => exact tauHLLEM_eq θ₀ hr hu hc

theorem Riemann.sigma_ge (rs : Riemann) (c0 : 0 < c) (i : Fin 4) :
    max (lams c u d i) 0 ≤ rs.sigma c u d i := by
  have key : ∀ i, max (lams c u d i) 0 ≤ max (u ⬝ᵥ d + c) 0 := by
    intro i
    refine max_le_max ?_ le_rfl
    fin_cases i
    · show u ⬝ᵥ d - c ≤ _; linarith
    · show u ⬝ᵥ d ≤ _; linarith
    · show u ⬝ᵥ d ≤ _; linarith
    · exact le_rfl
  have hmid (θ₀ : ℝ) : max (u ⬝ᵥ d) 0 ≤ max (u ⬝ᵥ d + c) 0 *
      max (|u ⬝ᵥ d| / (|u ⬝ᵥ d| + c)) θ₀ := by
    have hpos : 0 < |u ⬝ᵥ d| + c := by positivity
    have h1 : max (u ⬝ᵥ d + c) 0 * (|u ⬝ᵥ d| / (|u ⬝ᵥ d| + c)) ≤ max (u ⬝ᵥ d + c) 0 *
        max (|u ⬝ᵥ d| / (|u ⬝ᵥ d| + c)) θ₀ :=
      mul_le_mul_of_nonneg_left (le_max_left _ _) (le_max_right _ _)
    refine le_trans ?_ h1
    rcases le_total 0 (u ⬝ᵥ d) with h | h
    · rw [max_eq_left h, max_eq_left (by linarith), abs_of_nonneg h]
      rw [abs_of_nonneg h] at hpos
      rw [mul_div_cancel₀ _ hpos.ne']
    · rw [max_eq_right h]
      exact mul_nonneg (le_max_right _ _) (by positivity)
  cases rs with
  | upwind => exact le_rfl
  | laxFriedrich =>
    show _ ≤ |u ⬝ᵥ d| + c
    refine (key i).trans (max_le ?_ (by positivity))
    linarith [le_abs_self (u ⬝ᵥ d)]
  | roe => exact max_le (le_abs_self _) (abs_nonneg _)
  | hll => exact key i
  | hllem θ₀ =>
    fin_cases i
    · exact (key 0).trans (by simp [Riemann.sigma])
    · exact hmid θ₀
    · exact hmid θ₀
    · exact (key 3).trans (by simp [Riemann.sigma])

/-- **C28** Every Riemann solver returns a stabilisation matrix that is diagonal in a common
eigenbasis with the conservative Jacobian and whose eigenvalues are at least the positive parts
of the characteristic velocities; in particular they are non-negative. For HLLEM this holds for
every threshold. -/
theorem C28_dissipative (rs : Riemann) (hγ : 1 < γ) (hr : U.rho = some rho) (hu : U.u = some u)
    (hc : U.c = some c) (r0 : 0 < rho) (c0 : 0 < c) (hd : d 0 ^ 2 + d 1 ^ 2 = 1) :
    ∃ A τ, conservativeConvectiveJacobian γ U d none = .ok A ∧ rs.tau γ U d = .ok τ ∧
      Stabilises τ A := by
  have hP := Pinv_mul_P (u := u) r0.ne' c0.ne' (γ := γ) (by linarith) hd
  exact ⟨_, _, consJac_eq hr hu hc id none (by simp), rs.tau_eq hγ hr hu hc r0 c0 hd,
    _, _, _, isUnit_of hP, mulDiag hP _, mulDiag hP _, fun i => rs.sigma_ge c0 i⟩

/-- **C28** Upwind is exactly the outgoing part of the Jacobian, Roe exactly its absolute
value. -/
theorem C28_upwind_roe (hγ : 1 < γ) (hr : U.rho = some rho) (hu : U.u = some u)
    (hc : U.c = some c) (r0 : 0 < rho) (c0 : 0 < c) (hd : d 0 ^ 2 + d 1 ^ 2 = 1) :
    ∃ A τu τr, conservativeConvectiveJacobian γ U d none = .ok A ∧
      Riemann.upwind.tau γ U d = .ok τu ∧ Riemann.roe.tau γ U d = .ok τr ∧
      IsFun (fun x => max x 0) A τu ∧ IsFun (fun x => |x|) A τr := by
  have hP := Pinv_mul_P (u := u) r0.ne' c0.ne' (γ := γ) (by linarith) hd
  exact ⟨_, _, _, consJac_eq hr hu hc id none (by simp),
    Riemann.upwind.tau_eq hγ hr hu hc r0 c0 hd, Riemann.roe.tau_eq hγ hr hu hc r0 c0 hd,
    isFun_conj hP _ _, isFun_conj hP _ _⟩

/-- **C28** Lax-Friedrichs and HLL are the multiples `|uₙ| + c` and `max(uₙ + c, 0)` of the
identity, in any space dimension and for any supplied fields from which velocity and speed of
sound can be computed. -/
theorem C28_lax_friedrich_hll {n : ℕ} {U : Flow n} {u : Fin n → ℝ} {c : ℝ} (e : Fin n → ℝ)
    (hu : velocity U = .ok u) (hc : speedOfSound γ U = .ok c) :
    Riemann.laxFriedrich.tau γ U e = .ok ((|u ⬝ᵥ e| + c) • 1) ∧
    Riemann.hll.tau γ U e = .ok (max (u ⬝ᵥ e + c) 0 • 1) := by
  simp [Riemann.tau, tauLaxFriedrich, tauHLL, hu, hc, bind, Except.bind, Bla.abs_eq, Bla.max_eq]

/-- **C28** HLLEM is less dissipative than HLL if the threshold is at most one, and coincides
with it on the acoustic waves. -/
theorem C28_hllem_le_hll (θ₀ : ℝ) (h0 : θ₀ ≤ 1) (hγ : 1 < γ) (hr : U.rho = some rho)
    (hu : U.u = some u) (hc : U.c = some c) (r0 : 0 < rho) (c0 : 0 < c)
    (hd : d 0 ^ 2 + d 1 ^ 2 = 1) :
    ∃ τ τ' P σ σ', (Riemann.hllem θ₀).tau γ U d = .ok τ ∧ Riemann.hll.tau γ U d = .ok τ' ∧
      conservativeFromCharacteristic γ U d = .ok P ∧
      τ * P = P * diagonal σ ∧ τ' * P = P * diagonal σ' ∧ (∀ i, σ i ≤ σ' i) ∧
      σ 0 = σ' 0 ∧ σ 3 = σ' 3 := by
  have hP := Pinv_mul_P (u := u) r0.ne' c0.ne' (γ := γ) (by linarith) hd
  refine ⟨_, _, _, _, _, (Riemann.hllem θ₀).tau_eq hγ hr hu hc r0 c0 hd,
    Riemann.hll.tau_eq hγ hr hu hc r0 c0 hd, consFromChar hr hu hc, mulDiag hP _, mulDiag hP _,
    ?_, by simp [Riemann.sigma], by simp [Riemann.sigma]⟩
  have h1 : max (|u ⬝ᵥ d| / (|u ⬝ᵥ d| + c)) θ₀ ≤ 1 := by
    refine max_le ?_ h0
    rw [div_le_one (by positivity)]
    linarith
  have h2 : max (u ⬝ᵥ d + c) 0 * max (|u ⬝ᵥ d| / (|u ⬝ᵥ d| + c)) θ₀ ≤ max (u ⬝ᵥ d + c) 0 * 1 :=
    mul_le_mul_of_nonneg_left h1 (le_max_right _ _)
  rw [mul_one] at h2
  intro i
  fin_cases i
  · simp [Riemann.sigma]
  · exact h2
  · exact h2
  · simp [Riemann.sigma]

/-- **C28** Consistency: if the interior and the trace value coincide, the numerical flux is
the physical Euler flux, for every Riemann solver. -/
theorem C28_consistent {S : GasState 2} (rs : Riemann) (hS : IdealGas γ S)
    (hd : d 0 ^ 2 + d 1 ^ 2 = 1) (w : Fin 4 → ℝ) :
    convectiveNumericalFlux γ rs w w (conservativeDict S) d
      = .ok (eulerFlux γ d S.rho S.rho_u S.rho_E) := by
  obtain ⟨F, hF, hFd⟩ := C26_flux_conservative hS d
  have := rs.tau_eq (U := conservativeDict S) (d := d) hS.gamma rfl rfl rfl hS.rho_pos
    hS.sound_pos hd
  unfold convectiveNumericalFlux
  rw [this, hF]
  simp only [bind, Except.bind, sub_self, mulVec_zero, add_zero, hFd]

/-- **C28** In general the numerical flux is the physical flux of the trace plus the
stabilisation matrix times the jump. -/
theorem C28_flux {S : GasState 2} (rs : Riemann) (hS : IdealGas γ S)
    (hd : d 0 ^ 2 + d 1 ^ 2 = 1) (w w' : Fin 4 → ℝ) :
    ∃ τ, rs.tau γ (conservativeDict S) d = .ok τ ∧
      convectiveNumericalFlux γ rs w w' (conservativeDict S) d
        = .ok (eulerFlux γ d S.rho S.rho_u S.rho_E + τ *ᵥ (w - w')) := by
  obtain ⟨F, hF, hFd⟩ := C26_flux_conservative hS d
  have := rs.tau_eq (U := conservativeDict S) (d := d) hS.gamma rfl rfl rfl hS.rho_pos
    hS.sound_pos hd
  refine ⟨_, this, ?_⟩
  unfold convectiveNumericalFlux
  rw [this, hF]
  simp only [bind, Except.bind, hFd]

section Flip

/-- Exchange of the acoustic waves and sign change of the shear wave. -/
def flipMat : Matrix (Fin 4) (Fin 4) ℝ := !![0, 0, 0, 1; 0, 1, 0, 0; 0, 0, -1, 0; 1, 0, 0, 0]

theorem matP_neg : matP γ rho c u (-d) = matP γ rho c u d * flipMat := by
  ext i j
  fin_cases i <;> fin_cases j <;>
    simp [matP, flipMat, Matrix.mul_apply, Fin.sum_univ_succ] <;> ring

theorem matPinv_neg : matPinv γ rho c u (-d) = flipMat * matPinv γ rho c u d := by
  ext i j
  fin_cases i <;> fin_cases j <;>
    simp [matPinv, flipMat, Matrix.mul_apply, Fin.sum_univ_succ] <;> ring

theorem flip_diag (a b b' e : ℝ) :
    flipMat * diagonal ![a, b, b', e] * flipMat = diagonal ![e, b, b', a] := by
  ext i j
  rw [Matrix.mul_apply]
  simp only [mul_diagonal, Fin.sum_univ_succ]
  fin_cases i <;> fin_cases j <;> simp [flipMat, diagonal]

theorem conj_flip (f : ℝ → ℝ) :
    matP γ rho c u (-d) * diagonal (fun i => f (lams c u (-d) i)) * matPinv γ rho c u (-d)
      = matP γ rho c u d * diagonal (fun i => f (-lams c u d i)) * matPinv γ rho c u d := by
  have h : (fun i => f (lams c u (-d) i)) = ![f (-(u ⬝ᵥ d + c)), f (-(u ⬝ᵥ d)), f (-(u ⬝ᵥ d)),
      f (-(u ⬝ᵥ d - c))] := by
    funext i
    fin_cases i <;> simp [lams, dotProduct_neg] <;> congr 1 <;> ring
  have h' : (fun i => f (-lams c u d i)) = ![f (-(u ⬝ᵥ d - c)), f (-(u ⬝ᵥ d)), f (-(u ⬝ᵥ d)),
      f (-(u ⬝ᵥ d + c))] := by
    funext i
    fin_cases i <;> simp [lams]
  rw [h, h', matP_neg, matPinv_neg]
  rw [← flip_diag (f (-(u ⬝ᵥ d + c)))]
  simp only [Matrix.mul_assoc]

/-- **C28** The Lax-Friedrichs and Roe matrices do not change if the normal is reversed, so
both sides of a face use the same stabilisation. -/
theorem C28_flip_invariant (hr : U.rho = some rho) (hu : U.u = some u) (hc : U.c = some c)
    (rs : Riemann) (hrs : rs = .laxFriedrich ∨ rs = .roe) :
    ∃ τ, rs.tau γ U d = .ok τ ∧ rs.tau γ U (-d) = .ok τ := by
  rcases hrs with rfl | rfl
  · exact ⟨_, tauLF_eq hu hc, by
      rw [Riemann.tau, tauLF_eq hu hc, dotProduct_neg, abs_neg]⟩
  · refine ⟨_, tauRoe_eq hr hu hc, ?_⟩
    rw [Riemann.tau, tauRoe_eq hr hu hc, conj_flip fun x => |x|]
    simp only [abs_neg]

/-- **C28** For Upwind the matrices of the two sides differ by the Jacobian:
`A⁺(n) - A⁺(-n) = A(n)`. -/
theorem C28_upwind_flip (hr : U.rho = some rho) (hu : U.u = some u) (hc : U.c = some c) :
    ∃ A τ τ', conservativeConvectiveJacobian γ U d none = .ok A ∧
      Riemann.upwind.tau γ U d = .ok τ ∧ Riemann.upwind.tau γ U (-d) = .ok τ' ∧ τ - τ' = A := by
  refine ⟨_, _, _, consJac_eq hr hu hc id none (by simp),
    consJac_eq hr hu hc (fun x => max x 0) _ (by simp),
    consJac_eq hr hu hc (fun x => max x 0) _ (by simp), ?_⟩
  rw [conj_flip fun x => max x 0, conj_sub, diagonal_sub]
  congr 3; funext i
  show max (lams c u d i) 0 - max (-lams c u d i) 0 = lams c u d i
  rcases le_total 0 (lams c u d i) with h | h
  · rw [max_eq_left h, max_eq_right (by linarith)]; ring
  · rw [max_eq_right h, max_eq_left (by linarith)]; ring

theorem eulerFlux_neg {n : ℕ} (γ : ℝ) (e : Fin n → ℝ) (ρ : ℝ) (m : Fin n → ℝ) (E : ℝ) :
    eulerFlux γ (-e) ρ m E = -eulerFlux γ e ρ m E := by
  funext i
  refine Fin.cases ?_ (fun j => ?_) i
  · simp [eulerFlux, dotProduct_neg]
  · refine Fin.lastCases ?_ (fun k => ?_) j
    · simp only [eulerFlux, Fin.cons_succ, Fin.snoc_last, dotProduct_neg, Pi.neg_apply]; ring
    · simp only [eulerFlux, Fin.cons_succ, Fin.snoc_castSucc, dotProduct_neg, Pi.neg_apply]; ring

/-- **C28** Conservation with Lax-Friedrichs: the fluxes of two neighbours with values `w₁`,
`w₂` and common trace `ŵ` cancel exactly if the trace is the mean value. -/
theorem C28_lax_friedrich_conservative {S : GasState 2} (hS : IdealGas γ S)
    (hd : d 0 ^ 2 + d 1 ^ 2 = 1) (w₁ w₂ wHat : Fin 4 → ℝ) :
    ∃ f₁ f₂, convectiveNumericalFlux γ .laxFriedrich w₁ wHat (conservativeDict S) d = .ok f₁ ∧
      convectiveNumericalFlux γ .laxFriedrich w₂ wHat (conservativeDict S) (-d) = .ok f₂ ∧
      (f₁ + f₂ = 0 ↔ wHat = (1 / 2 : ℝ) • (w₁ + w₂)) := by
  have hd' : (-d) 0 ^ 2 + (-d) 1 ^ 2 = 1 := by simpa using hd
  obtain ⟨τ₁, h1, e1⟩ := C28_flux .laxFriedrich hS hd w₁ wHat
  obtain ⟨τ₂, h2, e2⟩ := C28_flux .laxFriedrich hS hd' w₂ wHat
  refine ⟨_, _, e1, e2, ?_⟩
  have t1 := tauLF_eq (γ := γ) (U := conservativeDict S) (d := d) rfl rfl
  have t2 := tauLF_eq (γ := γ) (U := conservativeDict S) (d := -d) rfl rfl
  rw [Riemann.tau] at h1 h2
  rw [t1] at h1; rw [t2] at h2
  obtain rfl := Except.ok.inj h1
  obtain rfl := Except.ok.inj h2
  have hpos : (0 : ℝ) < |S.u ⬝ᵥ d| + S.c := by have := hS.sound_pos; positivity
  rw [eulerFlux_neg, dotProduct_neg, abs_neg, smul_mulVec, smul_mulVec, one_mulVec, one_mulVec]
  have e : eulerFlux γ d S.rho S.rho_u S.rho_E + (|S.u ⬝ᵥ d| + S.c) • (w₁ - wHat) +
      (-eulerFlux γ d S.rho S.rho_u S.rho_E + (|S.u ⬝ᵥ d| + S.c) • (w₂ - wHat))
      = (|S.u ⬝ᵥ d| + S.c) • ((w₁ + w₂) - (2 : ℝ) • wHat) := by
    module
  rw [e, smul_eq_zero_iff_right hpos.ne', sub_eq_zero]
  constructor
  · intro h; rw [h]; module
  · intro h; rw [h]; module

end Flip

/-- A state to which the C28 theorems apply. -/
example : IdealGas (7 / 5) airState ∧ (conservativeDict airState).rho = some 2 ∧
    ((![3/5, 4/5] : Fin 2 → ℝ) 0) ^ 2 + ((![3/5, 4/5] : Fin 2 → ℝ) 1) ^ 2 = 1 :=
  ⟨airState_ideal, by simp [conservativeDict, airState], by norm_num⟩

end Dream
