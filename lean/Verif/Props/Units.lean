import Verif.Spec.Units
import Verif.Props.FreestreamViscous

/-!
# C77: the choice of the scaling does not matter
-/

set_option linter.unusedSectionVars false

noncomputable section

namespace Dream
open Matrix Spec

variable {γ s : ℝ}

/-! ### Gas states -/

theorem _root_.Spec.IdealGas.scale {n : ℕ} (hs : 0 < s) {S : GasState n} (hS : IdealGas γ S) :
    IdealGas γ (S.scale s) where
  gamma := hS.gamma
  rho_pos := hS.rho_pos
  T_pos := by have := hS.T_pos; simp only [GasState.scale]; positivity
  gas_law := by simp only [GasState.scale]; rw [hS.gas_law]; ring
  caloric := by simp only [GasState.scale]; rw [hS.caloric]; ring
  sound_pos := by have := hS.sound_pos; simp only [GasState.scale]; positivity
  sound := by simp only [GasState.scale]; rw [mul_pow, hS.sound]; ring
  kinetic := by
    simp only [GasState.scale, smul_dotProduct, dotProduct_smul, smul_eq_mul]
    rw [hS.kinetic]
    ring
  total := by simp only [GasState.scale]; rw [hS.total]; ring
  enthalpy := by simp only [GasState.scale]; rw [hS.enthalpy]; ring
  momentum := by simp only [GasState.scale]; rw [hS.momentum, smul_comm]
  rho_E := by simp only [GasState.scale]; rw [hS.rho_E]; ring
  rho_Ei := by simp only [GasState.scale]; rw [hS.rho_Ei]; ring
  rho_Ek := by simp only [GasState.scale]; rw [hS.rho_Ek]; ring
  rho_H := by simp only [GasState.scale]; rw [hS.rho_H]; ring

theorem scaleVec_consVec (s ρ : ℝ) (m : Fin 2 → ℝ) (e : ℝ) :
    scaleVec s (consVec ρ m e) = consVec ρ (s • m) (s ^ 2 * e) := by
  funext i
  fin_cases i
  · show 1 * ρ = ρ; ring
  · rfl
  · rfl
  · rfl

theorem gasVec_scale (s : ℝ) (S : GasState 2) : gasVec (S.scale s) = scaleVec s (gasVec S) :=
  (scaleVec_consVec s S.rho S.rho_u S.rho_E).symm

theorem scaleVec_add (s : ℝ) (w w' : Fin 4 → ℝ) :
    scaleVec s (w + w') = scaleVec s w + scaleVec s w' := by
  funext i; simp only [scaleVec, Pi.add_apply]; ring

theorem scaleVec_sub (s : ℝ) (w w' : Fin 4 → ℝ) :
    scaleVec s (w - w') = scaleVec s w - scaleVec s w' := by
  funext i; simp only [scaleVec, Pi.sub_apply]; ring

theorem scaleVec_smul (s a : ℝ) (w : Fin 4 → ℝ) : scaleVec s (a • w) = a • scaleVec s w := by
  funext i; simp only [scaleVec, Pi.smul_apply, smul_eq_mul]; ring

theorem scaleVec_eq (s : ℝ) (w : Fin 4 → ℝ) :
    scaleVec s w = diagonal (unitFactors s) *ᵥ w := by
  funext i
  simp [scaleVec, mulVec_diagonal]

theorem eulerFlux_scale (s : ℝ) (d : Fin 2 → ℝ) (ρ : ℝ) (m : Fin 2 → ℝ) (e : ℝ) :
    eulerFlux γ d ρ (s • m) (s ^ 2 * e) = s • scaleVec s (eulerFlux γ d ρ m e) := by
  have h := scaleVec_consVec s (m ⬝ᵥ d) (fun i : Fin 2 => m i * (m ⬝ᵥ d) / ρ
    + (γ - 1) * (e - (m ⬝ᵥ m) / (2 * ρ)) * d i)
    ((e + (γ - 1) * (e - (m ⬝ᵥ m) / (2 * ρ))) * (m ⬝ᵥ d) / ρ)
  funext i
  fin_cases i
  · show (s • m) ⬝ᵥ d = s * (1 * (m ⬝ᵥ d))
    simp
  · show (s • m) 0 * ((s • m) ⬝ᵥ d) / ρ + (γ - 1) * (s ^ 2 * e - ((s • m) ⬝ᵥ (s • m)) / (2 * ρ)) * d 0
      = s * (s * (m 0 * (m ⬝ᵥ d) / ρ + (γ - 1) * (e - (m ⬝ᵥ m) / (2 * ρ)) * d 0))
    simp only [smul_dotProduct, dotProduct_smul, smul_eq_mul, Pi.smul_apply]
    ring
  · show (s • m) 1 * ((s • m) ⬝ᵥ d) / ρ + (γ - 1) * (s ^ 2 * e - ((s • m) ⬝ᵥ (s • m)) / (2 * ρ)) * d 1
      = s * (s * (m 1 * (m ⬝ᵥ d) / ρ + (γ - 1) * (e - (m ⬝ᵥ m) / (2 * ρ)) * d 1))
    simp only [smul_dotProduct, dotProduct_smul, smul_eq_mul, Pi.smul_apply]
    ring
  · show (s ^ 2 * e + (γ - 1) * (s ^ 2 * e - ((s • m) ⬝ᵥ (s • m)) / (2 * ρ))) * ((s • m) ⬝ᵥ d) / ρ
      = s * (s ^ 2 * ((e + (γ - 1) * (e - (m ⬝ᵥ m) / (2 * ρ))) * (m ⬝ᵥ d) / ρ))
    simp only [smul_dotProduct, dotProduct_smul, smul_eq_mul]
    ring

/-! ### Eigenvector matrices -/

/-- Factors of the characteristic variables. -/
def charFactors (s : ℝ) : Fin 4 → ℝ := ![s ^ 2, s ^ 2, s, s ^ 2]

theorem matP_scale (hs : s ≠ 0) (rho : ℝ) {c : ℝ} (hc : c ≠ 0) (u d : Fin 2 → ℝ) :
    matP γ rho (s * c) (s • u) d
      = diagonal (unitFactors s) * matP γ rho c u d * diagonal fun i => (charFactors s i)⁻¹ := by
  ext i j
  rw [mul_diagonal, diagonal_mul]
  fin_cases i <;> fin_cases j <;>
    simp [matP, unitFactors, charFactors, dotProduct, Fin.sum_univ_two] <;> field_simp

theorem matPinv_scale (hs : s ≠ 0) (rho c : ℝ) (u d : Fin 2 → ℝ) :
    matPinv γ rho (s * c) (s • u) d
      = diagonal (charFactors s) * matPinv γ rho c u d * diagonal fun i => (unitFactors s i)⁻¹ := by
  ext i j
  rw [mul_diagonal, diagonal_mul]
  fin_cases i <;> fin_cases j <;>
    simp [matPinv, unitFactors, charFactors, dotProduct, Fin.sum_univ_two] <;> field_simp

theorem conj_scale (hs : s ≠ 0) (rho : ℝ) {c : ℝ} (hc : c ≠ 0) (u d : Fin 2 → ℝ)
    (σ : Fin 4 → ℝ) (w : Fin 4 → ℝ) :
    (matP γ rho (s * c) (s • u) d * diagonal σ * matPinv γ rho (s * c) (s • u) d) *ᵥ scaleVec s w
      = scaleVec s ((matP γ rho c u d * diagonal σ * matPinv γ rho c u d) *ᵥ w) := by
  have hk : (diagonal fun i => (charFactors s i)⁻¹) * diagonal σ * diagonal (charFactors s)
      = diagonal σ := by
    rw [diagonal_mul_diagonal, diagonal_mul_diagonal]
    congr 1
    funext i
    have : charFactors s i ≠ 0 := by fin_cases i <;> simp [charFactors, hs]
    field_simp
  have hu : (diagonal fun i => (unitFactors s i)⁻¹) * diagonal (unitFactors s) = 1 := by
    rw [diagonal_mul_diagonal, ← diagonal_one]
    congr 1
    funext i
    have : unitFactors s i ≠ 0 := by fin_cases i <;> simp [unitFactors, hs]
    field_simp
  rw [matP_scale hs rho hc, matPinv_scale hs, scaleVec_eq, scaleVec_eq, mulVec_mulVec, mulVec_mulVec]
  congr 1
  calc _ = diagonal (unitFactors s) * (matP γ rho c u d * ((diagonal fun i => (charFactors s i)⁻¹)
        * diagonal σ * diagonal (charFactors s)) * matPinv γ rho c u d)
        * ((diagonal fun i => (unitFactors s i)⁻¹) * diagonal (unitFactors s)) := by
        simp only [Matrix.mul_assoc]
    _ = _ := by rw [hk, hu, Matrix.mul_one]

theorem lams_scale (s c : ℝ) (u d : Fin 2 → ℝ) : lams (s * c) (s • u) d = s • lams c u d := by
  funext i
  fin_cases i <;> simp [lams] <;> ring

theorem sigma_scale (hs : 0 < s) (rs : Riemann) (c : ℝ) (u d : Fin 2 → ℝ) :
    rs.sigma (s * c) (s • u) d = s • rs.sigma c u d := by
  have hm : ∀ x : ℝ, max (s * x) 0 = s * max x 0 := fun x => by
    rw [mul_max_of_nonneg _ _ hs.le, mul_zero]
  have e1 : (s • u) ⬝ᵥ d + s * c = s * (u ⬝ᵥ d + c) := by simp; ring
  have e2 : |(s • u) ⬝ᵥ d| + s * c = s * (|u ⬝ᵥ d| + c) := by
    rw [smul_dotProduct, smul_eq_mul, abs_mul, abs_of_pos hs]; ring
  have e3 : |(s • u) ⬝ᵥ d| = s * |u ⬝ᵥ d| := by
    rw [smul_dotProduct, smul_eq_mul, abs_mul, abs_of_pos hs]
  cases rs with
  | upwind => funext i; simp only [Riemann.sigma, lams_scale, Pi.smul_apply, smul_eq_mul, hm]
  | laxFriedrich => funext i; simp only [Riemann.sigma, e2, Pi.smul_apply, smul_eq_mul]
  | roe =>
    funext i
    simp only [Riemann.sigma, lams_scale, Pi.smul_apply, smul_eq_mul, abs_mul, abs_of_pos hs]
  | hll => funext i; simp only [Riemann.sigma, e1, hm, Pi.smul_apply, smul_eq_mul]
  | hllem θ =>
    simp only [Riemann.sigma, e1, hm, mul_smul]
    rw [e2, e3, mul_div_mul_left _ _ hs.ne']

/-! ### Convective fluxes -/

/-- **C77** The convective flux in other units. -/
theorem C77_convective (hs : 0 < s) {S : GasState 2} (hS : IdealGas γ S) :
    ∃ F, convectiveFlux γ (conservativeDict S) = .ok F ∧
      convectiveFlux γ (conservativeDict (S.scale s)) = .ok (scaleFlux s F) := by
  obtain ⟨F, h1, -⟩ := C26_flux_conservative hS 0
  obtain ⟨F', h2, -⟩ := C26_flux_conservative (hS.scale hs) 0
  refine ⟨F, h1, ?_⟩
  rw [h2]
  congr 1
  ext i j
  obtain ⟨F₁, h3, h4⟩ := C26_flux_conservative hS (Pi.single j 1)
  obtain ⟨F₂, h5, h6⟩ := C26_flux_conservative (hS.scale hs) (Pi.single j 1)
  rw [h1] at h3
  rw [h2] at h5
  cases h3
  cases h5
  have e := eulerFlux_scale (γ := γ) s (Pi.single j 1) S.rho S.rho_u S.rho_E
  have e' : F' *ᵥ Pi.single j 1 = s • scaleVec s (F *ᵥ Pi.single j 1) := by
    rw [h6, h4]; exact e
  have := congrFun e' i
  simpa [scaleVec, scaleFlux] using this

/-- **C77** The numerical flux of every Riemann solver in other units. -/
theorem C77_numerical (hs : 0 < s) {S : GasState 2} (hS : IdealGas γ S) (rs : Riemann)
    {d : Fin 2 → ℝ} (hd : d 0 ^ 2 + d 1 ^ 2 = 1) (w wHat : Fin 4 → ℝ) :
    ∃ f, convectiveNumericalFlux γ rs w wHat (conservativeDict S) d = .ok f ∧
      convectiveNumericalFlux γ rs (scaleVec s w) (scaleVec s wHat) (conservativeDict (S.scale s)) d
        = .ok (s • scaleVec s f) := by
  obtain ⟨τ, h1, h2⟩ := C28_flux rs hS hd w wHat
  obtain ⟨τ', h3, h4⟩ := C28_flux rs (hS.scale hs) hd (scaleVec s w) (scaleVec s wHat)
  refine ⟨_, h2, ?_⟩
  rw [h4, scaleVec_add, smul_add, ← eulerFlux_scale]
  have e1 := rs.tau_eq (γ := γ) (U := conservativeDict S) (d := d) hS.gamma rfl rfl rfl hS.rho_pos
    hS.sound_pos hd
  have e2 := rs.tau_eq (γ := γ) (U := conservativeDict (S.scale s)) (d := d) hS.gamma rfl rfl
    rfl hS.rho_pos (hS.scale hs).sound_pos hd
  rw [h1] at e1
  rw [h3] at e2
  cases e1
  cases e2
  congr 2
  rw [← scaleVec_sub]
  have : rs.sigma (S.scale s).c (S.scale s).u d = s • rs.sigma S.c S.u d :=
    sigma_scale hs rs S.c S.u d
  rw [this, diagonal_smul, Matrix.mul_smul, Matrix.smul_mul, smul_mulVec]
  congr 1
  exact conj_scale hs.ne' _ hS.sound_pos.ne' _ _ _ _

/-! ### Boundary conditions -/

theorem scaleVec_zero (s : ℝ) : scaleVec s 0 = 0 := by
  funext i; simp [scaleVec]

theorem consJac_scale (hs : 0 < s) {S : GasState 2} (hc : 0 < S.c)
    (d : Fin 2 → ℝ) (f : ℝ → ℝ) (type : Option String)
    (h : (type = none ∧ f = id) ∨ (type = some "absolute" ∧ f = fun x => |x|) ∨
      (type = some "incoming" ∧ f = fun x => min x 0) ∨
      (type = some "outgoing" ∧ f = fun x => max x 0)) :
    ∃ A A', conservativeConvectiveJacobian γ (conservativeDict S) d type = .ok A ∧
      conservativeConvectiveJacobian γ (conservativeDict (S.scale s)) d type = .ok A' ∧
      ∀ w, A' *ᵥ scaleVec s w = s • scaleVec s (A *ᵥ w) := by
  refine ⟨_, _, consJac_eq rfl rfl rfl f type h, consJac_eq rfl rfl rfl f type h, fun w => ?_⟩
  have hf : ∀ x, f (s * x) = s * f x := by
    intro x
    rcases h with ⟨-, rfl⟩ | ⟨-, rfl⟩ | ⟨-, rfl⟩ | ⟨-, rfl⟩
    · rfl
    · simp only [abs_mul, abs_of_pos hs]
    · simp only [mul_min_of_nonneg _ _ hs.le, mul_zero]
    · simp only [mul_max_of_nonneg _ _ hs.le, mul_zero]
  have : (fun i => f (lams (S.scale s).c (S.scale s).u d i))
      = s • fun i => f (lams S.c S.u d i) := by
    rw [show lams (S.scale s).c (S.scale s).u d = s • lams S.c S.u d from lams_scale _ _ _ _]
    funext i
    simp only [Pi.smul_apply, smul_eq_mul, hf]
  rw [this, diagonal_smul, Matrix.mul_smul, Matrix.smul_mul, smul_mulVec]
  congr 1
  exact conj_scale hs.ne' _ hc.ne' _ _ _ _

theorem consId_scale (hs : 0 < s) {S : GasState 2} (hc : 0 < S.c)
    (d : Fin 2 → ℝ) (f : ℝ → ℝ) (type : Option String)
    (h : (type = some "incoming" ∧ f = negInd) ∨ (type = some "outgoing" ∧ f = posInd)) :
    ∃ A A', conservativeConvectiveIdentity γ (conservativeDict S) d type = .ok A ∧
      conservativeConvectiveIdentity γ (conservativeDict (S.scale s)) d type = .ok A' ∧
      ∀ w, A' *ᵥ scaleVec s w = scaleVec s (A *ᵥ w) := by
  refine ⟨_, _, consId_eq rfl rfl rfl f type h, consId_eq rfl rfl rfl f type h, fun w => ?_⟩
  have hf : ∀ x, f (s * x) = f x := by
    intro x
    rcases h with ⟨-, rfl⟩ | ⟨-, rfl⟩
    · simp only [negInd, mul_neg_iff, hs, hs.not_gt, true_and, false_and, or_false]
    · simp only [posInd, mul_pos_iff, hs, hs.not_gt, true_and, false_and, or_false]
  have : (fun i => f (lams (S.scale s).c (S.scale s).u d i))
      = fun i => f (lams S.c S.u d i) := by
    rw [show lams (S.scale s).c (S.scale s).u d = s • lams S.c S.u d from lams_scale _ _ _ _]
    funext i
    simp only [Pi.smul_apply, smul_eq_mul, hf]
  rw [this]
  exact conj_scale hs.ne' _ hc.ne' _ _ _ _

/-- **C77** The far-field condition, in both variants. -/
theorem C77_farfield (hs : 0 < s) {S : GasState 2} (hc : 0 < S.c) (Sinf : GasState 2)
    (ident : Bool) (d : Fin 2 → ℝ) (w wHat : Fin 4 → ℝ) :
    ∃ R, farfieldResidual γ ident (conservativeDict Sinf) d w wHat (conservativeDict S) = .ok R ∧
      farfieldResidual γ ident (conservativeDict (Sinf.scale s)) d (scaleVec s w)
        (scaleVec s wHat) (conservativeDict (S.scale s))
        = .ok ((if ident then 1 else s) • scaleVec s R) := by
  have e : consVec (Sinf.scale s).rho (Sinf.scale s).rho_u (Sinf.scale s).rho_E
      = scaleVec s (consVec Sinf.rho Sinf.rho_u Sinf.rho_E) := gasVec_scale s Sinf
  cases ident with
  | true =>
    obtain ⟨A, A', h1, h2, h3⟩ := consId_scale (γ := γ) hs hc d negInd (some "incoming")
      (.inl ⟨rfl, rfl⟩)
    obtain ⟨C, C', h4, h5, h6⟩ := consId_scale (γ := γ) hs hc d posInd (some "outgoing")
      (.inr ⟨rfl, rfl⟩)
    refine ⟨wHat - C *ᵥ w - A *ᵥ consVec Sinf.rho Sinf.rho_u Sinf.rho_E, ?_, ?_⟩
    · simp [farfieldResidual, stateVec_dict, h1, h4, bind, Except.bind]
    · simp only [farfieldResidual, stateVec_dict, h2, h5, bind, Except.bind, if_true]
      rw [e, h3, h6, scaleVec_sub, scaleVec_sub, one_smul]
  | false =>
    obtain ⟨A, A', h1, h2, h3⟩ := consJac_scale (γ := γ) hs hc d (fun x => min x 0)
      (some "incoming") (.inr (.inr (.inl ⟨rfl, rfl⟩)))
    obtain ⟨C, C', h4, h5, h6⟩ := consJac_scale (γ := γ) hs hc d (fun x => max x 0)
      (some "outgoing") (.inr (.inr (.inr ⟨rfl, rfl⟩)))
    refine ⟨C *ᵥ (wHat - w) - A *ᵥ (wHat - consVec Sinf.rho Sinf.rho_u Sinf.rho_E), ?_, ?_⟩
    · simp [farfieldResidual, stateVec_dict, h1, h4, bind, Except.bind]
    · simp only [farfieldResidual, stateVec_dict, h2, h5, bind, Except.bind]
      rw [e, ← scaleVec_sub, ← scaleVec_sub, h3, h6, ← smul_sub, ← scaleVec_sub]
      rfl

/-- **C77** The inviscid wall and the symmetry plane. -/
theorem C77_wall (s : ℝ) (S : GasState 2) (d : Fin 2 → ℝ) (wHat : Fin 4 → ℝ) :
    ∃ R, inviscidWallResidual γ d (conservativeDict S) wHat = .ok R ∧
      inviscidWallResidual γ d (conservativeDict (S.scale s)) (scaleVec s wHat)
        = .ok (scaleVec s R) := by
  obtain ⟨h1, h2, h3⟩ := dictState γ S
  obtain ⟨h4, h5, h6⟩ := dictState γ (S.scale s)
  refine ⟨wHat - consVec S.rho (S.rho_u - (S.rho_u ⬝ᵥ d) • d) S.rho_E, ?_, ?_⟩
  · simp [inviscidWallResidual, h1, h2, h3, bind, Except.bind]
  · simp only [inviscidWallResidual, h4, h5, h6, bind, Except.bind]
    rw [scaleVec_sub, scaleVec_consVec, smul_sub, smul_smul]
    simp only [GasState.scale, smul_dotProduct, smul_eq_mul]

/-- **C77** The isothermal wall; its temperature is measured in the new units. -/
theorem C77_isothermal (s : ℝ) (S : GasState 2) {bc bc' : Flow 2} {T : ℝ}
    (hT : bc.T = some T) (hT' : bc'.T = some (s ^ 2 * T)) (wHat : Fin 4 → ℝ) :
    ∃ R, isothermalWallResidual γ bc (conservativeDict S) wHat = .ok R ∧
      isothermalWallResidual γ bc' (conservativeDict (S.scale s)) (scaleVec s wHat)
        = .ok (scaleVec s R) := by
  refine ⟨wHat - consVec S.rho 0 (S.rho * T / γ), ?_, ?_⟩
  · simp [isothermalWallResidual, given, hT, conservativeDict, density, EOS.density, momentum,
      innerEnergy, EOS.innerEnergy, equation, equationE, bind, Except.bind]
    rfl
  · rw [scaleVec_sub, scaleVec_consVec, smul_zero,
      show s ^ 2 * (S.rho * T / γ) = S.rho * (s ^ 2 * T) / γ by ring]
    simp [isothermalWallResidual, given, hT', conservativeDict, density, EOS.density, momentum,
      innerEnergy, EOS.innerEnergy, equation, equationE, bind, Except.bind, GasState.scale]
    rfl

/-- **C77** The pressure outflow; its pressure is measured in the new units. -/
theorem C77_outflow (s : ℝ) (S : GasState 2) {bc bc' : Flow 2} {p : ℝ}
    (hp : bc.p = some p) (hp' : bc'.p = some (s ^ 2 * p)) (wHat : Fin 4 → ℝ) :
    ∃ R, outflowResidual γ bc (conservativeDict S) wHat = .ok R ∧
      outflowResidual γ bc' (conservativeDict (S.scale s)) (scaleVec s wHat)
        = .ok (scaleVec s R) := by
  refine ⟨wHat - consVec S.rho S.rho_u (p / (γ - 1) + S.rho_Ek), ?_, ?_⟩
  · simp [outflowResidual, outflowState, stateVec, given, hp, conservativeDict, density,
      EOS.density, momentum, energy, innerEnergy, EOS.innerEnergy, kineticEnergy, equation,
      equationE, bind, Except.bind]
  · rw [scaleVec_sub, scaleVec_consVec,
      show s ^ 2 * (p / (γ - 1) + S.rho_Ek) = s ^ 2 * p / (γ - 1) + s ^ 2 * S.rho_Ek by ring]
    simp [outflowResidual, outflowState, stateVec, given, hp', conservativeDict, density,
      EOS.density, momentum, energy, innerEnergy, EOS.innerEnergy, kineticEnergy, equation,
      equationE, bind, Except.bind, GasState.scale]

theorem cbcState_scale (hs : 0 < s) (S Sbc : GasState 2) (t : CbcTarget) :
    ∃ R, cbcState γ t (conservativeDict Sbc) (conservativeDict S) = .ok R ∧
      cbcState γ t (conservativeDict (Sbc.scale s)) (conservativeDict (S.scale s))
        = .ok (scaleVec s R) := by
  cases t with
  | farfield =>
    refine ⟨_, stateVec_dict γ Sbc, ?_⟩
    rw [scaleVec_consVec]
    exact stateVec_dict γ (Sbc.scale s)
  | outflow =>
    refine ⟨consVec S.rho S.rho_u (Sbc.p / (γ - 1) + S.rho_Ek), ?_, ?_⟩
    · simp [cbcState, outflowState, stateVec, given, conservativeDict, density,
        EOS.density, momentum, energy, innerEnergy, EOS.innerEnergy, kineticEnergy, equation,
        equationE, bind, Except.bind]
    · rw [scaleVec_consVec, show s ^ 2 * (Sbc.p / (γ - 1) + S.rho_Ek)
        = s ^ 2 * Sbc.p / (γ - 1) + s ^ 2 * S.rho_Ek by ring]
      simp [cbcState, outflowState, stateVec, given, conservativeDict, density,
        EOS.density, momentum, energy, innerEnergy, EOS.innerEnergy, kineticEnergy, equation,
        equationE, bind, Except.bind, GasState.scale]
  | massInflow =>
    refine ⟨consVec Sbc.rho Sbc.rho_u (S.p / (γ - 1) + Sbc.rho_Ek), ?_, ?_⟩
    · simp [cbcState, stateVec, given, conservativeDict, density,
        EOS.density, momentum, energy, innerEnergy, EOS.innerEnergy, kineticEnergy, equation,
        equationE, bind, Except.bind]
    · rw [scaleVec_consVec, show s ^ 2 * (S.p / (γ - 1) + Sbc.rho_Ek)
        = s ^ 2 * S.p / (γ - 1) + s ^ 2 * Sbc.rho_Ek by ring]
      simp [cbcState, stateVec, given, conservativeDict, density,
        EOS.density, momentum, energy, innerEnergy, EOS.innerEnergy, kineticEnergy, equation,
        equationE, bind, Except.bind, GasState.scale]
  | temperatureInflow =>
    let ρ := Sbc.rho * (S.p / Sbc.p) ^ (1 / γ)
    refine ⟨consVec ρ (ρ • Sbc.u) (ρ * S.T / γ + 2⁻¹ * ρ * (Sbc.u ⬝ᵥ Sbc.u)), ?_, ?_⟩
    · simp [cbcState, stateVec, given, isentropicDensity, specificKineticEnergy, conservativeDict,
        density, EOS.density, momentum, energy, innerEnergy, EOS.innerEnergy, kineticEnergy,
        equation, equationE, bind, Except.bind, ρ]
    · have hp : (s ^ 2 * S.p) / (s ^ 2 * Sbc.p) = S.p / Sbc.p :=
        mul_div_mul_left _ _ (pow_ne_zero 2 hs.ne')
      rw [scaleVec_consVec, smul_comm, show s ^ 2 * (ρ * S.T / γ + 2⁻¹ * ρ * (Sbc.u ⬝ᵥ Sbc.u))
        = ρ * (s ^ 2 * S.T) / γ + 2⁻¹ * ρ * ((s • Sbc.u) ⬝ᵥ (s • Sbc.u)) by
          simp only [smul_dotProduct, dotProduct_smul, smul_eq_mul]; ring]
      simp [cbcState, stateVec, given, isentropicDensity, specificKineticEnergy, conservativeDict,
        density, EOS.density, momentum, energy, innerEnergy, EOS.innerEnergy, kineticEnergy,
        equation, equationE, bind, Except.bind, ρ, GasState.scale, hp]
      congr 1
      ring

/-- **C77** The characteristic conditions, for every target; times are divided by `s`, and the
relaxation rates multiplied by it (`C77_relaxation`: the code does that by itself). -/
theorem C77_cbc (hs : 0 < s) (S : GasState 2) {SHat : GasState 2} (hc : 0 < SHat.c)
    (Sbc : GasState 2) (t : CbcTarget) (σ : Fin 4 → ℝ) (β dt : ℝ) (d tng : Fin 2 → ℝ)
    (w wHat wHatN gradT : Fin 4 → ℝ) :
    ∃ R, cbcResidual γ t (conservativeDict Sbc) (conservativeDict S) (conservativeDict SHat)
        (diagonal σ) β dt d tng w wHat wHatN gradT = .ok R ∧
      cbcResidual γ t (conservativeDict (Sbc.scale s)) (conservativeDict (S.scale s))
        (conservativeDict (SHat.scale s)) (diagonal (s • σ)) β (dt / s) d tng (scaleVec s w)
        (scaleVec s wHat) (scaleVec s wHatN) (scaleVec s gradT) = .ok (scaleVec s R) := by
  obtain ⟨Ubc, b1, b2⟩ := cbcState_scale (γ := γ) hs S Sbc t
  obtain ⟨A, A', h1, h2, h3⟩ := consId_scale (γ := γ) hs hc d negInd (some "incoming")
    (.inl ⟨rfl, rfl⟩)
  obtain ⟨C, C', h4, h5, h6⟩ := consId_scale (γ := γ) hs hc d posInd (some "outgoing")
    (.inr ⟨rfl, rfl⟩)
  obtain ⟨N, N', h7, h8, h9⟩ := consJac_scale (γ := γ) hs hc tng id none (.inl ⟨rfl, rfl⟩)
  have t1 := transCons (γ := γ) (U := conservativeDict SHat) (d := d) rfl rfl rfl (diagonal σ)
  have t2 := transCons (γ := γ) (U := conservativeDict (SHat.scale s)) (d := d) rfl rfl rfl
    (diagonal (s • σ))
  refine ⟨_, by simp only [cbcResidual, b1, t1, h1, h4, h7, bind, Except.bind]; rfl, ?_⟩
  simp only [cbcResidual, b2, t2, h2, h5, h8, bind, Except.bind]
  rw [← scaleVec_sub]
  have e : ∀ v, (matP γ (SHat.scale s).rho (SHat.scale s).c (SHat.scale s).u d * diagonal (s • σ)
      * matPinv γ (SHat.scale s).rho (SHat.scale s).c (SHat.scale s).u d) *ᵥ scaleVec s v
      = s • scaleVec s ((matP γ SHat.rho SHat.c SHat.u d * diagonal σ
        * matPinv γ SHat.rho SHat.c SHat.u d) *ᵥ v) := fun v => by
    rw [diagonal_smul, Matrix.mul_smul, Matrix.smul_mul, smul_mulVec]
    exact congrArg _ (conj_scale hs.ne' SHat.rho hc.ne' SHat.u d σ v)
  rw [e, h9, mulVec_smul, mulVec_smul, smul_smul, smul_smul, h3, h3, h6, h3,
    show dt / s * s = dt from div_mul_cancel₀ _ hs.ne',
    show dt / s * β * s = dt * β by field_simp]
  congr 1
  funext i
  simp only [scaleVec, Pi.add_apply, Pi.sub_apply, Pi.smul_apply, smul_eq_mul]
  ring

/-- **C77** The relaxation rates of both characteristic conditions are multiplied by `s`. -/
theorem C77_relaxation (s : ℝ) (dim : ℕ) (f : Factors) (dt length c M : ℝ) :
    grcbcDiagonal dim f (some (dt / s)) = (grcbcDiagonal dim f (some dt)).map
        (List.map fun x => s * x) ∧
      nscbcDiagonal dim f length (some (s * c)) (some M)
        = (nscbcDiagonal dim f length (some c) (some M)).map (List.map fun x => s * x) := by
  constructor
  · cases h : cbcFactors dim f with
    | error e => simp [grcbcDiagonal, h, bind, Except.bind, Except.map]
    | ok l =>
      simp only [grcbcDiagonal, h, bind, Except.bind, Except.map, List.map_map]
      congr 2
      funext kv
      simp only [Function.comp_apply]
      rw [div_div_eq_mul_div]
      ring
  · cases h : cbcFactors dim f with
    | error e => simp [nscbcDiagonal, h, bind, Except.bind, Except.map]
    | ok l =>
      simp only [nscbcDiagonal, h, bind, Except.bind, Except.map, List.map_zipWith]
      have : [s * c * (1 - M ^ 2)] ++ List.replicate dim (s * c) ++ [s * c * (1 - M ^ 2)]
          = ([c * (1 - M ^ 2)] ++ List.replicate dim c ++ [c * (1 - M ^ 2)]).map
            fun x => s * x := by
        simp [mul_assoc]
      rw [this, List.zipWith_map_right]
      congr 2
      funext a b
      ring

/-- **C77** The sponge layer; its strength is a rate. -/
theorem C77_sponge (s σ : ℝ) (S : GasState 2) (w : Fin 4 → ℝ) :
    ∃ R, spongeResidual γ σ (conservativeDict S) w = .ok R ∧
      spongeResidual γ (s * σ) (conservativeDict (S.scale s)) (scaleVec s w)
        = .ok (s • scaleVec s R) := by
  refine ⟨σ • (w - consVec S.rho S.rho_u S.rho_E), ?_, ?_⟩
  · simp [spongeResidual, stateVec_dict, bind, Except.bind]
  · simp only [spongeResidual, stateVec_dict, bind, Except.bind]
    rw [scaleVec_smul, scaleVec_sub, smul_smul, scaleVec_consVec]
    rfl

/-! ### Free stream and viscosity -/

/-- **C77** The scalings are related: any two accepted configurations that differ in the scaling
only belong to the same flow in different units. -/
theorem C77_units {cfg cfg' : FlowCfg} (h : cfg.Accepted) (h' : cfg'.Accepted)
    (same : cfg' = { cfg with scaling := cfg'.scaling }) : ∃ s, 0 < s ∧ SameFlow s cfg cfg' := by
  have hc := farC_pos h
  have hc' := farC_pos h'
  refine ⟨farC cfg' / farC cfg, by positivity, same, farC cfg, farC cfg', speedOfSound_far h, ?_, ?_⟩
  · have := speedOfSound_far h'
    rwa [show cfg'.Ma = cfg.Ma by rw [same]] at this
  · field_simp

theorem sameFlow_farC {cfg cfg' : FlowCfg} (h : cfg.Accepted) (h' : cfg'.Accepted)
    (hsf : SameFlow s cfg cfg') : farC cfg' = s * farC cfg := by
  obtain ⟨c, c', h1, h2, h3⟩ := hsf.sound
  have e1 := speedOfSound_far h
  have e2 := speedOfSound_far h'
  rw [show cfg'.Ma = cfg.Ma by rw [hsf.same], h2] at e2
  rw [h1] at e1
  rw [← Except.ok.inj e1, ← Except.ok.inj e2, h3]

theorem _root_.Spec.SameFlow.pos {cfg cfg' : FlowCfg} (h : cfg.Accepted) (h' : cfg'.Accepted)
    (hsf : SameFlow s cfg cfg') : 0 < s := by
  have hc := farC_pos h
  have hc' := farC_pos h'
  rw [sameFlow_farC h h' hsf] at hc'
  exact (pos_iff_pos_of_mul_pos hc').2 hc

theorem _root_.Spec.SameFlow.fields {cfg cfg' : FlowCfg} (hsf : SameFlow s cfg cfg') :
    cfg'.γ = cfg.γ ∧ cfg'.Ma = cfg.Ma ∧ cfg'.Re = cfg.Re ∧ cfg'.Pr = cfg.Pr ∧
      cfg'.visc = cfg.visc ∧ cfg'.Tref = cfg.Tref := by
  rw [hsf.same]
  exact ⟨rfl, rfl, rfl, rfl, rfl, rfl⟩

theorem gasState_of_scale {n : ℕ} (hs : 0 < s) (ρ : ℝ) (u : Fin n → ℝ) (e : ℝ) :
    GasState.of γ ρ (s • u) (s ^ 2 * e) = (GasState.of γ ρ u e).scale s := by
  have hc : √(γ * (γ - 1) * (s ^ 2 * e)) = s * √(γ * (γ - 1) * e) := by
    rw [show γ * (γ - 1) * (s ^ 2 * e) = s ^ 2 * (γ * (γ - 1) * e) by ring,
      Real.sqrt_mul (sq_nonneg s), Real.sqrt_sq hs.le]
  have hd : (s • u) ⬝ᵥ (s • u) = s ^ 2 * (u ⬝ᵥ u) := by
    simp only [smul_dotProduct, dotProduct_smul, smul_eq_mul]; ring
  simp only [GasState.of, GasState.scale, hd, hc, smul_comm ρ s u]
  congr 1 <;> ring

theorem farState_scale {n : ℕ} {cfg cfg' : FlowCfg} (h : cfg.Accepted) (h' : cfg'.Accepted)
    (hsf : SameFlow s cfg cfg') (d : Fin n → ℝ) : farState cfg' d = (farState cfg d).scale s := by
  obtain ⟨e1, e2, -⟩ := hsf.fields
  rw [farState, farState, ← gasState_of_scale (hsf.pos h h'), e1, e2, sameFlow_farC h h' hsf,
    smul_smul]
  congr 2 <;> ring

/-- **C77** The free stream of the other scaling is the same free stream in other units. -/
theorem C77_freestream {n : ℕ} {cfg cfg' : FlowCfg} (h : cfg.Accepted) (h' : cfg'.Accepted)
    (hsf : SameFlow s cfg cfg') (d : Fin n → ℝ) :
    ∃ S : GasState n, IdealGas cfg.γ S ∧
      getFarfieldState cfg n d = .ok
        { rho := some S.rho, u := some S.u, p := some S.p, T := some S.T, c := some S.c,
          rho_E := some S.rho_E, rho_Ek := some S.rho_Ek, rho_Ei := some S.rho_Ei } ∧
      getFarfieldState cfg' n d = .ok
        { rho := some S.rho, u := some (s • S.u), p := some (s ^ 2 * S.p), T := some (s ^ 2 * S.T),
          c := some (s * S.c), rho_E := some (s ^ 2 * S.rho_E), rho_Ek := some (s ^ 2 * S.rho_Ek),
          rho_Ei := some (s ^ 2 * S.rho_Ei) } := by
  refine ⟨farState cfg d, farState_ideal h d, farfield_eq h d, ?_⟩
  rw [farfield_eq h', farState_scale h h' hsf]
  rfl

/-- **C77** Every viscosity law gives the same viscosity. -/
theorem C77_viscosity {cfg cfg' : FlowCfg} (h : cfg.Accepted) (h' : cfg'.Accepted)
    (hsf : SameFlow s cfg cfg') {S : GasState 2} (hS : IdealGas cfg.γ S) :
    viscosity cfg' (conservativeDict (S.scale s)) = viscosity cfg (conservativeDict S) := by
  obtain ⟨e1, e2, e3, e4, e5, e6⟩ := hsf.fields
  have hs := hsf.pos h h'
  have hS' := hS.scale hs
  cases hv : cfg.visc with
  | inviscid => simp only [viscosity, e5, hv]
  | constant => simp only [viscosity, e5, hv]
  | sutherland Tm =>
    rw [viscosity_sutherland h hv (U := conservativeDict S) rfl hS.T_pos,
      viscosity_sutherland h' (e5.trans hv) (U := conservativeDict (S.scale s)) rfl hS'.T_pos, e1, e6,
      sameFlow_farC h h' hsf]
    congr 2
    show s ^ 2 * S.T / ((s * farC cfg) ^ 2 / (cfg.γ - 1)) = S.T / (farC cfg ^ 2 / (cfg.γ - 1))
    rw [show (s * farC cfg) ^ 2 / (cfg.γ - 1) = s ^ 2 * (farC cfg ^ 2 / (cfg.γ - 1)) by ring,
      mul_div_mul_left _ _ (pow_ne_zero 2 hs.ne')]

theorem reynolds_scale {cfg cfg' : FlowCfg} (h : cfg.Accepted) (h' : cfg'.Accepted)
    (hsf : SameFlow s cfg cfg') {r : ℝ} (hr : cfg.referenceReynolds = .ok r) :
    cfg'.referenceReynolds = .ok (r / s) := by
  obtain ⟨e1, e2, e3, e4, e5, e6⟩ := hsf.fields
  have hm := mag_eq h'
  rw [e2, sameFlow_farC h h' hsf] at hm
  have hm' := mag_eq h
  unfold FlowCfg.referenceReynolds FlowCfg.reynolds at hr ⊢
  rw [e5]
  cases hv : cfg.visc with
  | inviscid => rw [hv] at hr; cases hr
  | constant =>
    rw [hv] at hr
    simp only [bind, Except.bind, hm, e2, e3] at hr ⊢
    rw [← Except.ok.inj hr, hm', div_div, show cfg.Ma * farC cfg * s = cfg.Ma * (s * farC cfg) by ring]
  | sutherland Tm =>
    rw [hv] at hr
    simp only [bind, Except.bind, hm, e2, e3] at hr ⊢
    rw [← Except.ok.inj hr, hm', div_div, show cfg.Ma * farC cfg * s = cfg.Ma * (s * farC cfg) by ring]

/-! ### Viscous terms -/

theorem scaleMixed_eps (s : ℝ) (q : Fin 5 → ℝ) :
    !![scaleMixed s q 0, scaleMixed s q 1; scaleMixed s q 1, scaleMixed s q 2]
      = s • !![q 0, q 1; q 1, q 2] := by
  ext i j
  fin_cases i <;> fin_cases j <;> rfl

theorem scaleMixed_gradT (s : ℝ) (q : Fin 5 → ℝ) :
    ![scaleMixed s q 3, scaleMixed s q 4] = s ^ 2 • ![q 3, q 4] := by
  funext i
  fin_cases i <;> rfl

theorem viscousFlux_scale (s : ℝ) (τ : Matrix (Fin 2) (Fin 2) ℝ) (κ : ℝ) (gT u d : Fin 2 → ℝ) :
    viscousFlux (s ^ 2 • τ) (s * κ) (s ^ 2 • gT) (s • u) d = s • scaleVec s (viscousFlux τ κ gT u d) := by
  have h := scaleVec_consVec s 0 (τ *ᵥ d) ((τ *ᵥ d) ⬝ᵥ u + κ * (gT ⬝ᵥ d))
  refine Eq.trans ?_ (congrArg (s • ·) h.symm)
  show consVec 0 ((s ^ 2 • τ) *ᵥ d) (((s ^ 2 • τ) *ᵥ d) ⬝ᵥ (s • u)
    + s * κ * ((s ^ 2 • gT) ⬝ᵥ d)) = _
  rw [smul_mulVec]
  funext i
  fin_cases i
  · show (0 : ℝ) = s * 0
    ring
  · show s ^ 2 * _ = s * (s * _)
    rw [← mul_assoc, sq]
  · show s ^ 2 * _ = s * (s * _)
    rw [← mul_assoc, sq]
  · show (s ^ 2 • τ *ᵥ d) ⬝ᵥ (s • u) + s * κ * ((s ^ 2 • gT) ⬝ᵥ d)
      = s * (s ^ 2 * ((τ *ᵥ d) ⬝ᵥ u + κ * (gT ⬝ᵥ d)))
    simp only [smul_dotProduct, dotProduct_smul, smul_eq_mul]
    ring

/-- **C77** The viscous flux of the strain-heat method, and its numerical flux. -/
theorem C77_diffusive {cfg cfg' : FlowCfg} (h : cfg.Accepted) (h' : cfg'.Accepted)
    (hsf : SameFlow s cfg cfg') (hv : cfg.visc ≠ .inviscid) (hM : 0 < cfg.Ma) {S : GasState 2}
    (hS : IdealGas cfg.γ S) (q : Fin 5 → ℝ) :
    ∃ F, diffusiveFlux cfg (conservativeDict S) (strainHeatFields q) = .ok F ∧
      diffusiveFlux cfg' (conservativeDict (S.scale s)) (strainHeatFields (scaleMixed s q))
        = .ok (scaleFlux s F) ∧
      ∀ d w wHat, ∃ f, diffusiveNumericalFlux cfg w wHat (conservativeDict S)
          (strainHeatFields q) d = .ok f ∧
        diffusiveNumericalFlux cfg' (scaleVec s w) (scaleVec s wHat) (conservativeDict (S.scale s))
          (strainHeatFields (scaleMixed s q)) d = .ok (s • scaleVec s f) := by
  obtain ⟨e1, e2, e3, e4, e5, e6⟩ := hsf.fields
  have hs := hsf.pos h h'
  have hv' : cfg'.visc ≠ .inviscid := by rwa [e5]
  have hM' : 0 < cfg'.Ma := by rwa [e2]
  have hS' : IdealGas cfg'.γ (S.scale s) := by rw [e1]; exact hS.scale hs
  obtain ⟨F, μ, r, hF, hμ, hr, -⟩ := C55_strain_heat_partial h hv hM hS q 0
  obtain ⟨F', μ', r', hF', -, -, -⟩ := C55_strain_heat_partial h' hv' hM' hS' (scaleMixed s q) 0
  have hμ' : viscosity cfg' (conservativeDict (S.scale s)) = .ok μ :=
    (C77_viscosity h h' hsf hS).trans hμ
  have hr' := reynolds_scale h h' hsf hr
  have hFd : ∀ d, F' *ᵥ d = s • scaleVec s (F *ᵥ d) := by
    intro d
    obtain ⟨F₁, μ₁, r₁, h1, h2, h3, h4⟩ := C55_strain_heat_partial h hv hM hS q d
    obtain ⟨F₂, μ₂, r₂, h5, h6, h7, h8⟩ := C55_strain_heat_partial h' hv' hM' hS' (scaleMixed s q) d
    rw [hF] at h1
    rw [hF'] at h5
    rw [hμ] at h2
    rw [hμ'] at h6
    rw [hr] at h3
    rw [hr'] at h7
    cases h1
    cases h5
    cases h2
    cases h6
    cases h3
    cases h7
    rw [h4, h8, scaleMixed_eps, scaleMixed_gradT, ← viscousFlux_scale, smul_smul, smul_smul, e4]
    congr 1
    · congr 1
      field_simp
    · field_simp
  have hFF : F' = scaleFlux s F := by
    ext i j
    have := congrFun (hFd (Pi.single j 1)) i
    simpa [scaleVec, scaleFlux] using this
  refine ⟨F, hF, hFF ▸ hF', fun d w wHat => ?_⟩
  have hp := prandtl_eq (cfg := cfg) hv
  have hp' := prandtl_eq (cfg := cfg') hv'
  refine ⟨_, by simp only [diffusiveNumericalFlux, diffusiveStabilisation, hF, hμ, hr, hp, bind,
    Except.bind]; rfl, ?_⟩
  simp only [diffusiveNumericalFlux, diffusiveStabilisation, hF', hμ', hr', hp', e4, bind,
    Except.bind]
  rw [hFd, scaleVec_sub, ← scaleVec_sub, smul_sub]
  congr 2
  rw [smul_mulVec, smul_mulVec, scaleVec_smul, smul_smul, Bla.diagonalM_eq,
    show s * (μ / r) = μ / (r / s) by field_simp]
  congr 1
  funext i
  rw [mulVec_diagonal]
  show _ = unitFactors s i * (diagonal _ *ᵥ (w - wHat)) i
  rw [mulVec_diagonal]
  simp only [scaleVec]
  ring

theorem cbcGradQ_scale (s : ℝ) (t : CbcTarget) (d tng : Fin 2 → ℝ) (g : Fin 5 → ℝ) :
    cbcGradQ t d tng (scaleMixed s g) = scaleMixed s (cbcGradQ t d tng g) := by
  have key : ∀ i, cbcGradQ t d tng (scaleMixed s g) i = scaleMixed s (cbcGradQ t d tng g) i := by
    intro i
    cases t <;> fin_cases i <;>
      simp [cbcGradQ, scaleMixed, mixedFactors, flat, Matrix.mul_apply, Fin.sum_univ_two,
        Matrix.mulVec, dotProduct, Matrix.transpose_apply] <;> ring
  exact funext key

/-- **C77** The viscous terms of the characteristic conditions. -/
theorem C77_cbc_viscous {cfg cfg' : FlowCfg} (h : cfg.Accepted) (h' : cfg'.Accepted)
    (hsf : SameFlow s cfg cfg') (hv : cfg.visc ≠ .inviscid) (hM : 0 < cfg.Ma) {S : GasState 2}
    (hS : IdealGas cfg.γ S) (t : CbcTarget) (q : Fin 5 → ℝ) (gU : Matrix (Fin 4) (Fin 2) ℝ)
    (gQ : Matrix (Fin 5) (Fin 2) ℝ) (d tng : Fin 2 → ℝ) :
    ∃ v, cbcViscousTerms cfg t (conservativeDict S) (strainHeatFields q) gU gQ d tng = .ok v ∧
      cbcViscousTerms cfg' t (conservativeDict (S.scale s)) (strainHeatFields (scaleMixed s q))
        (Matrix.of fun i j => unitFactors s i * gU i j)
        (Matrix.of fun i j => mixedFactors s i * gQ i j) d tng = .ok (s • scaleVec s v) := by
  obtain ⟨e1, e2, e3, e4, e5, e6⟩ := hsf.fields
  have hs := hsf.pos h h'
  have hv' : cfg'.visc ≠ .inviscid := by rwa [e5]
  obtain ⟨μ, hμ, μ0⟩ := visc_pos h hv (U := conservativeDict S) rfl hS.T_pos
  obtain ⟨r, hr, r0⟩ := ref_pos h hv hM
  have hμ' : viscosity cfg' (conservativeDict (S.scale s)) = .ok μ :=
    (C77_viscosity h h' hsf hS).trans hμ
  have hr' := reynolds_scale h h' hsf hr
  have hκ : μ / (r / s) = s * (μ / r) := by field_simp
  have gu : ∀ d, (Matrix.of fun i j => unitFactors s i * gU i j) *ᵥ d = scaleVec s (gU *ᵥ d) := by
    intro d
    funext i
    simp only [mulVec, dotProduct, Fin.sum_univ_two, Matrix.of_apply, scaleVec]
    ring
  have gq : ∀ d, (Matrix.of fun i j => mixedFactors s i * gQ i j) *ᵥ d
      = scaleMixed s (gQ *ᵥ d) := by
    intro d
    funext i
    simp only [mulVec, dotProduct, Fin.sum_univ_two, Matrix.of_apply, scaleMixed]
    ring
  have j := fun d => consDiffJac_eq (cfg := cfg) (U := conservativeDict S) (ρ := S.rho) rfl
    (u := S.u) rfl hμ hr q d
  have j' := fun d => consDiffJac_eq (cfg := cfg') (U := conservativeDict (S.scale s)) (ρ := S.rho)
    rfl (u := s • S.u) rfl hμ' hr' (scaleMixed s q) d
  have m := fun d => mixedJac_eq hv (U := conservativeDict S) (u := S.u) rfl hμ hr d
  have m' := fun d => mixedJac_eq hv' (U := conservativeDict (S.scale s)) (u := s • S.u) rfl hμ' hr' d
  refine ⟨_, by simp only [cbcViscousTerms, j, m, bind, Except.bind]; rfl, ?_⟩
  simp only [cbcViscousTerms, j', m', bind, Except.bind, hκ, e4]
  rw [gu, gu, gq, gq, cbcGradQ_scale]
  congr 1
  generalize gU *ᵥ tng = a1
  generalize gU *ᵥ d = a2
  generalize gQ *ᵥ tng = a3
  generalize cbcGradQ t d tng (gQ *ᵥ d) = a4
  funext i
  fin_cases i <;>
    simp [scaleVec, scaleMixed, unitFactors, mixedFactors, mulVec, dotProduct, Fin.sum_univ_four,
      Fin.sum_univ_five] <;> ring

/-! ### The integrals -/

variable {V B : Type} [Fintype V] [Fintype B]

/-- **C77** The equations of the mixed variables. -/
theorem C77_mixed (hs : 0 < s) (M : HdgMesh 2 V B) (q : V → Fin 5 → ℝ) (u : V → Fin 2 → ℝ)
    (T : V → ℝ) (uHat : B → Fin 2 → ℝ) (THat : B → ℝ) (P : MixedTest V B) :
    mixedForm M (fun v => scaleMixed s (q v)) (fun v => s • u v) (fun v => s ^ 2 * T v)
        (fun b => s • uHat b) (fun b => s ^ 2 * THat b)
        (scaleMixedTest (fun i => (mixedFactors s i)⁻¹) P)
      = mixedForm M q u T uHat THat P := by
  have h0 := hs.ne'
  have e1 : ∀ v, mixedStrainVolume (scaleMixed s (q v))
      ((scaleMixedTest (fun i => (mixedFactors s i)⁻¹) P).val v)
      ((scaleMixedTest (fun i => (mixedFactors s i)⁻¹) P).grad v) (s • u v)
      = mixedStrainVolume (q v) (P.val v) (P.grad v) (u v) := by
    intro v
    simp [mixedStrainVolume, mixedEps, divDevZeta, scaleMixed, scaleMixedTest, mixedFactors,
      Fin.sum_univ_two, dotProduct]
    field_simp
  have e2 : ∀ v, mixedHeatVolume (scaleMixed s (q v))
      ((scaleMixedTest (fun i => (mixedFactors s i)⁻¹) P).val v)
      ((scaleMixedTest (fun i => (mixedFactors s i)⁻¹) P).grad v) (s ^ 2 * T v)
      = mixedHeatVolume (q v) (P.val v) (P.grad v) (T v) := by
    intro v
    simp [mixedHeatVolume, mixedGradT, divXi, scaleMixed, scaleMixedTest, mixedFactors]
    field_simp
  have e3 : ∀ b, mixedStrainFacet ((scaleMixedTest (fun i => (mixedFactors s i)⁻¹) P).trace b)
      (s • uHat b) (M.normal b) = mixedStrainFacet (P.trace b) (uHat b) (M.normal b) := by
    intro b
    simp [mixedStrainFacet, devZeta, mixedEps, scaleMixedTest, mixedFactors, dotProduct, mulVec,
      Fin.sum_univ_two, Matrix.trace]
    field_simp
  have e4 : ∀ b, mixedHeatFacet ((scaleMixedTest (fun i => (mixedFactors s i)⁻¹) P).trace b)
      (s ^ 2 * THat b) (M.normal b) = mixedHeatFacet (P.trace b) (THat b) (M.normal b) := by
    intro b
    simp [mixedHeatFacet, mixedGradT, scaleMixedTest, mixedFactors]
    field_simp
  simp only [mixedForm, e1, e2, e3, e4]

theorem unitFactors_ne (hs : 0 < s) (i : Fin 4) : unitFactors s i ≠ 0 := by
  have := hs.ne'
  fin_cases i <;> simp [unitFactors, this]

theorem scaleTest_scaleTest (M : HdgMesh 2 V B) {a : Fin 4 → ℝ} {c : Option Name → ℝ}
    (ha : ∀ i, a i ≠ 0) (hc : ∀ r, c r ≠ 0) (φ : HdgTest 2 4 V B) :
    scaleTest M a c (scaleTest M (fun i => (a i)⁻¹) (fun r => (c r)⁻¹) φ) = φ := by
  cases φ
  simp only [scaleTest, HdgTest.mk.injEq]
  refine ⟨?_, ?_, ?_, ?_⟩
  · funext v
    ext i j
    exact mul_inv_cancel_left₀ (ha i) _
  · funext v i
    exact mul_inv_cancel_left₀ (ha i) _
  · funext b i
    exact mul_inv_cancel_left₀ (ha i) _
  · funext b i
    have h1 := ha i
    have h2 := hc (M.region b)
    field_simp

open Classical in
/-- The facet factor: `s / κ` on the facets with a boundary condition, 1 on all others. -/
def facetFactor (s : ℝ) (κ : Option Name → ℝ) (bcs : Conditions) : Option Name → ℝ
  | none => 1
  | some r => if r ∈ bcs.getDomainBoundaries then s / κ (some r) else 1

/-- **C77** The discrete equations of a time step hold in one system of units exactly when they
hold in every other. The test functions are those of the code: one space per component, facet
functions of different boundary regions independent. The residual of a boundary condition may
be multiplied by a positive number per region in addition. -/
theorem C77_step (hs : 0 < s) {κ : Option Name → ℝ} (hκ : ∀ r, 0 < κ r) (M : HdgMesh 2 V B)
    (bcs : Conditions) {T : Set (HdgTest 2 4 V B)} (hT : ComponentSpace M bcs T) (sch : Scheme)
    (dt : ℝ) (t t' : ℚ) {x : HdgState 2 4 V B} (cur prev : HdgState 2 4 V B)
    (hR : ∀ b, M.mask bcs b = 1 → x.R b = 0) :
    hdgStep M (M.mask bcs) T (sch.quotient (dt / s)) t' (scaleState s (fun b => κ (M.region b)) x)
        (scaleState s (fun b => κ (M.region b)) cur) (scaleState s (fun b => κ (M.region b)) prev) ↔
      hdgStep M (M.mask bcs) T (sch.quotient dt) t x cur prev := by
  set a : Fin 4 → ℝ := fun i => (unitFactors s i)⁻¹ with ha
  set c := facetFactor s κ bcs with hc
  have a0 : ∀ i, a i ≠ 0 := fun i => inv_ne_zero (unitFactors_ne hs i)
  have c0 : ∀ r, c r ≠ 0 := by
    intro r
    rw [hc]
    cases r with
    | none => exact one_ne_zero
    | some r =>
      simp only [facetFactor]
      split
      · exact (div_pos hs (hκ _)).ne'
      · exact one_ne_zero
  have dotV : ∀ w v : Fin 4 → ℝ, scaleVec s w ⬝ᵥ (fun i => a i * v i) = w ⬝ᵥ v := by
    intro w v
    simp only [dotProduct, scaleVec, ha]
    refine Finset.sum_congr rfl fun i _ => ?_
    have := unitFactors_ne hs i
    field_simp
  have frob : ∀ F g : Matrix (Fin 4) (Fin 2) ℝ,
      frobenius (scaleFlux s F) (Matrix.of fun i j => a i * g i j) = s * frobenius F g := by
    intro F g
    simp only [frobenius, scaleFlux, Matrix.of_apply, ha, Finset.mul_sum]
    refine Finset.sum_congr rfl fun i _ => Finset.sum_congr rfl fun j _ => ?_
    have := unitFactors_ne hs i
    field_simp
  have quo : ∀ v i, sch.quotient (dt / s) (scaleVec s (x.U v) i) (scaleVec s (cur.U v) i)
      (scaleVec s (prev.U v) i)
      = s * scaleVec s (fun i => sch.quotient dt (x.U v i) (cur.U v i) (prev.U v i)) i := by
    intro v i
    cases sch
    · simp only [Scheme.quotient, backwardEuler, scaleVec, ← mul_sub]
      rw [div_div_eq_mul_div]
      ring
    · simp only [Scheme.quotient, backward2, scaleVec]
      rw [← mul_div_assoc, div_div_eq_mul_div]
      ring
  have hatDot : ∀ (w : Fin 4 → ℝ) (φ : HdgTest 2 4 V B) b,
      scaleVec s w ⬝ᵥ (scaleTest M a c φ).hat b = c (M.region b) * (w ⬝ᵥ φ.hat b) := by
    intro w φ b
    rw [← dotV w (φ.hat b), ← smul_eq_mul, ← dotProduct_smul]
    rfl
  have e1 : ∀ φ, timeForm M (fun v i => sch.quotient (dt / s) (scaleVec s (x.U v) i)
      (scaleVec s (cur.U v) i) (scaleVec s (prev.U v) i)) (scaleTest M a c φ)
      = s * timeForm M (fun v i => sch.quotient dt (x.U v i) (cur.U v i) (prev.U v i)) φ := by
    intro φ
    simp only [timeForm, quo, scaleTest, Finset.mul_sum]
    refine Finset.sum_congr rfl fun v _ => ?_
    rw [← dotV (fun i => sch.quotient dt (x.U v i) (cur.U v i) (prev.U v i)) (φ.val v)]
    simp only [dotProduct, Finset.mul_sum]
    refine Finset.sum_congr rfl fun i _ => ?_
    ring
  have e2 : ∀ φ, timeForm M (fun v => s • scaleVec s (x.source v)) (scaleTest M a c φ)
      = s * timeForm M x.source φ := by
    intro φ
    simp only [timeForm, scaleTest, Finset.mul_sum, smul_dotProduct, dotV, smul_eq_mul]
    refine Finset.sum_congr rfl fun v _ => ?_
    ring
  have hm : ∀ b, M.mask bcs b * c (M.region b) = M.mask bcs b ∧
      (M.mask bcs b = 1 ∨ κ (M.region b) * c (M.region b) = s) := by
    intro b
    rw [hc]
    unfold HdgMesh.mask
    cases hr : M.region b with
    | none => exact ⟨mul_one _, .inl rfl⟩
    | some r =>
      have hk := (hκ (some r)).ne'
      simp only [facetFactor]
      by_cases hb : r ∈ bcs.getDomainBoundaries
      · simp only [hb, if_true, zero_mul, true_and]
        right
        field_simp
      · simp [hb]
  have e3 : ∀ φ, convectionForm M (M.mask bcs) (fun v => scaleFlux s (x.F v))
      (fun b => s • scaleVec s (x.Fn b)) (scaleTest M a c φ)
      = s * convectionForm M (M.mask bcs) x.F x.Fn φ := by
    intro φ
    have h1 : ∀ b, -M.mask bcs b * ((s • scaleVec s (x.Fn b)) ⬝ᵥ (scaleTest M a c φ).hat b)
        = s * (-M.mask bcs b * (x.Fn b ⬝ᵥ φ.hat b)) := by
      intro b
      rw [smul_dotProduct, hatDot, smul_eq_mul]
      linear_combination -s * (x.Fn b ⬝ᵥ φ.hat b) * (hm b).1
    simp only [convectionForm, h1, mul_add, Finset.mul_sum]
    congr 1
    · congr 1
      · refine Finset.sum_congr rfl fun v _ => ?_
        rw [show frobenius (scaleFlux s (x.F v)) ((scaleTest M a c φ).grad v)
          = s * frobenius (x.F v) (φ.grad v) from frob _ _]
        ring
      · refine Finset.sum_congr rfl fun b _ => ?_
        rw [smul_dotProduct, show scaleVec s (x.Fn b) ⬝ᵥ (scaleTest M a c φ).trace b
          = x.Fn b ⬝ᵥ φ.trace b from dotV _ _, smul_eq_mul]
        ring
    · refine Finset.sum_congr rfl fun b _ => ?_
      ring
  have e4 : ∀ φ, diffusionForm M (M.mask bcs) (fun v => scaleFlux s (x.G v))
      (fun b => s • scaleVec s (x.Gn b)) (scaleTest M a c φ)
      = s * diffusionForm M (M.mask bcs) x.G x.Gn φ := by
    intro φ
    have h1 : ∀ b, M.mask bcs b * ((s • scaleVec s (x.Gn b)) ⬝ᵥ (scaleTest M a c φ).hat b)
        = s * (M.mask bcs b * (x.Gn b ⬝ᵥ φ.hat b)) := by
      intro b
      rw [smul_dotProduct, hatDot, smul_eq_mul]
      linear_combination s * (x.Gn b ⬝ᵥ φ.hat b) * (hm b).1
    simp only [diffusionForm, h1, mul_add, mul_sub, Finset.mul_sum]
    congr 1
    · congr 1
      · refine Finset.sum_congr rfl fun v _ => ?_
        rw [show frobenius (scaleFlux s (x.G v)) ((scaleTest M a c φ).grad v)
          = s * frobenius (x.G v) (φ.grad v) from frob _ _]
        ring
      · refine Finset.sum_congr rfl fun b _ => ?_
        rw [smul_dotProduct, show scaleVec s (x.Gn b) ⬝ᵥ (scaleTest M a c φ).trace b
          = x.Gn b ⬝ᵥ φ.trace b from dotV _ _, smul_eq_mul]
        ring
    · refine Finset.sum_congr rfl fun b _ => ?_
      ring
  have e5 : ∀ φ, boundaryForm M (fun b => κ (M.region b) • scaleVec s (x.R b)) (scaleTest M a c φ)
      = s * boundaryForm M x.R φ := by
    intro φ
    simp only [boundaryForm, Finset.mul_sum]
    refine Finset.sum_congr rfl fun b _ => ?_
    rw [smul_dotProduct, hatDot, smul_eq_mul]
    rcases (hm b).2 with h | h
    · rw [hR b h]
      simp
    · linear_combination M.wB b * (x.R b ⬝ᵥ φ.hat b) * h
  have key : ∀ φ, timeForm M (fun v i => sch.quotient (dt / s) (scaleVec s (x.U v) i)
        (scaleVec s (cur.U v) i) (scaleVec s (prev.U v) i)) (scaleTest M a c φ)
      + convectionForm M (M.mask bcs) (fun v => scaleFlux s (x.F v))
        (fun b => s • scaleVec s (x.Fn b)) (scaleTest M a c φ)
      + diffusionForm M (M.mask bcs) (fun v => scaleFlux s (x.G v))
        (fun b => s • scaleVec s (x.Gn b)) (scaleTest M a c φ)
      + boundaryForm M (fun b => κ (M.region b) • scaleVec s (x.R b)) (scaleTest M a c φ)
      + timeForm M (fun v => s • scaleVec s (x.source v)) (scaleTest M a c φ)
      = s * (timeForm M (fun v i => sch.quotient dt (x.U v i) (cur.U v i) (prev.U v i)) φ
      + convectionForm M (M.mask bcs) x.F x.Fn φ + diffusionForm M (M.mask bcs) x.G x.Gn φ
      + boundaryForm M x.R φ + timeForm M x.source φ) := by
    intro φ
    rw [e1, e2, e3, e4, e5]
    ring
  have hone : ∀ b, M.mask bcs b = 1 → c (M.region b) = 1 := fun b hb => by
    have := (hm b).1
    rwa [hb, one_mul] at this
  constructor
  · intro h φ hφ
    have := h _ (hT a c hone φ hφ)
    have := (key φ).symm.trans this
    exact (mul_eq_zero.1 this).resolve_left hs.ne'
  · intro h φ hφ
    have h1 := h _ (hT (fun i => (a i)⁻¹) (fun r => (c r)⁻¹) (fun b hb => by
      rw [hone b hb, inv_one]) φ hφ)
    have h2 := key (scaleTest M (fun i => (a i)⁻¹) (fun r => (c r)⁻¹) φ)
    rw [scaleTest_scaleTest M a0 c0, h1, mul_zero] at h2
    exact h2

/-- **C77** The fluxes of the inviscid equations for the state in other units are the fluxes in
other units. -/
theorem C77_euler (hs : 0 < s) (κ : B → ℝ) (rs : Riemann)
    {M : HdgMesh 2 V B} (hn : ∀ b, M.normal b 0 ^ 2 + M.normal b 1 ^ 2 = 1)
    {x : HdgState 2 4 V B} {tr hat : B → Fin 4 → ℝ} {S : V → GasState 2} {SHat : B → GasState 2}
    (hS : ∀ v, IdealGas γ (S v)) (hSHat : ∀ b, IdealGas γ (SHat b))
    (hU : ∀ v, x.U v = gasVec (S v)) (hHat : ∀ b, hat b = gasVec (SHat b))
    (h : x.IsEuler γ rs M tr hat) :
    (scaleState s κ x).IsEuler γ rs M (fun b => scaleVec s (tr b)) fun b => scaleVec s (hat b) where
  flux := by
    intro v
    obtain ⟨U, h1, h2⟩ := h.flux v
    rw [hU v, fields_vec (hS v)] at h1
    cases h1
    refine ⟨conservativeDict ((S v).scale s), ?_, ?_⟩
    · simp only [scaleState, hU v, ← gasVec_scale]
      exact fields_vec ((hS v).scale hs)
    · obtain ⟨F, e1, e2⟩ := C77_convective hs (hS v)
      rw [h2] at e1
      cases e1
      exact e2
  numerical := by
    intro b
    obtain ⟨UHat, h1, h2⟩ := h.numerical b
    rw [hHat b, fields_vec (hSHat b)] at h1
    cases h1
    refine ⟨conservativeDict ((SHat b).scale s), ?_, ?_⟩
    · rw [hHat b, ← gasVec_scale]
      exact fields_vec ((hSHat b).scale hs)
    · obtain ⟨f, e1, e2⟩ := C77_numerical hs (hSHat b) rs (hn b) (tr b) (hat b)
      rw [h2] at e1
      cases e1
      exact e2
  inviscid := by
    have z : scaleFlux s (0 : Matrix (Fin 4) (Fin 2) ℝ) = 0 := by
      ext i j; simp [scaleFlux]
    exact ⟨funext fun v => by simp [scaleState, h.inviscid.1, z],
      funext fun b => by simp [scaleState, h.inviscid.2, scaleVec_zero]⟩

/-- **C77** The same for the viscous equations with the strain-heat method: the configuration
with the other scaling computes the fluxes in other units. -/
theorem C77_navier_stokes {cfg cfg' : FlowCfg} (ha : cfg.Accepted) (ha' : cfg'.Accepted)
    (hsf : SameFlow s cfg cfg') (hv : cfg.visc ≠ .inviscid) (hM : 0 < cfg.Ma) (κ : B → ℝ)
    (rs : Riemann)
    {M : HdgMesh 2 V B} (hn : ∀ b, M.normal b 0 ^ 2 + M.normal b 1 ^ 2 = 1)
    {x : HdgState 2 4 V B} {tr hat : B → Fin 4 → ℝ} {q : V → Fin 5 → ℝ} {qtr : B → Fin 5 → ℝ}
    {S : V → GasState 2} {SHat : B → GasState 2}
    (hS : ∀ v, IdealGas cfg.γ (S v)) (hSHat : ∀ b, IdealGas cfg.γ (SHat b))
    (hU : ∀ v, x.U v = gasVec (S v)) (hHat : ∀ b, hat b = gasVec (SHat b))
    (h : x.IsNavierStokes cfg rs M tr hat q qtr) :
    (scaleState s κ x).IsNavierStokes cfg' rs M (fun b => scaleVec s (tr b))
      (fun b => scaleVec s (hat b)) (fun v => scaleMixed s (q v))
      fun b => scaleMixed s (qtr b) := by
  have hs := hsf.pos ha ha'
  have hg := hsf.fields.1
  constructor
  · intro v
    obtain ⟨U, h1, h2, h3⟩ := h.flux v
    rw [hU v, fields_vec (hS v)] at h1
    cases h1
    rw [hg]
    refine ⟨conservativeDict ((S v).scale s), ?_, ?_, ?_⟩
    · simp only [scaleState, hU v, ← gasVec_scale]
      exact fields_vec ((hS v).scale hs)
    · obtain ⟨F, e1, e2⟩ := C77_convective hs (hS v)
      rw [h2] at e1
      cases e1
      exact e2
    · obtain ⟨F, e1, e2, -⟩ := C77_diffusive ha ha' hsf hv hM (hS v) (q v)
      rw [h3] at e1
      cases e1
      exact e2
  · intro b
    obtain ⟨UHat, h1, h2, h3⟩ := h.numerical b
    rw [hHat b, fields_vec (hSHat b)] at h1
    cases h1
    rw [hg]
    refine ⟨conservativeDict ((SHat b).scale s), ?_, ?_, ?_⟩
    · rw [hHat b, ← gasVec_scale]
      exact fields_vec ((hSHat b).scale hs)
    · obtain ⟨f, e1, e2⟩ := C77_numerical hs (hSHat b) rs (hn b) (tr b) (hat b)
      rw [h2] at e1
      cases e1
      exact e2
    · obtain ⟨-, -, -, e⟩ := C77_diffusive ha ha' hsf hv hM (hSHat b) (qtr b)
      obtain ⟨f, e1, e2⟩ := e (M.normal b) (tr b) (hat b)
      rw [h3] at e1
      cases e1
      exact e2

/-! ### Observables -/

/-- **C77** Force and pressure coefficients do not depend on the scaling. -/
theorem C77_coefficients {cfg cfg' : FlowCfg} (h : cfg.Accepted) (h' : cfg'.Accepted)
    (hsf : SameFlow s cfg cfg') (hv : cfg.visc ≠ .inviscid) (hM : 0 < cfg.Ma) {S Sref : GasState 2}
    (hS : IdealGas cfg.γ S) (q : Fin 5 → ℝ) (d dir : Fin 2 → ℝ) :
    forceCoefficient cfg' (conservativeDict (S.scale s)) (strainHeatFields (scaleMixed s q))
        (conservativeDict (Sref.scale s)) d dir
      = forceCoefficient cfg (conservativeDict S) (strainHeatFields q) (conservativeDict Sref) d dir ∧
    pressureCoefficient cfg'.γ (conservativeDict (S.scale s)) (conservativeDict (Sref.scale s))
      = pressureCoefficient cfg.γ (conservativeDict S) (conservativeDict Sref) := by
  obtain ⟨e1, e2, e3, e4, e5, e6⟩ := hsf.fields
  have hs := hsf.pos h h'
  obtain ⟨μ, hμ, μ0⟩ := visc_pos h hv (U := conservativeDict S) rfl hS.T_pos
  obtain ⟨r, hr, r0⟩ := ref_pos h hv hM
  have hμ' : viscosity cfg' (conservativeDict (S.scale s)) = .ok μ :=
    (C77_viscosity h h' hsf hS).trans hμ
  have hr' := reynolds_scale h h' hsf hr
  have p1 : ∀ (γ : ℝ) (S : GasState 2), pressure γ (conservativeDict S) = .ok S.p := by
    intro γ S
    simp [pressure, EOS.pressure, conservativeDict, equation, equationE]
  have k1 : ∀ S : GasState 2, kineticEnergy (conservativeDict S) = .ok S.rho_Ek := by
    intro S
    simp [kineticEnergy, conservativeDict, equation, equationE]
  have d1 : deviatoricStressTensor cfg (conservativeDict S) (strainHeatFields q)
      = .ok ((2 * μ / r) • !![q 0, q 1; q 1, q 2]) := by
    simp [deviatoricStressTensor, hμ, hr, strainRateTensor, strainHeatFields, equation, equationE,
      bind, Except.bind]
  have d2 : deviatoricStressTensor cfg' (conservativeDict (S.scale s))
      (strainHeatFields (scaleMixed s q))
      = .ok (s ^ 2 • ((2 * μ / r) • !![q 0, q 1; q 1, q 2])) := by
    have : s ^ 2 • ((2 * μ / r) • !![q 0, q 1; q 1, q 2])
        = (2 * μ / (r / s)) • (s • !![q 0, q 1; q 1, q 2]) := by
      rw [smul_smul, smul_smul]
      congr 1
      field_simp
    rw [this, ← scaleMixed_eps]
    simp [deviatoricStressTensor, hμ', hr', strainRateTensor, strainHeatFields, equation, equationE,
      bind, Except.bind]
  have s1 : stressTensor cfg (conservativeDict S) (strainHeatFields q)
      = .ok (-S.p • (1 : Matrix (Fin 2) (Fin 2) ℝ) + (2 * μ / r) • !![q 0, q 1; q 1, q 2]) := by
    simp only [stressTensor, p1, d1, bind, Except.bind]
  have s2 : stressTensor cfg' (conservativeDict (S.scale s)) (strainHeatFields (scaleMixed s q))
      = .ok (s ^ 2 • (-S.p • (1 : Matrix (Fin 2) (Fin 2) ℝ)
        + (2 * μ / r) • !![q 0, q 1; q 1, q 2])) := by
    have : -(S.scale s).p • (1 : Matrix (Fin 2) (Fin 2) ℝ)
        = s ^ 2 • (-S.p • (1 : Matrix (Fin 2) (Fin 2) ℝ)) := by
      rw [smul_smul]
      congr 1
      show -(s ^ 2 * S.p) = _
      ring
    rw [smul_add, ← this]
    simp only [stressTensor, p1, d2, bind, Except.bind]
    split
    · exact absurd (e5.symm.trans ‹_›) hv
    · rfl
  have h2 : s ^ 2 ≠ 0 := pow_ne_zero 2 hs.ne'
  constructor
  · simp only [forceCoefficient, s1, s2, k1, bind, Except.bind]
    rw [smul_mulVec, smul_dotProduct, smul_eq_mul,
      show (Sref.scale s).rho_Ek = s ^ 2 * Sref.rho_Ek from rfl, mul_div_mul_left _ _ h2]
  · simp only [pressureCoefficient, p1, k1, bind, Except.bind]
    rw [show (S.scale s).p = s ^ 2 * S.p from rfl, show (Sref.scale s).p = s ^ 2 * Sref.p from rfl,
      show (Sref.scale s).rho_Ek = s ^ 2 * Sref.rho_Ek from rfl, ← mul_sub,
      mul_div_mul_left _ _ h2]

/-- **C77** Nor does the local Mach number. -/
theorem C77_mach (hs : 0 < s) (S : GasState 2) :
    localMachNumber γ (conservativeDict (S.scale s)) = localMachNumber γ (conservativeDict S) := by
  have v1 : ∀ S : GasState 2, velocity (conservativeDict S) = .ok S.u := by
    intro S
    simp [velocity, conservativeDict, equation, equationE]
  have c1 : ∀ S : GasState 2, speedOfSound γ (conservativeDict S) = .ok S.c := by
    intro S
    simp [speedOfSound, EOS.speedOfSound, conservativeDict, equation, equationE]
  simp only [localMachNumber, v1, c1, bind, Except.bind]
  congr 1
  show √((s • S.u) ⬝ᵥ (s • S.u)) / (s * S.c) = _
  rw [show (s • S.u) ⬝ᵥ (s • S.u) = s ^ 2 * (S.u ⬝ᵥ S.u) by
      simp only [smul_dotProduct, dotProduct_smul, smul_eq_mul]; ring,
    Real.sqrt_mul (sq_nonneg s), Real.sqrt_sq hs.le, mul_div_mul_left _ _ hs.ne']

/-- **C77** With reference values that belong to the scaling, the dimensional state of the free
stream is the same in every scaling. -/
theorem C77_dimensionful_partial {cfg cfg' : FlowCfg} (h : cfg.Accepted) (h' : cfg'.Accepted)
    (hsf : SameFlow s cfg cfg') {n : ℕ} (d : Fin n → ℝ) {REF REF' : DimFields}
    (hρ : REF'.rho = REF.rho) (hm : REF'.rho_u = none ∧ REF.rho_u = none)
    (hu : REF'.u = REF.u.map (· / s)) (hc : REF'.c = REF.c.map (· / s))
    (hT : REF'.T = REF.T.map (· / s ^ 2)) (hp : REF'.p = REF.p.map (· / s ^ 2)) :
    ∃ U U', getFarfieldState cfg n d = .ok U ∧ getFarfieldState cfg' n d = .ok U' ∧
      getDimensionfulState REF' U' = getDimensionfulState REF U := by
  have h0 := (hsf.pos h h').ne'
  refine ⟨_, _, farfield_eq h d, farfield_eq h' d, ?_⟩
  rw [farState_scale h h' hsf]
  generalize farState cfg d = S
  have k1 : ∀ (o : Option ℝ) (y : ℝ), (do let r ← o.map (· / s); some (s * y * r))
      = (do let r ← o; some (y * r)) := by
    intro o y
    cases o with
    | none => rfl
    | some r =>
      show some (s * y * (r / s)) = some (y * r)
      congr 1
      field_simp
  have k2 : ∀ (o : Option ℝ) (y : ℝ), (do let r ← o.map (· / s ^ 2); some (s ^ 2 * y * r))
      = (do let r ← o; some (y * r)) := by
    intro o y
    cases o with
    | none => rfl
    | some r =>
      show some (s ^ 2 * y * (r / s ^ 2)) = some (y * r)
      congr 1
      field_simp
  have k3 : ∀ (o : Option ℝ) (y : Fin n → ℝ), (do let r ← o.map (· / s); some (r • (s • y)))
      = (do let r ← o; some (r • y)) := by
    intro o y
    cases o with
    | none => rfl
    | some r =>
      show some ((r / s) • (s • y)) = some (r • y)
      rw [smul_smul, div_mul_cancel₀ _ h0]
  simp only [getDimensionfulState, farDict, GasState.scale, hρ, hu, hc, hT, hp, Option.bind_eq_bind,
    Option.bind_some, Option.bind_none]
  simp only [Option.bind_eq_bind] at k1 k2 k3
  simp only [k1, k2, k3]

/-- **C77** The reference values themselves do not follow the scaling: with the same values (for
example the defaults) the dimensional temperature of the free stream depends on the scaling. -/
theorem C77_fails_dimensionful {cfg cfg' : FlowCfg} (h : cfg.Accepted) (h' : cfg'.Accepted)
    (hsf : SameFlow s cfg cfg') (hs : s ≠ 1) {n : ℕ} (d : Fin n → ℝ) (fields : DimFields)
    (hT : fields.T ≠ some 0) :
    ∃ U U', getFarfieldState cfg n d = .ok U ∧ getFarfieldState cfg' n d = .ok U' ∧
      (getDimensionfulState (dimensionfulValues fields) U').T
        ≠ (getDimensionfulState (dimensionfulValues fields) U).T := by
  have h0 := hsf.pos h h'
  refine ⟨_, _, farfield_eq h d, farfield_eq h' d, ?_⟩
  rw [farState_scale h h' hsf]
  have hS := (farState_ideal h d).T_pos
  have hne : s ^ 2 ≠ 1 := by
    intro e
    have e' : (s - 1) * (s + 1) = 0 := by linear_combination e
    rcases mul_eq_zero.1 e' with e | e
    · exact hs (by linarith)
    · linarith
  have key : ∀ r : ℝ, r ≠ 0 → s ^ 2 * (farState cfg d).T * r ≠ (farState cfg d).T * r := by
    intro r hr e
    apply hne
    have := mul_right_cancel₀ hr e
    field_simp at this
    linarith
  cases hf : fields.T with
  | none =>
    simp only [getDimensionfulState, dimensionfulValues, farDict, GasState.scale, hf,
      Option.bind_eq_bind, Option.bind_some, ne_eq]
    show ¬ some _ = some _
    rw [Option.some_inj]
    exact key _ (by norm_num)
  | some r =>
    simp only [getDimensionfulState, dimensionfulValues, farDict, GasState.scale, hf,
      Option.bind_eq_bind, Option.bind_some, ne_eq]
    show ¬ some _ = some _
    rw [Option.some_inj]
    exact key r (fun e => hT (by rw [hf, e]))

/-! ### Concrete cases -/

/-- `demoCfg` with the aerodynamic scaling. -/
def demoAero : FlowCfg := { demoCfg with scaling := .aerodynamic }

theorem demoAero_accepted : demoAero.Accepted := by
  constructor <;> simp [demoAero, demoCfg] <;> norm_num

/-- C77, concrete instance: from the acoustic to the aerodynamic scaling at Mach number 0.3 all
velocities are divided by the Mach number. -/
theorem demo_sameFlow : SameFlow (10 / 3) demoCfg demoAero where
  same := rfl
  sound := ⟨1, 10 / 3, rfl, by
    show Scaling.speedOfSound .aerodynamic (3 / 10) = _
    rw [Scaling.speedOfSound, if_neg (by norm_num)]
    norm_num, by norm_num⟩

example (q : Fin 5 → ℝ) : ∃ F,
    diffusiveFlux demoCfg (conservativeDict airState) (strainHeatFields q) = .ok F ∧
    diffusiveFlux demoAero (conservativeDict (airState.scale (10 / 3)))
      (strainHeatFields (scaleMixed (10 / 3) q)) = .ok (scaleFlux (10 / 3) F) :=
  let ⟨F, h1, h2, _⟩ := C77_diffusive demoCfg_accepted demoAero_accepted demo_sameFlow
    (by simp [demoCfg]) (by norm_num [demoCfg]) airState_ideal q
  ⟨F, h1, h2⟩

example : ∃ U U', getFarfieldState demoCfg 2 ![1, 0] = .ok U ∧
    getFarfieldState demoAero 2 ![1, 0] = .ok U' ∧
    (getDimensionfulState (dimensionfulValues {}) U').T
      ≠ (getDimensionfulState (dimensionfulValues {}) U).T :=
  C77_fails_dimensionful demoCfg_accepted demoAero_accepted demo_sameFlow (by norm_num) _ _ (by simp)

/-- C77, concrete instance: all test functions on the unit square. -/
example (bcs : Conditions) : ComponentSpace unitSquare bcs Set.univ := fun _ _ _ _ _ => trivial

/-- The residual of the far-field condition of the second variant, with `κ = s` on its region. -/
example (x cur prev : HdgState 2 4 Unit (Fin 4)) (bcs : Conditions)
    (hR : ∀ b, unitSquare.mask bcs b = 1 → x.R b = 0)
    (h : hdgStep unitSquare (unitSquare.mask bcs) Set.univ (Scheme.bdf2.quotient (1 / 10)) 0 x cur
      prev) :
    hdgStep unitSquare (unitSquare.mask bcs) Set.univ (Scheme.bdf2.quotient (1 / 10 / (10 / 3))) 0
      (scaleState (10 / 3) (fun _ => 10 / 3) x) (scaleState (10 / 3) (fun _ => 10 / 3) cur)
      (scaleState (10 / 3) (fun _ => 10 / 3) prev) :=
  (C77_step (by norm_num) (κ := fun _ => 10 / 3) (fun _ => by norm_num) unitSquare bcs
    (T := Set.univ) (fun _ _ _ _ _ => trivial) .bdf2 (1 / 10) 0 0 cur prev hR).2 h

end Dream
