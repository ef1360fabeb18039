import Verif.Props.Shock

/-!
# C105: there are shocks, and Lax-Friedrichs and Roe do not keep them
-/

noncomputable section

namespace Dream
open Matrix _root_.Spec

variable {γ : ℝ} {A P S : GasState 2} {d : Fin 2 → ℝ}

theorem enthalpy_eq (hS : IdealGas γ S) :
    S.H = γ / (γ - 1) * (S.p / S.rho) + (S.u ⬝ᵥ S.u) / 2 := by
  have hg : γ - 1 ≠ 0 := by linarith [hS.gamma]
  have hg' : γ ≠ 0 := by linarith [hS.gamma]
  have := hS.rho_pos.ne'
  rw [hS.enthalpy, hS.total, hS.kinetic, hS.gas_law, hS.caloric]
  field_simp
  ring

theorem gas_ext (hA : IdealGas γ A) (hP : IdealGas γ P) (hr : A.rho = P.rho) (hu : A.u = P.u)
    (hp : A.p = P.p) : A = P := by
  have hg : γ - 1 ≠ 0 := by linarith [hA.gamma]
  have hg' : γ ≠ 0 := by linarith [hA.gamma]
  have r0 := hP.rho_pos.ne'
  have hE : A.Ei = P.Ei := by
    have h1 := hA.gas_law
    have h2 := hP.gas_law
    rw [hA.caloric] at h1
    rw [hP.caloric] at h2
    rw [hp, h2, hr] at h1
    field_simp at h1
    exact h1.symm
  rw [hA.eq_of, hP.eq_of, hr, hu, hE]

/-- What the jump conditions say about the normal direction. -/
structure NormalJump (γ : ℝ) (d : Fin 2 → ℝ) (A P : GasState 2) (a : ℝ) : Prop where
  velocity : P.u = A.u - a • d
  pressure : P.p = A.p + A.rho * (A.u ⬝ᵥ d) * a
  mass : A.rho * (A.u ⬝ᵥ d) = P.rho * (A.u ⬝ᵥ d - a)
  energy : γ / (γ - 1) * (A.p / A.rho) + (A.u ⬝ᵥ d) ^ 2 / 2
    = γ / (γ - 1) * (P.p / P.rho) + (A.u ⬝ᵥ d - a) ^ 2 / 2

theorem dot_unit (hd : d 0 ^ 2 + d 1 ^ 2 = 1) : d ⬝ᵥ d = 1 := by
  simp only [dotProduct, Fin.sum_univ_two]
  linear_combination hd

theorem sub_smul_dot (hd : d 0 ^ 2 + d 1 ^ 2 = 1) (u : Fin 2 → ℝ) (a : ℝ) :
    (u - a • d) ⬝ᵥ d = u ⬝ᵥ d - a := by
  rw [sub_dotProduct, smul_dotProduct, dot_unit hd, smul_eq_mul, mul_one]

theorem sub_smul_self (hd : d 0 ^ 2 + d 1 ^ 2 = 1) (u : Fin 2 → ℝ) (a : ℝ) :
    (u - a • d) ⬝ᵥ (u - a • d) = u ⬝ᵥ u - 2 * a * (u ⬝ᵥ d) + a ^ 2 := by
  rw [sub_dotProduct, dotProduct_sub, dotProduct_sub, smul_dotProduct, smul_dotProduct,
    dotProduct_smul, dotProduct_smul, dot_unit hd, dotProduct_comm d u]
  simp only [smul_eq_mul]
  ring

theorem _root_.Spec.StandingShock.normal (h : StandingShock γ d A P)
    (hd : d 0 ^ 2 + d 1 ^ 2 = 1) : NormalJump γ d A P (A.u ⬝ᵥ d - P.u ⬝ᵥ d) := by
  have hu : 0 < A.u ⬝ᵥ d := h.ahead.sound_pos.trans h.supersonic
  have hm : 0 < A.rho * (A.u ⬝ᵥ d) := mul_pos h.ahead.rho_pos hu
  have h0 := h.momentum 0
  have h1 := h.momentum 1
  rw [← h.mass] at h0 h1
  have eA : A.u ⬝ᵥ d = A.u 0 * d 0 + A.u 1 * d 1 := by simp [dotProduct, Fin.sum_univ_two]
  have eP : P.u ⬝ᵥ d = P.u 0 * d 0 + P.u 1 * d 1 := by simp [dotProduct, Fin.sum_univ_two]
  obtain ⟨m, hm'⟩ : ∃ m, m = A.rho * (A.u ⬝ᵥ d) := ⟨_, rfl⟩
  rw [← hm'] at h0 h1 hm
  have hp : P.p = A.p + m * (A.u ⬝ᵥ d - P.u ⬝ᵥ d) := by
    rw [eA, eP]
    linear_combination (-d 0) * h0 - d 1 * h1 + (P.p - A.p) * (-1) * hd
  have hv : P.u = A.u - (A.u ⬝ᵥ d - P.u ⬝ᵥ d) • d := by
    funext i
    have hi : m * A.u i + A.p * d i = m * P.u i + P.p * d i := by fin_cases i <;> assumption
    show P.u i = A.u i - (A.u ⬝ᵥ d - P.u ⬝ᵥ d) * d i
    refine mul_left_cancel₀ hm.ne' ?_
    rw [hp] at hi
    linear_combination -hi
  have he : A.H = P.H := by
    have := h.energy
    rw [← h.mass, ← hm'] at this
    exact mul_left_cancel₀ hm.ne' this
  refine ⟨hv, by rw [hp, hm'], by rw [h.mass]; ring, ?_⟩
  rw [enthalpy_eq h.ahead, enthalpy_eq h.behind] at he
  have hself := sub_smul_self hd A.u (A.u ⬝ᵥ d - P.u ⬝ᵥ d)
  rw [← hv] at hself
  rw [hself] at he
  linear_combination he

/-- **C105.** Behind a shock that is not trivial the gas is denser, slower, hotter and has a higher
pressure. -/
theorem C105_compressive (h : StandingShock γ d A P) (hd : d 0 ^ 2 + d 1 ^ 2 = 1) (hne : A ≠ P) :
    A.rho < P.rho ∧ A.p < P.p ∧ A.T < P.T ∧ 0 < P.u ⬝ᵥ d ∧ P.u ⬝ᵥ d < A.u ⬝ᵥ d := by
  have hn := h.normal hd
  have hu : 0 < A.u ⬝ᵥ d := h.ahead.sound_pos.trans h.supersonic
  obtain ⟨un, hun⟩ : ∃ un, un = A.u ⬝ᵥ d := ⟨_, rfl⟩
  obtain ⟨a, ha⟩ : ∃ a, a = A.u ⬝ᵥ d - P.u ⬝ᵥ d := ⟨_, rfl⟩
  have hPu : P.u ⬝ᵥ d = un - a := by rw [ha, hun]; ring
  rw [← ha] at hn
  obtain ⟨hv, hp, hm, he⟩ := hn
  have hc : A.c ^ 2 < un ^ 2 := by
    have := h.supersonic
    rw [← hun] at this
    have := h.ahead.sound_pos
    nlinarith
  rw [h.ahead.sound] at hc
  rw [← hun] at hm he hp hu
  have g1 : 0 < γ - 1 := by linarith [h.ahead.gamma]
  have g0 : 0 < γ := by linarith
  have rA := h.ahead.rho_pos
  have rP := h.behind.rho_pos
  have pA := h.ahead.p_pos
  have hua : 0 < un - a := by
    by_contra hle
    have : P.rho * (un - a) ≤ 0 := mul_nonpos_of_nonneg_of_nonpos rP.le (not_lt.1 hle)
    have := mul_pos rA hu
    linarith
  have a0 : a ≠ 0 := by
    intro h0
    refine hne (gas_ext h.ahead h.behind ?_ ?_ ?_)
    · rw [h0, sub_zero] at hm
      exact mul_right_cancel₀ hu.ne' hm
    · rw [hv, h0, zero_smul, sub_zero]
    · rw [hp, h0, mul_zero, add_zero]
  -- the other solution of the quadratic equation
  have eP : P.p / P.rho = (A.p + A.rho * un * a) * (un - a) / (A.rho * un) := by
    rw [hp, hm]
    field_simp
  have key : (γ + 1) / 2 * a * un = un ^ 2 - γ * (A.p / A.rho) := by
    rw [eP] at he
    field_simp at he
    have h2 : a * ((γ + 1) * A.rho * un * a - 2 * A.rho * un ^ 2 + 2 * γ * A.p) = 0 := by
      linear_combination he
    have h3 := (mul_eq_zero.1 h2).resolve_left a0
    field_simp
    linear_combination h3
  have ap : 0 < a := by
    have : 0 < (γ + 1) / 2 * a * un := by rw [key]; linarith
    by_contra hle
    have h2 : (γ + 1) / 2 * a * un ≤ 0 :=
      mul_nonpos_of_nonpos_of_nonneg (mul_nonpos_of_nonneg_of_nonpos (by linarith)
        (not_lt.1 hle)) hu.le
    linarith
  refine ⟨?_, ?_, ?_, by rw [hPu]; exact hua, by rw [hPu, ← hun]; linarith⟩
  · by_contra hle
    have h1 : P.rho * (un - a) ≤ A.rho * (un - a) :=
      mul_le_mul_of_nonneg_right (not_lt.1 hle) hua.le
    have h2 : A.rho * (un - a) < A.rho * un := mul_lt_mul_of_pos_left (by linarith) rA
    linarith
  · rw [hp]
    have := mul_pos (mul_pos rA hu) ap
    linarith
  · have tA : γ / (γ - 1) * (A.p / A.rho) = A.T := by
      rw [h.ahead.gas_law]
      field_simp
    have tP : γ / (γ - 1) * (P.p / P.rho) = P.T := by
      rw [h.behind.gas_law]
      field_simp
    rw [tA, tP] at he
    have : (un - a) ^ 2 < un ^ 2 := by nlinarith
    linarith

/-- **C105.** Every gas that comes faster than sound can be stopped by a shock. -/
theorem C105_exists (hA : IdealGas γ A) (hd : d 0 ^ 2 + d 1 ^ 2 = 1) (hs : A.c < A.u ⬝ᵥ d) :
    ∃ P, A ≠ P ∧ StandingShock γ d A P := by
  have hu : 0 < A.u ⬝ᵥ d := hA.sound_pos.trans hs
  obtain ⟨un, hun⟩ : ∃ un, un = A.u ⬝ᵥ d := ⟨_, rfl⟩
  have hc : γ * (A.p / A.rho) < un ^ 2 := by
    rw [← hA.sound, hun]
    have := hA.sound_pos
    nlinarith
  rw [← hun] at hu hs
  have g1 : 0 < γ - 1 := by linarith [hA.gamma]
  have g0 : 0 < γ := by linarith
  have rA := hA.rho_pos
  have pA := hA.p_pos
  obtain ⟨q, hq⟩ : ∃ q, q = A.p / A.rho := ⟨_, rfl⟩
  have q0 : 0 < q := hq ▸ div_pos pA rA
  have hpq : A.p = A.rho * q := by rw [hq]; field_simp
  rw [← hq] at hc
  obtain ⟨a, ha⟩ : ∃ a, a = 2 * (un ^ 2 - γ * q) / ((γ + 1) * un) := ⟨_, rfl⟩
  have ap : 0 < a := by
    rw [ha]
    exact div_pos (by linarith) (by positivity)
  have key : (γ + 1) * un * a = 2 * (un ^ 2 - γ * q) := by
    rw [ha]
    field_simp
  have hua : 0 < un - a := by
    have h1 : (γ + 1) * un * (un - a) = (γ - 1) * un ^ 2 + 2 * γ * q := by
      linear_combination (-1) * key
    have h2 : 0 < (γ + 1) * un * (un - a) := by rw [h1]; positivity
    exact pos_of_mul_pos_right h2 (by positivity)
  obtain ⟨r, hr⟩ : ∃ r, r = A.rho * un / (un - a) := ⟨_, rfl⟩
  have r0 : 0 < r := hr ▸ div_pos (mul_pos rA hu) hua
  have hmass : A.rho * un = r * (un - a) := by rw [hr]; field_simp
  obtain ⟨Ei, hEi⟩ : ∃ Ei, Ei = (A.p + A.rho * un * a) / ((γ - 1) * r) := ⟨_, rfl⟩
  have E0 : 0 < Ei := hEi ▸ div_pos (by positivity) (by positivity)
  have hP := IdealGas.of (n := 2) (u := A.u - a • d) hA.gamma r0 E0
  obtain ⟨P, hPd⟩ : ∃ P : GasState 2, P = GasState.of γ r (A.u - a • d) Ei := ⟨_, rfl⟩
  rw [← hPd] at hP
  have Pr : P.rho = r := by rw [hPd]; rfl
  have Pu : P.u = A.u - a • d := by rw [hPd]; rfl
  have Pp : P.p = A.p + A.rho * un * a := by
    rw [hPd]
    show (γ - 1) * (r * Ei) = _
    rw [hEi]
    field_simp
  have Pun : P.u ⬝ᵥ d = un - a := by rw [Pu, sub_smul_dot hd, hun]
  refine ⟨P, ?_, hA, hP, by rw [← hun]; exact hs, by rw [← hun, Pun, Pr]; exact hmass, ?_, ?_⟩
  · intro h
    have : P.u ⬝ᵥ d = un := by rw [← h, hun]
    linarith
  · intro i
    have hi : P.u i = A.u i - a * d i := by rw [Pu]; rfl
    rw [Pun, Pr, ← hmass, ← hun, hi, Pp]
    ring
  · rw [Pun, Pr, ← hmass, ← hun]
    congr 1
    rw [enthalpy_eq hA, enthalpy_eq hP, Pu, sub_smul_self hd, ← hun, Pp, Pr, hpq]
    have e : (A.rho * q + A.rho * un * a) / r = (q + un * a) * (un - a) / un := by
      rw [hr]
      field_simp
    rw [e]
    field_simp
    linear_combination a * key

/-- **C105 fails** with Lax-Friedrichs: no facet value lets a shock stand. If the two triangles see
their own flux at the shock, what leaves one does not enter the other. -/
theorem C105_fails_lax_friedrich (h : StandingShock γ d A P) (hd : d 0 ^ 2 + d 1 ^ 2 = 1)
    (hne : A ≠ P) (hS : IdealGas γ S) :
    ¬(convectiveNumericalFlux γ .laxFriedrich (gasVec A) (gasVec S) (conservativeDict S) d
        = .ok (eulerFlux γ d A.rho A.rho_u A.rho_E) ∧
      convectiveNumericalFlux γ .laxFriedrich (gasVec P) (gasVec S) (conservativeDict S) (-d)
        = .ok (eulerFlux γ (-d) P.rho P.rho_u P.rho_E)) := by
  rintro ⟨hf, hg⟩
  obtain ⟨f, g, h1, h2, h3⟩ := C28_lax_friedrich_conservative hS hd (gasVec A) (gasVec P) (gasVec S)
  rw [hf] at h1
  rw [hg] at h2
  have hf' := Except.ok.inj h1
  have hg' := Except.ok.inj h2
  have hmean := h3.1 (by rw [← hf', ← hg', euler_neg, h.flux]; abel)
  obtain ⟨τ, h4, h5⟩ := C28_flux .laxFriedrich hS hd (gasVec A) (gasVec S)
  have t := tauLF_eq (γ := γ) (U := conservativeDict S) (d := d) rfl rfl
  rw [Riemann.tau, t] at h4
  obtain rfl := Except.ok.inj h4
  rw [hf] at h5
  have h0 := congrFun (Except.ok.inj h5) 0
  have m0 : S.rho = (A.rho + P.rho) / 2 := by
    have := congrFun hmean 0
    simp [consVec] at this
    linarith
  have mu : S.rho_u = (1 / 2 : ℝ) • (A.rho_u + P.rho_u) := by
    funext i
    have h1 := congrFun hmean 1
    have h2 := congrFun hmean 2
    fin_cases i
    · exact h1
    · exact h2
  have hm : S.rho_u ⬝ᵥ d = A.rho_u ⬝ᵥ d := by
    have := h.mass
    rw [mu, smul_dotProduct, add_dotProduct, h.ahead.momentum, h.behind.momentum,
      smul_dotProduct, smul_dotProduct]
    simp only [smul_eq_mul]
    linarith
  rw [smul_mulVec, one_mulVec] at h0
  have h0' : A.rho_u ⬝ᵥ d = S.rho_u ⬝ᵥ d + (|S.u ⬝ᵥ d| + S.c) * (A.rho - S.rho) := h0
  have hpos : (0 : ℝ) < |S.u ⬝ᵥ d| + S.c := by have := hS.sound_pos; positivity
  have hlt := (C105_compressive h hd hne).1
  have : (|S.u ⬝ᵥ d| + S.c) * (A.rho - S.rho) < 0 :=
    mul_neg_of_pos_of_neg hpos (by rw [m0]; linarith)
  linarith

/-- The parts of a difference `w` of states that belong to the acoustic waves: the difference of the
pressure and of the normal momentum, seen from the state with velocity `u`. -/
def pressurePart (γ : ℝ) (u : Fin 2 → ℝ) (w : Fin 4 → ℝ) : ℝ :=
  (γ - 1) * ((u ⬝ᵥ u) / 2 * w 0 - (u 0 * w 1 + u 1 * w 2) + w 3)

def momentumPart (u d : Fin 2 → ℝ) (w : Fin 4 → ℝ) : ℝ :=
  w 1 * d 0 + w 2 * d 1 - (u 0 * d 0 + u 1 * d 1) * w 0

theorem matPinv_parts (rho c : ℝ) (u : Fin 2 → ℝ) (w : Fin 4 → ℝ) :
    (matPinv γ rho c u d *ᵥ w) 0 = pressurePart γ u w - c * momentumPart u d w ∧
    (matPinv γ rho c u d *ᵥ w) 1 = c ^ 2 * w 0 - pressurePart γ u w ∧
    (matPinv γ rho c u d *ᵥ w) 3 = pressurePart γ u w + c * momentumPart u d w := by
  refine ⟨?_, ?_, ?_⟩ <;>
    simp [matPinv, mulVec, dotProduct, Fin.sum_univ_succ, pressurePart, momentumPart] <;> ring

theorem matP_parts {rho c : ℝ} (c0 : c ≠ 0) (hd : d 0 ^ 2 + d 1 ^ 2 = 1) (u : Fin 2 → ℝ)
    (k : Fin 4 → ℝ) :
    2 * c ^ 2 * (matP γ rho c u d *ᵥ k) 0 = k 0 + 2 * k 1 + k 3 ∧
    2 * c ^ 2 * ((matP γ rho c u d *ᵥ k) 1 * d 0 + (matP γ rho c u d *ᵥ k) 2 * d 1)
      = (u 0 * d 0 + u 1 * d 1 - c) * k 0 + 2 * (u 0 * d 0 + u 1 * d 1) * k 1
        + (u 0 * d 0 + u 1 * d 1 + c) * k 3 := by
  constructor
  · simp [matP, mulVec, dotProduct, Fin.sum_univ_succ]
    field_simp
    ring
  · simp [matP, mulVec, dotProduct, Fin.sum_univ_succ]
    field_simp
    linear_combination (-c * k 0 + c * k 3) * hd

theorem conj_parts {rho c : ℝ} (c0 : c ≠ 0) (hd : d 0 ^ 2 + d 1 ^ 2 = 1) (u : Fin 2 → ℝ)
    (σ w : Fin 4 → ℝ) {y : Fin 4 → ℝ}
    (hy : y = (matP γ rho c u d * diagonal σ * matPinv γ rho c u d) *ᵥ w) :
    2 * c ^ 2 * y 0 = σ 0 * (pressurePart γ u w - c * momentumPart u d w)
        + 2 * (σ 1 * (c ^ 2 * w 0 - pressurePart γ u w))
        + σ 3 * (pressurePart γ u w + c * momentumPart u d w) ∧
    2 * c ^ 2 * (y 1 * d 0 + y 2 * d 1)
      = (u 0 * d 0 + u 1 * d 1 - c) * (σ 0 * (pressurePart γ u w - c * momentumPart u d w))
        + 2 * (u 0 * d 0 + u 1 * d 1) * (σ 1 * (c ^ 2 * w 0 - pressurePart γ u w))
        + (u 0 * d 0 + u 1 * d 1 + c) * (σ 3 * (pressurePart γ u w + c * momentumPart u d w)) := by
  obtain ⟨h0, h1, h3⟩ := matPinv_parts (γ := γ) (d := d) rho c u w
  have e : y = matP γ rho c u d *ᵥ (diagonal σ *ᵥ (matPinv γ rho c u d *ᵥ w)) := by
    rw [hy, mulVec_mulVec, mulVec_mulVec]
  obtain ⟨p0, p1⟩ := matP_parts (γ := γ) (rho := rho) c0 hd u
    (diagonal σ *ᵥ (matPinv γ rho c u d *ᵥ w))
  rw [← e] at p0 p1
  simp only [mulVec_diagonal, h0, h1, h3] at p0 p1
  exact ⟨p0, p1⟩

theorem conj_inj {rho c : ℝ} (r0 : rho ≠ 0) (c0 : c ≠ 0) (hg : γ - 1 ≠ 0)
    (hd : d 0 ^ 2 + d 1 ^ 2 = 1) (u : Fin 2 → ℝ) {σ w : Fin 4 → ℝ} (hσ : ∀ i, σ i ≠ 0)
    (h : (matP γ rho c u d * diagonal σ * matPinv γ rho c u d) *ᵥ w = 0) : w = 0 := by
  have hQ := Pinv_mul_P (u := u) r0 c0 (γ := γ) hg hd
  have hP := P_mul_Pinv (u := u) r0 c0 (γ := γ) hg hd
  obtain ⟨v, hv⟩ : ∃ v, v = matPinv γ rho c u d *ᵥ w := ⟨_, rfl⟩
  have e' : diagonal σ *ᵥ v = 0 := by
    have := congrArg (fun z => matPinv γ rho c u d *ᵥ z) h
    simp only [mulVec_mulVec, ← Matrix.mul_assoc, hQ, Matrix.one_mul, mulVec_zero] at this
    rw [hv, mulVec_mulVec]
    exact this
  have v0 : v = 0 := by
    funext i
    have := congrFun e' i
    rw [mulVec_diagonal] at this
    exact (mul_eq_zero.1 this).resolve_left (hσ i)
  have := congrArg (fun z => matP γ rho c u d *ᵥ z) hv
  simp only [mulVec_mulVec, hP, one_mulVec, v0, mulVec_zero] at this
  exact this.symm

/-- The algebra of the proof that Roe's flux does not keep shocks: `r`, `s` are the densities ahead
and behind, `un`, `un - a` the normal velocities, `U` that of the mean. -/
theorem roe_contradiction {γ r s un a U c δ w0 : ℝ} (g1 : 1 < γ) (g3 : γ < 3) (hr : 0 < r)
    (hrs : r < s) (hu : 0 < un) (hm : r * un = s * (un - a)) (hU : U * (r + s) = 2 * r * un)
    (hc : 0 < c) (hw : w0 = (r - s) / 2)
    (hδ : δ = (γ - 1) * ((U ^ 2 - un ^ 2) * (r - s) / 4 - s * a ^ 2 / 4) - r * un * a / 2)
    (hsub : U < c → δ + c * U * w0 = 0)
    (hsup : c < U → (r + s) * U ^ 2 / 2 + r * un * a / 2
      + (γ - 1) / 4 * (s * (a ^ 2 - 2 * a * un) + (r + s) * (un ^ 2 - U ^ 2)) + (δ - U ^ 2 * w0)
      = r * un ^ 2)
    (hne : U ≠ c) : False := by
  have hs : 0 < s := hr.trans hrs
  have sa : s * a = (s - r) * un := by linear_combination hm
  have U0 : 0 < U := by
    have : 0 < U * (r + s) := by rw [hU]; positivity
    exact pos_of_mul_pos_left this (by linarith)
  obtain ⟨k, hk⟩ : ∃ k, s * k = r * un ^ 2 := ⟨r * un ^ 2 / s, by field_simp⟩
  have k0 : 0 < k := by
    have : 0 < s * k := by rw [hk]; positivity
    exact pos_of_mul_pos_right this hs.le
  have ha2 : s * a ^ 2 = (s - r) * (un ^ 2 - k) := by
    refine mul_left_cancel₀ hs.ne' ?_
    linear_combination (s * a + (s - r) * un) * sa + (s - r) * hk
  have hra : r * un * a = (s - r) * k := by
    refine mul_left_cancel₀ hs.ne' ?_
    linear_combination (r * un) * sa - (s - r) * hk
  have hδ' : δ = -(s - r) * ((γ - 1) / 4 * (U ^ 2 - k) + k / 2) := by
    rw [hδ]
    linear_combination (-(γ - 1) / 4) * ha2 - hra / 2
  rcases lt_or_gt_of_ne hne with h | h
  · have h1 := hsub h
    rw [hδ', hw] at h1
    have h2 : (s - r) * ((γ - 1) / 2 * (U ^ 2 - k) + k + c * U) = 0 := by linear_combination (-2) * h1
    have h3 := (mul_eq_zero.1 h2).resolve_left (by linarith)
    have cU : 0 < c * U := mul_pos hc U0
    rcases le_total k (U ^ 2) with h4 | h4
    · have : 0 ≤ (γ - 1) / 2 * (U ^ 2 - k) := mul_nonneg (by linarith) (by linarith)
      linarith
    · have : U ^ 2 - k ≤ (γ - 1) / 2 * (U ^ 2 - k) := by nlinarith
      have : 0 < U ^ 2 := by positivity
      linarith
  · have h1 := hsup h
    rw [hδ', hw] at h1
    have h2 : s * (U ^ 2 - k) * (3 - γ) = 0 := by
      linear_combination 2 * h1 - hra - (γ - 1) / 2 * ha2 + (γ - 1) * un * sa + (γ - 3) * hk
    have h3 : U ^ 2 = k := by
      have := (mul_eq_zero.1 h2).resolve_right (by linarith)
      have := (mul_eq_zero.1 this).resolve_left hs.ne'
      linarith
    have h4 : r * un ^ 2 * (s - r) ^ 2 = 0 := by
      have e : (U * (r + s)) ^ 2 * s = (2 * r * un) ^ 2 * s := by rw [hU]
      linear_combination e - (r + s) ^ 2 * s * h3 - (r + s) ^ 2 * hk
    have : 0 < r * un ^ 2 * (s - r) ^ 2 := by
      have : 0 < s - r := by linarith
      positivity
    linarith

/-- **C105 fails** with Roe's flux (as this code evaluates it, at the facet value): no facet value,
except perhaps one that is sonic or flows along the facet, lets a shock stand. -/
theorem C105_fails_roe (g3 : γ < 3) (h : StandingShock γ d A P) (hd : d 0 ^ 2 + d 1 ^ 2 = 1)
    (hne : A ≠ P) (hS : IdealGas γ S) (hl : ∀ i, lams S.c S.u d i ≠ 0) :
    ¬(convectiveNumericalFlux γ .roe (gasVec A) (gasVec S) (conservativeDict S) d
        = .ok (eulerFlux γ d A.rho A.rho_u A.rho_E) ∧
      convectiveNumericalFlux γ .roe (gasVec P) (gasVec S) (conservativeDict S) (-d)
        = .ok (eulerFlux γ (-d) P.rho P.rho_u P.rho_E)) := by
  rintro ⟨hf, hg⟩
  have hd' : (-d) 0 ^ 2 + (-d) 1 ^ 2 = 1 := by simpa using hd
  have c0 := hS.sound_pos
  have r0 := hS.rho_pos
  have g1 : γ - 1 ≠ 0 := by linarith [hS.gamma]
  obtain ⟨τ, t1, t2⟩ := C28_flip_invariant (γ := γ) (U := conservativeDict S) (d := d) rfl rfl rfl
    .roe (Or.inr rfl)
  obtain ⟨τ₁, h1, e1⟩ := C28_flux .roe hS hd (gasVec A) (gasVec S)
  obtain ⟨τ₂, h2, e2⟩ := C28_flux .roe hS hd' (gasVec P) (gasVec S)
  rw [t1] at h1
  rw [t2] at h2
  cases h1
  cases h2
  have t3 := Riemann.roe.tau_eq (U := conservativeDict S) (d := d) hS.gamma rfl rfl rfl r0 c0 hd
  rw [t1] at t3
  have ht := Except.ok.inj t3
  rw [hf] at e1
  rw [hg] at e2
  have e1 := Except.ok.inj e1
  have e2 := Except.ok.inj e2
  have hsum : τ *ᵥ ((gasVec A - gasVec S) + (gasVec P - gasVec S)) = 0 := by
    rw [euler_neg, euler_neg, ← h.flux, e1] at e2
    rw [mulVec_add]
    funext i
    have := congrFun e2 i
    simp only [Pi.neg_apply, Pi.add_apply, Pi.zero_apply] at this ⊢
    linarith
  rw [ht] at hsum
  have hmean := conj_inj r0.ne' c0.ne' g1 hd S.u (σ := Riemann.roe.sigma S.c S.u d)
    (fun i => abs_ne_zero.2 (hl i)) hsum
  have m0 : S.rho = (A.rho + P.rho) / 2 := by
    have : A.rho - S.rho + (P.rho - S.rho) = 0 := congrFun hmean 0
    linarith
  have m1 : ∀ i, S.rho_u i = (A.rho_u i + P.rho_u i) / 2 := by
    intro i
    have h1 : A.rho_u 0 - S.rho_u 0 + (P.rho_u 0 - S.rho_u 0) = 0 := congrFun hmean 1
    have h2 : A.rho_u 1 - S.rho_u 1 + (P.rho_u 1 - S.rho_u 1) = 0 := congrFun hmean 2
    fin_cases i
    · show S.rho_u 0 = (A.rho_u 0 + P.rho_u 0) / 2
      linarith
    · show S.rho_u 1 = (A.rho_u 1 + P.rho_u 1) / 2
      linarith
  have m3 : S.rho_E = (A.rho_E + P.rho_E) / 2 := by
    have : A.rho_E - S.rho_E + (P.rho_E - S.rho_E) = 0 := congrFun hmean 3
    linarith
  have hJ := h.normal hd
  have hlt := (C105_compressive h hd hne).1
  obtain ⟨a, ha⟩ : ∃ a, a = A.u ⬝ᵥ d - P.u ⬝ᵥ d := ⟨_, rfl⟩
  rw [← ha] at hJ
  obtain ⟨hv, hp, hm, -⟩ := hJ
  obtain ⟨y, hy⟩ : ∃ y, y = τ *ᵥ (gasVec A - gasVec S) := ⟨_, rfl⟩
  obtain ⟨w, hw⟩ : ∃ w, w = gasVec A - gasVec S := ⟨_, rfl⟩
  rw [← hy, euler_primitive h.ahead, euler_primitive hS] at e1
  have y0 : A.rho * (A.u ⬝ᵥ d) = S.rho * (S.u ⬝ᵥ d) + y 0 := congrFun e1 0
  have y1 : A.rho * A.u 0 * (A.u ⬝ᵥ d) + A.p * d 0
      = S.rho * S.u 0 * (S.u ⬝ᵥ d) + S.p * d 0 + y 1 := congrFun e1 1
  have y2 : A.rho * A.u 1 * (A.u ⬝ᵥ d) + A.p * d 1
      = S.rho * S.u 1 * (S.u ⬝ᵥ d) + S.p * d 1 + y 2 := congrFun e1 2
  rw [ht, ← hw] at hy
  obtain ⟨c1, c2⟩ := conj_parts c0.ne' hd S.u _ w hy
  have hu : 0 < A.u ⬝ᵥ d := h.ahead.sound_pos.trans h.supersonic
  have eA : A.u ⬝ᵥ d = A.u 0 * d 0 + A.u 1 * d 1 := by simp [dotProduct, Fin.sum_univ_two]
  have eS : S.u ⬝ᵥ d = S.u 0 * d 0 + S.u 1 * d 1 := by simp [dotProduct, Fin.sum_univ_two]
  have rA := h.ahead.rho_pos
  have rP := h.behind.rho_pos
  obtain ⟨un, hun⟩ : ∃ un, un = A.u ⬝ᵥ d := ⟨_, rfl⟩
  obtain ⟨U, hUd⟩ : ∃ U, U = S.u ⬝ᵥ d := ⟨_, rfl⟩
  obtain ⟨r, hr⟩ : ∃ r, r = A.rho := ⟨_, rfl⟩
  obtain ⟨s, hs⟩ : ∃ s, s = P.rho := ⟨_, rfl⟩
  have hPu : ∀ i, P.u i = A.u i - a * d i := fun i => by rw [hv]; rfl
  have hSu : ∀ i, (r + s) * S.u i = (r + s) * A.u i - s * a * d i := by
    intro i
    have h1 := m1 i
    rw [hS.momentum, h.ahead.momentum, h.behind.momentum] at h1
    simp only [Pi.smul_apply, smul_eq_mul] at h1
    rw [hPu i, m0, ← hr, ← hs] at h1
    linear_combination 2 * h1
  obtain ⟨b, hb⟩ : ∃ b, (r + s) * b = s * a := ⟨s * a / (r + s), by
    have : r + s ≠ 0 := by rw [hr, hs]; positivity
    field_simp⟩
  have rs0 : r + s ≠ 0 := by rw [hr, hs]; positivity
  have hSu' : ∀ i, S.u i = A.u i - b * d i := by
    intro i
    refine mul_left_cancel₀ rs0 ?_
    linear_combination hSu i + d i * hb
  have hUb : U = un - b := by
    rw [hUd, hun, eS, eA, hSu' 0, hSu' 1]
    linear_combination (-b) * hd
  obtain ⟨X, hX⟩ : ∃ X, X = A.u 0 ^ 2 + A.u 1 ^ 2 := ⟨_, rfl⟩
  have XA : A.u ⬝ᵥ A.u = X := by rw [hX]; simp [dotProduct, Fin.sum_univ_two]; ring
  have XP : P.u ⬝ᵥ P.u = X - 2 * a * un + a ^ 2 := by rw [hv, sub_smul_self hd, XA, hun]
  have XS : S.u ⬝ᵥ S.u = X + U ^ 2 - un ^ 2 := by
    have : S.u = A.u - b • d := funext hSu'
    rw [this, sub_smul_self hd, XA, ← hun, hUb]
    ring
  rw [← hr, ← hun] at hp
  rw [← hr, ← hs, ← hun] at hm
  have EA := rhoE_eq h.ahead
  have EP := rhoE_eq h.behind
  have ES := rhoE_eq hS
  rw [XA, ← hr] at EA
  rw [XP, ← hs, hp] at EP
  rw [XS, m3, EA, EP, m0, ← hr, ← hs] at ES
  have w0 : w 0 = (r - s) / 2 := by
    rw [hw]
    show A.rho - S.rho = _
    rw [m0, ← hr, ← hs]
    ring
  have wi : ∀ i, A.rho_u i - S.rho_u i = ((r - s) * A.u i + s * a * d i) / 2 := by
    intro i
    rw [m1 i, h.ahead.momentum, h.behind.momentum]
    simp only [Pi.smul_apply, smul_eq_mul]
    rw [hPu i, ← hr, ← hs]
    ring
  have w1 : w 1 = ((r - s) * A.u 0 + s * a * d 0) / 2 := by rw [hw]; exact wi 0
  have w2 : w 2 = ((r - s) * A.u 1 + s * a * d 1) / 2 := by rw [hw]; exact wi 1
  have w3 : w 3 = (A.rho_E - P.rho_E) / 2 := by
    rw [hw]
    show A.rho_E - S.rho_E = _
    rw [m3]
    ring
  have eA' : un = A.u 0 * d 0 + A.u 1 * d 1 := by rw [hun, eA]
  have eS' : U = S.u 0 * d 0 + S.u 1 * d 1 := by rw [hUd, eS]
  have hsm : S.u 0 * w 1 + S.u 1 * w 2 = ((r - s) * X + s * a * un) / 2 := by
    rw [w1, w2, hSu' 0, hSu' 1, hX]
    rw [eA'] at hm ⊢
    linear_combination (-b / 2) * hm - (b * s * a / 2) * hd
  have hμ : momentumPart S.u d w = -(U * w 0) := by
    rw [momentumPart, ← eS', w1, w2]
    rw [eA'] at hm
    linear_combination (-1 / 2 : ℝ) * (-1) * hm + (s * a / 2) * hd
  have hδ : pressurePart γ S.u w
      = (γ - 1) * ((U ^ 2 - un ^ 2) * (r - s) / 4 - s * a ^ 2 / 4) - r * un * a / 2 := by
    rw [pressurePart, XS, hsm, w3, EA, EP, w0]
    field_simp
    ring
  obtain ⟨δ, hδd⟩ : ∃ δ, δ = pressurePart γ S.u w := ⟨_, rfl⟩
  rw [← hδd] at hδ
  rw [← hδd, hμ] at c1
  rw [← hδd, hμ, ← eS'] at c2
  have hU2 : U * (r + s) = 2 * r * un := by
    rw [hUb]
    linear_combination (-1) * hb + hm * (-1)
  have yz : y 0 = 0 := by
    rw [← hUd, ← hun, m0, ← hr, ← hs] at y0
    linear_combination (-1) * y0 - hU2 / 2
  have hσ0 : Riemann.roe.sigma S.c S.u d 0 = |U - S.c| := by rw [hUd]; rfl
  have hσ1 : Riemann.roe.sigma S.c S.u d 1 = |U| := by rw [hUd]; rfl
  have hσ3 : Riemann.roe.sigma S.c S.u d 3 = |U + S.c| := by rw [hUd]; rfl
  rw [hσ0, hσ1, hσ3] at c1 c2
  have U0 : 0 < U := by
    have : 0 < U * (r + s) := by
      rw [hU2, hr, hun]
      positivity
    exact pos_of_mul_pos_left this (by rw [hr, hs]; positivity)
  refine roe_contradiction (γ := γ) (r := r) (s := s) (un := un) (a := a) (U := U) (c := S.c)
    (δ := δ) (w0 := w 0) hS.gamma g3 (hr ▸ rA) (by rw [hr, hs]; exact hlt) (hun ▸ hu)
    hm hU2 c0 w0 hδ ?_ ?_ ?_
  · intro hlt
    rw [abs_of_neg (by linarith), abs_of_pos U0, abs_of_pos (by linarith), yz] at c1
    have : 2 * (S.c - U) * (δ + S.c * U * w 0) = 0 := by linear_combination (-1) * c1
    exact (mul_eq_zero.1 this).resolve_left (by
      have : 0 < S.c - U := by linarith
      positivity)
  · intro hlt
    rw [abs_of_pos (by linarith), abs_of_pos U0, abs_of_pos (by linarith)] at c2
    have hyn : y 1 * d 0 + y 2 * d 1 = δ - U ^ 2 * w 0 := by
      refine mul_left_cancel₀ (a := 2 * S.c ^ 2) (by positivity) ?_
      rw [c2]
      ring
    rw [← hUd, ← hun, ← hr, m0, ← hr, ← hs] at y1 y2
    have hps : S.p = A.p + r * un * a / 2
        + (γ - 1) / 4 * (s * (a ^ 2 - 2 * a * un) + (r + s) * (un ^ 2 - U ^ 2)) := by
      field_simp at ES ⊢
      linear_combination (-2) * ES
    have hyn' : r * un ^ 2 + A.p = (r + s) / 2 * U ^ 2 + S.p + (δ - U ^ 2 * w 0) := by
      rw [← hyn]
      have k1 : r * un ^ 2 + A.p = (r * A.u 0 * un + A.p * d 0) * d 0
          + (r * A.u 1 * un + A.p * d 1) * d 1 := by
        linear_combination (r * un) * eA' - A.p * hd
      rw [k1, y1, y2]
      linear_combination (-(r + s) / 2 * U) * eS' + S.p * hd
    rw [hps] at hyn'
    linear_combination (-1) * hyn'
  · intro heq
    refine hl 0 ?_
    show S.u ⬝ᵥ d - S.c = 0
    rw [← hUd, heq, sub_self]

/-! ## A concrete case -/

/-- The state of a flow with shocks, with farfield conditions on all boundaries. -/
theorem shock_state {E : Type} {K : Triangulation E} (hK : K.Conforming) {G : E → GasState 2}
    {hat : E × Fin 3 → GasState 2} (hG : ShockFlow γ K G hat) (rs : Riemann) (R : VolumeRule)
    (Q : SideRule) : ∃ x : HdgState 2 4 (E × Fin R.n) ((E × Fin 3) × Fin Q.n),
      (∀ v, x.U v = gasVec (G v.1)) ∧
      x.IsEuler γ rs (K.mesh R Q) (fun b => gasVec (G b.1.1)) (fun b => gasVec (hat b.1)) ∧
      (∀ b, K.across b.1 ≠ none → x.R b = 0) ∧
      (∀ b, K.across b.1 = none → farfieldResidual γ false (conservativeDict (G b.1.1))
        (K.normal b.1) (gasVec (G b.1.1)) (gasVec (G b.1.1)) (conservativeDict (G b.1.1))
        = .ok (x.R b)) ∧ x.source = 0 := by
  have hhat : ∀ x, IdealGas γ (hat x) := by
    intro x
    cases h : K.across x with
    | none => rw [hG.boundary x h]; exact hG.gas _
    | some y =>
      rcases hG.interior _ _ h with ⟨-, h2⟩ | ⟨-, h2⟩ | ⟨-, h2⟩ <;> rw [h2] <;> exact hG.gas _
  choose F hF _ using fun e => C26_flux_conservative (hG.gas e) 0
  have hN : ∀ b : (E × Fin 3) × Fin Q.n, ∃ f, convectiveNumericalFlux γ rs (gasVec (G b.1.1))
      (gasVec (hat b.1)) (conservativeDict (hat b.1)) (K.normal b.1) = .ok f := fun b => by
    obtain ⟨τ, -, h2⟩ := C28_flux rs (hhat b.1) (normal_unit K hK b.1) (gasVec (G b.1.1))
      (gasVec (hat b.1))
    exact ⟨_, h2⟩
  choose N hN using hN
  refine ⟨⟨fun v => gasVec (G v.1), fun v => F v.1, 0, N, 0, 0, 0⟩, fun _ => rfl,
    ⟨fun v => ⟨_, fields_vec (hG.gas v.1), hF v.1⟩, fun b => ⟨_, fields_vec (hhat b.1), hN b⟩,
      rfl, rfl⟩, fun _ _ => rfl, fun b _ => ?_, rfl⟩
  have hb := hG.gas b.1.1
  obtain ⟨R', -, -, h1, -, -, -, h2⟩ := C33_farfield_jacobian (U := conservativeDict (G b.1.1))
    hb.gamma rfl rfl rfl hb.rho_pos hb.sound_pos (normal_unit K hK b.1)
    (stateVec_dict γ (G b.1.1)) (gasVec (G b.1.1)) (gasVec (G b.1.1))
  rw [h1, h2 rfl rfl]
  rfl

/-- Farfield conditions on all sides of the square. -/
def farfieldConditions : Conditions where
  data := [("w".toList, [⟨0, .farfield⟩]), ("r".toList, [⟨1, .farfield⟩]),
    ("l".toList, [⟨2, .farfield⟩])]
  options := []
  next := 3

theorem farfield_covered : (squareMesh false).Covered farfieldConditions := by
  constructor
  · decide
  · rintro ⟨_ | _, i⟩ h <;> fin_cases i <;> simp [squareMesh] at h
    all_goals first
      | exact ⟨"w".toList, _, _, rfl, rfl, List.mem_singleton_self _, by decide⟩
      | exact ⟨"r".toList, _, _, rfl, rfl, List.mem_singleton_self _, by decide⟩
      | exact ⟨"l".toList, _, _, rfl, rfl, List.mem_singleton_self _, by decide⟩
  · rintro ⟨_ | _, i⟩ h <;> fin_cases i <;> simp [squareMesh] at h
    all_goals exact .inl rfl

/-- Air with Mach number 2, flowing at a right angle to the diagonal of the square. -/
def machTwo : GasState 2 := GasState.of (7 / 5) 1 ![√2, -√2] (25 / 14)

theorem machTwo_ideal : IdealGas (7 / 5) machTwo :=
  IdealGas.of (by norm_num) one_pos (by norm_num)

theorem diagonal_normal : (squareMesh false).normal (true, 0) = ![1 / √2, -1 / √2] := by
  have h2 : (1 : ℝ) + 1 = 2 := by norm_num
  simp [squareMesh, Triangulation.normal, Triangulation.length, Triangulation.start,
    Triangulation.stop, h2, neg_div]

theorem machTwo_supersonic : machTwo.c < machTwo.u ⬝ᵥ (squareMesh false).normal (true, 0) := by
  have h2 : (√2 : ℝ) ≠ 0 := by positivity
  have e : machTwo.u ⬝ᵥ (squareMesh false).normal (true, 0) = 2 := by
    rw [diagonal_normal]
    simp [machTwo, GasState.of, dotProduct, Fin.sum_univ_two]
    field_simp
    norm_num
  rw [e]
  show √(7 / 5 * (7 / 5 - 1) * (25 / 14)) < 2
  rw [show (7 / 5 * (7 / 5 - 1) * (25 / 14) : ℝ) = 1 by norm_num, Real.sqrt_one]
  norm_num

/-- C105, concrete instance: a shock along the diagonal of the square, quadratic elements. The two
gases are different, and the run satisfies the equations at every step. -/
example (rs : Riemann) (hrs : rs.Sided) (s : Scheme) (dt : ℝ) (ts : List ℚ) :
    ∃ (G : Bool → GasState 2) (hat : Bool × Fin 3 → GasState 2) (R : VolumeRule) (Q : SideRule)
      (x : HdgState 2 4 (Bool × Fin R.n) ((Bool × Fin 3) × Fin Q.n)),
    ShockFlow (7 / 5) (squareMesh false) G hat ∧ G true = machTwo ∧ (G true).rho < (G false).rho ∧
    (∀ v, x.U v = gasVec (G v.1)) ∧
    x.IsEuler (7 / 5) rs ((squareMesh false).mesh R Q) (fun b => gasVec (G b.1.1))
      (fun b => gasVec (hat b.1)) ∧
    Satisfies (hdgStep ((squareMesh false).mesh R Q)
      (((squareMesh false).mesh R Q).mask farfieldConditions)
      ((squareMesh false).space 4 (fun _ => 2) (fun _ => 2) R Q) (s.quotient dt)) x x ts
      (List.replicate ts.length x) := by
  have hK := squareMesh_conforming false
  obtain ⟨P, hne, hP⟩ := C105_exists machTwo_ideal (normal_unit _ hK (true, 0)) machTwo_supersonic
  obtain ⟨R, hR⟩ := C84_volume_rules 1
  obtain ⟨Q, hQ⟩ := C84_side_rules 2
  have hG : ShockFlow (7 / 5) (squareMesh false) (fun e => if e then machTwo else P)
      (fun x => if x.1 || x.2 = 2 then machTwo else P) := by
    constructor
    · rintro (_ | _)
      · exact hP.behind
      · exact machTwo_ideal
    · rintro ⟨_ | _, i⟩ h <;> fin_cases i <;> simp [squareMesh] at h ⊢
    · rintro ⟨_ | _, i⟩ y h <;> fin_cases i <;> simp [squareMesh] at h <;> subst h
      · exact .inr (.inr ⟨by simpa using hP, by simp⟩)
      · exact .inr (.inl ⟨by simpa using hP, by simp⟩)
  obtain ⟨x, h1, h2, h3, h4, h5⟩ := shock_state hK hG rs R Q
  refine ⟨_, _, R, Q, x, hG, rfl, ?_, h1, h2, C105_run hK farfield_covered hR hQ (fun _ => le_rfl)
    (fun _ => le_rfl) hG hrs s dt ts x h1 h2 (fun b => ?_) 1 fun v => ?_⟩
  · exact (C105_compressive hP (normal_unit _ hK (true, 0)) hne).1
  · by_cases hb : (squareMesh false).across b.1 = none
    · exact .inr ⟨hb, .farfield (h4 b hb)⟩
    · exact .inl (h3 b hb)
  · rw [h5, h1, spongeResidual, stateVec_dict]
    simp [bind, Except.bind]

/-- The hypotheses of the other theorems of C105 hold for this shock, with the gas ahead as facet
value. -/
example : ∃ P, machTwo ≠ P ∧
    StandingShock (7 / 5) ((squareMesh false).normal (true, 0)) machTwo P ∧
    ∀ i, lams machTwo.c machTwo.u ((squareMesh false).normal (true, 0)) i ≠ 0 := by
  obtain ⟨P, hne, hP⟩ := C105_exists machTwo_ideal
    (normal_unit _ (squareMesh_conforming false) (true, 0)) machTwo_supersonic
  have h1 := machTwo_supersonic
  have h2 := machTwo_ideal.sound_pos
  refine ⟨P, hne, hP, fun i => ?_⟩
  obtain ⟨z, hz⟩ : ∃ z, z = machTwo.u ⬝ᵥ (squareMesh false).normal (true, 0) := ⟨_, rfl⟩
  rw [← hz] at h1
  fin_cases i
  · show machTwo.u ⬝ᵥ (squareMesh false).normal (true, 0) - machTwo.c ≠ 0
    rw [← hz]; linarith
  · show machTwo.u ⬝ᵥ (squareMesh false).normal (true, 0) ≠ 0
    rw [← hz]; linarith
  · show machTwo.u ⬝ᵥ (squareMesh false).normal (true, 0) ≠ 0
    rw [← hz]; linarith
  · show machTwo.u ⬝ᵥ (squareMesh false).normal (true, 0) + machTwo.c ≠ 0
    rw [← hz]; linarith

end Dream
