import Verif.Props.Riemann
import Verif.Props.Boundary

/-!
# C67: impermeable walls
-/

namespace Dream
open Matrix Spec

variable {γ rho c : ℝ} {u d : Fin 2 → ℝ}

/-- A jump of the normal momentum only, seen from a state without normal velocity, consists of
acoustic waves only. -/
theorem wall_jump_acoustic (hd : d 0 ^ 2 + d 1 ^ 2 = 1) (hud : u 0 * d 0 + u 1 * d 1 = 0)
    (δ : ℝ) :
    matPinv γ rho c u d *ᵥ ![0, δ * d 0, δ * d 1, 0] = ![-(c * δ), 0, 0, c * δ] := by
  funext i
  fin_cases i <;> simp [matPinv, mulVec, dotProduct, Fin.sum_univ_succ]
  · linear_combination (-c * δ) * hd + δ * (1 - γ) * hud
  · linear_combination -(1 - γ) * δ * hud
  · ring
  · linear_combination (c * δ) * hd + δ * (1 - γ) * hud

theorem conj_wall_jump (hc : c ≠ 0) (hd : d 0 ^ 2 + d 1 ^ 2 = 1)
    (hud : u 0 * d 0 + u 1 * d 1 = 0) (σ : Fin 4 → ℝ) (δ : ℝ) :
    (matP γ rho c u d * diagonal σ * matPinv γ rho c u d) *ᵥ ![0, δ * d 0, δ * d 1, 0]
      = ![(σ 3 - σ 0) * δ / (2 * c), (σ 3 + σ 0) / 2 * δ * d 0 + (σ 3 - σ 0) * δ / (2 * c) * u 0,
          (σ 3 + σ 0) / 2 * δ * d 1 + (σ 3 - σ 0) * δ / (2 * c) * u 1,
          (σ 3 - σ 0) * δ / (2 * c) * (c ^ 2 / (γ - 1) + (u 0 * u 0 + u 1 * u 1) / 2)] := by
  rw [← mulVec_mulVec, wall_jump_acoustic hd hud, ← mulVec_mulVec]
  have hw : d 0 * u 0 / (2 * c) = - (d 1 * u 1 / (2 * c)) := by
    field_simp; linarith
  funext i
  fin_cases i <;> simp [matP, mulVec, dotProduct, Fin.sum_univ_succ, diagonal, -mul_eq_mul_left_iff]
  · field_simp; ring
  · field_simp; ring
  · field_simp; ring
  · rw [hw]
    field_simp
    ring

/-- The state of the trace at an inviscid wall for the interior state `S`. -/
noncomputable def wallState (γ : ℝ) (S : GasState 2) (d : Fin 2 → ℝ) : GasState 2 :=
  GasState.of γ S.rho (S.u - (S.u ⬝ᵥ d) • d) (S.Ei + (S.u ⬝ᵥ d) ^ 2 / 2)

theorem wallState_ideal {S : GasState 2} (hS : IdealGas γ S) (d : Fin 2 → ℝ) :
    IdealGas γ (wallState γ S d) := by
  have hE : 0 < S.Ei := by
    have h1 := hS.T_pos
    rw [hS.caloric] at h1
    have h2 := hS.gamma
    by_contra hn
    nlinarith
  exact IdealGas.of hS.gamma hS.rho_pos (by positivity)

theorem wallState_tangential {S : GasState 2} (hd : d 0 ^ 2 + d 1 ^ 2 = 1) :
    (wallState γ S d).u 0 * d 0 + (wallState γ S d).u 1 * d 1 = 0 := by
  simp only [wallState, GasState.of, Pi.sub_apply, Pi.smul_apply, smul_eq_mul, dotProduct,
    Fin.sum_univ_two]
  linear_combination (-(S.u 0 * d 0 + S.u 1 * d 1)) * hd

/-- The wall condition is met exactly by the conservative variables of the wall state. -/
theorem wall_trace {S : GasState 2} (hS : IdealGas γ S) (hd : d 0 ^ 2 + d 1 ^ 2 = 1)
    {wHat : Fin 4 → ℝ} (hw : inviscidWallResidual γ d (conservativeDict S) wHat = .ok 0) :
    wHat = ![(wallState γ S d).rho, (wallState γ S d).rho_u 0, (wallState γ S d).rho_u 1,
      (wallState γ S d).rho_E] := by
  obtain ⟨h1, h2, h3⟩ := dictState γ S
  simp only [inviscidWallResidual, h1, h2, h3, bind, Except.bind, Except.ok.injEq] at hw
  rw [sub_eq_zero.1 hw]
  funext i
  fin_cases i
  · rfl
  · show (S.rho_u - (S.rho_u ⬝ᵥ d) • d) 0 = _
    rw [hS.momentum]
    simp only [wallState, GasState.of, Pi.sub_apply, Pi.smul_apply, smul_eq_mul, dotProduct,
      Fin.sum_univ_two]
    simp [wallState, GasState.of, dotProduct, Fin.sum_univ_two]
    ring
  · show (S.rho_u - (S.rho_u ⬝ᵥ d) • d) 1 = _
    rw [hS.momentum]
    simp [wallState, GasState.of, dotProduct, Fin.sum_univ_two]
    ring
  · show S.rho_E = _
    rw [hS.rho_E, hS.total, hS.kinetic]
    simp [wallState, GasState.of, dotProduct, Fin.sum_univ_two]
    left
    linear_combination (-(S.u 0 * d 0 + S.u 1 * d 1) ^ 2 / 2) * hd

/-- Numerical flux at an inviscid wall, in terms of the first and last eigenvalue of the
stabilisation matrix. -/
theorem wall_flux (rs : Riemann) {S : GasState 2} (hS : IdealGas γ S)
    (hd : d 0 ^ 2 + d 1 ^ 2 = 1) {wHat : Fin 4 → ℝ}
    (hw : inviscidWallResidual γ d (conservativeDict S) wHat = .ok 0) :
    let W := wallState γ S d
    let δ := S.rho_u ⬝ᵥ d
    let σ := rs.sigma W.c W.u d
    getConservativeFields γ (wHat 0) ![wHat 1, wHat 2] (wHat 3) = .ok (conservativeDict W) ∧
    convectiveNumericalFlux γ rs (consVec S.rho S.rho_u S.rho_E) wHat (conservativeDict W) d = .ok
      (![0, W.p * d 0, W.p * d 1, 0] +
        ![(σ 3 - σ 0) * δ / (2 * W.c),
          (σ 3 + σ 0) / 2 * δ * d 0 + (σ 3 - σ 0) * δ / (2 * W.c) * W.u 0,
          (σ 3 + σ 0) / 2 * δ * d 1 + (σ 3 - σ 0) * δ / (2 * W.c) * W.u 1,
          (σ 3 - σ 0) * δ / (2 * W.c) * (W.c ^ 2 / (γ - 1) + (W.u 0 * W.u 0 + W.u 1 * W.u 1) / 2)])
        := by
  intro W δ σ
  have hW : IdealGas γ W := wallState_ideal hS d
  have ht : W.u 0 * d 0 + W.u 1 * d 1 = 0 := wallState_tangential hd
  have hm : W.rho_u 0 * d 0 + W.rho_u 1 * d 1 = 0 := by
    rw [hW.momentum]
    simp only [Pi.smul_apply, smul_eq_mul]
    linear_combination W.rho * ht
  have e := wall_trace hS hd hw
  have hvec : ![wHat 1, wHat 2] = W.rho_u := by
    rw [e]; funext i; fin_cases i <;> rfl
  constructor
  · rw [hvec, e]
    exact C24_fields hW
  · obtain ⟨F, hF, hFd⟩ := C26_flux_conservative hW d
    have hτ := rs.tau_eq (U := conservativeDict W) (d := d) hW.gamma rfl rfl rfl hW.rho_pos
      hW.sound_pos hd
    have hj : consVec S.rho S.rho_u S.rho_E - wHat = ![0, δ * d 0, δ * d 1, 0] := by
      obtain ⟨h1, h2, h3⟩ := dictState γ S
      simp only [inviscidWallResidual, h1, h2, h3, bind, Except.bind, Except.ok.injEq] at hw
      rw [sub_eq_zero.1 hw]
      funext i
      fin_cases i
      · show S.rho - S.rho = 0
        simp
      · show S.rho_u 0 - (S.rho_u - (S.rho_u ⬝ᵥ d) • d) 0 = δ * d 0
        simp [δ]
      · show S.rho_u 1 - (S.rho_u - (S.rho_u ⬝ᵥ d) • d) 1 = δ * d 1
        simp [δ]
      · show S.rho_E - S.rho_E = 0
        simp
    have hp : (γ - 1) * (W.rho_E - (W.rho_u ⬝ᵥ W.rho_u) / (2 * W.rho)) = W.p := by
      rw [hW.gas_law, hW.caloric, hW.rho_E, hW.total, hW.kinetic, hW.momentum]
      have := hW.rho_pos
      have hg := hW.gamma
      simp only [smul_dotProduct, dotProduct_smul, smul_eq_mul]
      field_simp
      ring
    have hE : eulerFlux γ d W.rho W.rho_u W.rho_E = ![0, W.p * d 0, W.p * d 1, 0] := by
      have hmd : W.rho_u ⬝ᵥ d = 0 := by simpa [dotProduct, Fin.sum_univ_two] using hm
      unfold eulerFlux
      simp only [hp, hmd]
      funext i
      fin_cases i
      · rfl
      · show W.rho_u 0 * 0 / W.rho + W.p * d 0 = _
        simp
      · show W.rho_u 1 * 0 / W.rho + W.p * d 1 = _
        simp
      · show (W.rho_E + W.p) * 0 / W.rho = _
        simp
    unfold convectiveNumericalFlux
    rw [hτ, hF]
    simp only [bind, Except.bind, hFd, hj, hE]
    rw [conj_wall_jump hW.sound_pos.ne' hd ht]

/-- **C67** Inviscid walls (and symmetry planes) let neither mass nor energy through: for every
interior state, every unit normal and every Riemann solver except Upwind, if the trace satisfies
the wall condition then the numerical flux consists of a pressure in normal direction only, the
pressure at the wall plus `ρ c uₙ`; it is the same for the four solvers. -/
theorem C67_wall_partial (rs : Riemann) (hrs : rs ≠ .upwind) {S : GasState 2} (hS : IdealGas γ S)
    (hd : d 0 ^ 2 + d 1 ^ 2 = 1) {wHat : Fin 4 → ℝ}
    (hw : inviscidWallResidual γ d (conservativeDict S) wHat = .ok 0) :
    ∃ UHat f, getConservativeFields γ (wHat 0) ![wHat 1, wHat 2] (wHat 3) = .ok UHat ∧
      convectiveNumericalFlux γ rs (consVec S.rho S.rho_u S.rho_E) wHat UHat d = .ok f ∧
      ∃ W : GasState 2, IdealGas γ W ∧ W.rho = wHat 0 ∧ W.rho_E = wHat 3 ∧
        W.rho_u = ![wHat 1, wHat 2] ∧
        f = ![0, (W.p + W.c * (S.rho_u ⬝ᵥ d)) * d 0, (W.p + W.c * (S.rho_u ⬝ᵥ d)) * d 1, 0] := by
  obtain ⟨h1, h2⟩ := wall_flux rs hS hd hw
  have e := wall_trace hS hd hw
  have hW := wallState_ideal hS d
  refine ⟨_, _, h1, h2, wallState γ S d, hW, by rw [e]; rfl, by rw [e]; rfl, ?_, ?_⟩
  · rw [e]; funext i; fin_cases i <;> rfl
  · have ht : (wallState γ S d).u ⬝ᵥ d = 0 := by
      have := wallState_tangential (γ := γ) (S := S) hd
      simpa [dotProduct, Fin.sum_univ_two] using this
    have c0 := hW.sound_pos
    have hσ : rs.sigma (wallState γ S d).c (wallState γ S d).u d 0 = (wallState γ S d).c ∧
        rs.sigma (wallState γ S d).c (wallState γ S d).u d 3 = (wallState γ S d).c := by
      cases rs with
      | upwind => exact absurd rfl hrs
      | laxFriedrich => simp [Riemann.sigma, ht]
      | roe => simp [Riemann.sigma, lams, ht, abs_of_pos c0]
      | hll => simp [Riemann.sigma, ht, c0.le]
      | hllem θ => simp [Riemann.sigma, ht, c0.le]
    simp only [hσ.1, hσ.2, sub_self, zero_mul, zero_div, add_zero]
    funext i
    fin_cases i <;> simp <;> ring

/-- **C67 fails for the Upwind solver**: whenever the interior state has a momentum normal to the
wall, half of it passes the wall as mass flux. -/
theorem C67_fails_upwind {S : GasState 2} (hS : IdealGas γ S) (hd : d 0 ^ 2 + d 1 ^ 2 = 1)
    {wHat : Fin 4 → ℝ} (hw : inviscidWallResidual γ d (conservativeDict S) wHat = .ok 0) :
    ∃ UHat f, getConservativeFields γ (wHat 0) ![wHat 1, wHat 2] (wHat 3) = .ok UHat ∧
      convectiveNumericalFlux γ .upwind (consVec S.rho S.rho_u S.rho_E) wHat UHat d = .ok f ∧
      f 0 = (S.rho_u ⬝ᵥ d) / 2 := by
  obtain ⟨h1, h2⟩ := wall_flux .upwind hS hd hw
  refine ⟨_, _, h1, h2, ?_⟩
  have hW := wallState_ideal hS d
  have c0 := hW.sound_pos
  have ht : (wallState γ S d).u ⬝ᵥ d = 0 := by
    have := wallState_tangential (γ := γ) (S := S) hd
    simpa [dotProduct, Fin.sum_univ_two] using this
  have h0 : Riemann.upwind.sigma (wallState γ S d).c (wallState γ S d).u d 0 = 0 := by
    simp [Riemann.sigma, lams, ht, c0.le]
  have h3 : Riemann.upwind.sigma (wallState γ S d).c (wallState γ S d).u d 3
      = (wallState γ S d).c := by
    simp [Riemann.sigma, lams, ht, c0.le]
  simp only [h0, h3, Pi.add_apply, cons_val_zero]
  field_simp
  ring

/-- C67, concrete instance: there is a trace meeting the wall condition for a gas that moves
obliquely towards the wall. -/
example : ∃ wHat : Fin 4 → ℝ,
    inviscidWallResidual (7 / 5) ![1, 0] (conservativeDict (GasState.of (7 / 5) 1 ![1, 2] 1)) wHat
      = .ok 0 ∧ (GasState.of (7 / 5) 1 ![1, 2] 1 : GasState 2).rho_u ⬝ᵥ ![1, 0] = 1 := by
  refine ⟨![1, 0, 2, 7 / 2], ?_, by simp [GasState.of]⟩
  obtain ⟨h1, h2, h3⟩ := dictState (7 / 5) (GasState.of (7 / 5) 1 ![1, 2] 1 : GasState 2)
  simp only [inviscidWallResidual, h1, h2, h3, bind, Except.bind, Except.ok.injEq]
  funext i
  fin_cases i <;>
    simp [consVec, GasState.of, Fin.snoc, Fin.cons, dotProduct, Fin.sum_univ_two] <;> norm_num

end Dream
