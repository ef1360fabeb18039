import Verif.Lemmas.EnergyAnyDim
import Verif.Props.Stabilised

/-!
# No Riemann solver increases the energy in two dimensions
-/

noncomputable section
namespace Dream
open Matrix _root_.Spec
variable {γ : ℝ}
/-- The stabilisation acts on each wave by a factor of its own. -/
theorem tau_wave {rho c : ℝ} {u d : Fin 2 → ℝ} (hγ : 1 < γ) (hr : 0 < rho) (hc : 0 < c) (hd : d ⬝ᵥ d = 1) (s : Fin 4 → ℝ)
    (a : ℝ) (β : Fin 2 → ℝ) (π : ℝ) :
    (matP γ rho c u d * diagonal s * matPinv γ rho c u d) *ᵥ (wave (n := 2) γ u a β π)
      = wave (n := 2) γ u ((s 3 * (π + c * (β ⬝ᵥ d)) + s 0 * (π - c * (β ⬝ᵥ d))) / 2 / c ^ 2
            + s 1 * (a - π / c ^ 2))
          (((s 3 * (π + c * (β ⬝ᵥ d)) - s 0 * (π - c * (β ⬝ᵥ d))) / 2 / c) • d
            + s 2 • (β - (β ⬝ᵥ d) • d))
          ((s 3 * (π + c * (β ⬝ᵥ d)) + s 0 * (π - c * (β ⬝ᵥ d))) / 2) := by
  have h1 : matPinv γ rho c u d *ᵥ (wave (n := 2) γ u a β π)
     = ![π - c * (β ⬝ᵥ d), a * c ^ 2 - π, (β 0 * d 1 - β 1 * d 0) / rho, π + c * (β ⬝ᵥ d)] := by
    have g : γ - 1 ≠ 0 := by linarith
    have hr' := hr.ne'
    have w1 : wave (n := 2) γ u a β π 0 = a := rfl
    have w2 : wave (n := 2) γ u a β π 1 = a * u 0 + β 0 := rfl
    have w3 : wave (n := 2) γ u a β π 2 = a * u 1 + β 1 := rfl
    have w4 : wave (n := 2) γ u a β π 3 = π / (γ - 1) + (u ⬝ᵥ u) * a / 2 + u ⬝ᵥ β := rfl
    funext i
    fin_cases i <;> simp [matPinv, mulVec, w1, w2, w3, w4, dotProduct, Fin.sum_univ_four, Fin.sum_univ_two] <;> field_simp <;> ring
  have h2 : ∀ z : Fin 4 → ℝ, matP γ rho c u d *ᵥ z
      = wave (n := 2) γ u ((z 0 + z 3) / 2 / c ^ 2 + z 1 / c ^ 2)
        (((z 3 - z 0) / 2 / c) • d + (rho * z 2) • ![d 1, -d 0]) ((z 0 + z 3) / 2) := by
    intro z
    have g : γ - 1 ≠ 0 := by linarith
    have hc' := hc.ne'
    have w1 : ∀ a β π, wave (n := 2) γ u a β π 0 = a := fun _ _ _ => rfl
    have w2 : ∀ a β π, wave (n := 2) γ u a β π 1 = a * u 0 + β 0 := fun _ _ _ => rfl
    have w3 : ∀ a β π, wave (n := 2) γ u a β π 2 = a * u 1 + β 1 := fun _ _ _ => rfl
    have w4 : ∀ a β π, wave (n := 2) γ u a β π 3 = π / (γ - 1) + (u ⬝ᵥ u) * a / 2 + u ⬝ᵥ β :=
      fun _ _ _ => rfl
    funext i
    fin_cases i
    · show _ = wave (n := 2) γ u _ _ _ 0
      rw [w1]
      simp [matP, mulVec, dotProduct, Fin.sum_univ_four]
      field_simp
      ring
    · show _ = wave (n := 2) γ u _ _ _ 1
      rw [w2]
      simp [matP, mulVec, dotProduct, Fin.sum_univ_four]
      field_simp
      ring
    · show _ = wave (n := 2) γ u _ _ _ 2
      rw [w3]
      simp [matP, mulVec, dotProduct, Fin.sum_univ_four]
      field_simp
      ring
    · show _ = wave (n := 2) γ u _ _ _ 3
      rw [w4]
      simp [matP, mulVec, dotProduct, Fin.sum_univ_four, Fin.sum_univ_two]
      field_simp
      ring
  have hd' : d 0 * d 0 + d 1 * d 1 = 1 := by
    simpa [dotProduct, Fin.sum_univ_two] using hd
  rw [← mulVec_mulVec, ← mulVec_mulVec, h1, h2]
  simp only [mulVec_diagonal]
  have hc' := hc.ne'
  have hr' := hr.ne'
  congr 1
  · simp
    field_simp
    ring
  · funext i
    fin_cases i
    · simp [dotProduct, Fin.sum_univ_two]
      field_simp
      linear_combination s 2 * β 0 * hd'
    · simp [dotProduct, Fin.sum_univ_two]
      field_simp
      linear_combination s 2 * β 1 * hd'
  · simp
    ring

/-- The energy that the stabilisation takes from each wave. -/
theorem tau_energy {rho c κ : ℝ} {u d : Fin 2 → ℝ} (hγ : 1 < γ) (hr : 0 < rho) (hc : 0 < c)
    (hd : d ⬝ᵥ d = 1) (s : Fin 4 → ℝ) (a : ℝ) (β : Fin 2 → ℝ) (π a' : ℝ) (β' : Fin 2 → ℝ) (π' : ℝ) :
    waveEnergy (n := 2) γ u c κ ((matP γ rho c u d * diagonal s * matPinv γ rho c u d) *ᵥ
        (wave (n := 2) γ u a β π)) (wave (n := 2) γ u a' β' π')
      = s 3 * ((π + c * (β ⬝ᵥ d)) * (π' + c * (β' ⬝ᵥ d))) / 2
        + s 0 * ((π - c * (β ⬝ᵥ d)) * (π' - c * (β' ⬝ᵥ d))) / 2
        + c ^ 2 * (s 2 * (β ⬝ᵥ β' - (β ⬝ᵥ d) * (β' ⬝ᵥ d)))
        + κ * (s 1 * ((π - c ^ 2 * a) * (π' - c ^ 2 * a'))) := by
  rw [tau_wave hγ hr hc hd, waveEnergy_wave hγ]
  simp only [add_dotProduct, sub_dotProduct, smul_dotProduct, smul_eq_mul, dotProduct_comm d β']
  have hc' := hc.ne'
  field_simp
  ring

/-- The stabilisation is at least half as strong as each wave is fast. -/
theorem sigma_half (rs : Riemann) {c : ℝ} (hc : 0 < c) (u d : Fin 2 → ℝ) (i : Fin 4) :
    lams c u d i ≤ 2 * rs.sigma c u d i := by
  have h1 := le_abs_self (u ⬝ᵥ d)
  have h2 := abs_nonneg (u ⬝ᵥ d)
  have h3 := neg_abs_le (u ⬝ᵥ d)
  have m1 := le_max_left (u ⬝ᵥ d + c) 0
  have m2 := le_max_right (u ⬝ᵥ d + c) 0
  have hl : lams c u d i ≤ u ⬝ᵥ d + c := by
    fin_cases i <;> simp [lams] <;> linarith
  cases rs with
  | upwind =>
    have a1 := le_max_left (lams c u d i) 0
    have a2 := le_max_right (lams c u d i) 0
    show _ ≤ 2 * Max.max (lams c u d i) 0
    linarith
  | laxFriedrich =>
    show _ ≤ 2 * (|u ⬝ᵥ d| + c)
    linarith
  | roe =>
    show _ ≤ 2 * |lams c u d i|
    linarith [le_abs_self (lams c u d i), abs_nonneg (lams c u d i)]
  | hll =>
    show _ ≤ 2 * Max.max (u ⬝ᵥ d + c) 0
    linarith
  | hllem θ₀ =>
    obtain ⟨θ, hθ⟩ : ∃ θ, θ = Max.max (|u ⬝ᵥ d| / (|u ⬝ᵥ d| + c)) θ₀ := ⟨_, rfl⟩
    have t1 : |u ⬝ᵥ d| / (|u ⬝ᵥ d| + c) ≤ θ := hθ ▸ le_max_left _ _
    have t0 : 0 ≤ θ := le_trans (by positivity) t1
    have mid : u ⬝ᵥ d ≤ 2 * (Max.max (u ⬝ᵥ d + c) 0 * θ) := by
      have q0 : 0 ≤ Max.max (u ⬝ᵥ d + c) 0 * θ := mul_nonneg m2 t0
      rcases le_or_gt (u ⬝ᵥ d) 0 with h | h
      · linarith
      · rw [abs_of_pos h] at t1
        rw [div_le_iff₀ (by linarith)] at t1
        have := mul_le_mul_of_nonneg_right m1 t0
        nlinarith
    fin_cases i
    · show u ⬝ᵥ d - c ≤ 2 * (Max.max (u ⬝ᵥ d + c) 0 * 1)
      linarith
    · rw [hθ] at mid; exact mid
    · rw [hθ] at mid; exact mid
    · show u ⬝ᵥ d + c ≤ 2 * (Max.max (u ⬝ᵥ d + c) 0 * 1)
      linarith

variable {V B : Type} [Fintype V] [Fintype B]

/-- The weight of entropy in the energy. -/
def entropyWeight (γ : ℝ) : Riemann → ℝ
  | .hllem θ₀ => if 0 < θ₀ then 1 / (θ₀ * (γ - 1)) else 1 / (γ - 1)
  | _ => 1 / (γ - 1)

theorem entropyWeight_pos (hγ : 1 < γ) (rs : Riemann) : 0 < entropyWeight γ rs := by
  have : 0 < γ - 1 := by linarith
  cases rs <;> simp only [entropyWeight]
  case hllem θ₀ =>
    split_ifs with h <;> positivity
  all_goals positivity

/-- In two dimensions no Riemann solver increases the energy. -/
theorem energyFits_planar {rs : Riemann} {S : GasState 2} (hS : IdealGas γ S)
    {P : HdgSpaces 2 4 V B} {M : HdgMesh 2 V B} {mask : B → ℝ} (hP : P.Fits M mask)
    {cond : B → FacetCond 2}
    (hc : ∀ b, mask b = 0 → (cond b).Dissipates rs ∧ (cond b).Admits S (M.normal b)) :
    EnergyFits (n := 2) γ M mask cond (consVec S.rho S.rho_u S.rho_E)
      (fun b => tauL (tauOf γ rs (M.normal b) (consVec S.rho S.rho_u S.rho_E)))
      (waveEnergy (n := 2) γ S.u S.c (entropyWeight γ rs)) := by
  have hγ := hS.gamma
  have hc0 := hS.sound_pos
  have hr := hS.rho_pos
  have hg := entropyWeight_pos hγ rs
  have hvel : velOf (consVec S.rho S.rho_u S.rho_E) = S.u := by
    have hm : mom (n := 2) (consVec S.rho S.rho_u S.rho_E) = S.rho_u := by funext i; simp
    rw [velOf, hm, hS.momentum]
    show S.rho⁻¹ • (S.rho • S.u) = S.u
    rw [smul_smul, inv_mul_cancel₀ hr.ne', one_smul]
  have htau : ∀ b v, tauL (tauOf γ rs (M.normal b) (consVec S.rho S.rho_u S.rho_E)) v
      = (matP γ S.rho S.c S.u (M.normal b) * diagonal (rs.sigma S.c S.u (M.normal b))
        * matPinv γ S.rho S.c S.u (M.normal b)) *ᵥ v := by
    intro b v
    rw [tauL_apply, tauOf, hvel, soundOf_state hS]
    rfl
  refine ⟨waveEnergy_comm (n := 2) γ S.u S.c _,
    fun v hv => waveEnergy_pos (n := 2) hγ S.u hc0 hg hv, waveEnergy_flux hS _,
    fluxJac_sum hS, fun b _ v => ?_, fun b hb v z hz => ?_⟩
  · have hd := hP.unit b
    rw [htau]
    have hs := sigma_half rs hc0 S.u (M.normal b)
    obtain ⟨a, β, π, rfl⟩ := wave_surj (n := 2) hγ S.u v
    generalize M.normal b = d at *
    rw [fluxJac_wave hS, tau_energy hγ hr hc0 hd, waveEnergy_wave hγ]
    have hn := sq_normal_le (β := β) hd
    simp only [add_dotProduct, smul_dotProduct, smul_eq_mul]
    rw [dotProduct_comm d β]
    have s0 : S.u ⬝ᵥ d - S.c ≤ _ := hs 0
    have s1 : S.u ⬝ᵥ d ≤ _ := hs 1
    have s2 : S.u ⬝ᵥ d ≤ _ := hs 2
    have s3 : S.u ⬝ᵥ d + S.c ≤ _ := hs 3
    generalize rs.sigma S.c S.u d = s at *
    generalize entropyWeight γ rs = κ at *
    generalize β ⬝ᵥ d = x at *
    generalize β ⬝ᵥ β = y at *
    generalize S.u ⬝ᵥ d = q at *
    generalize S.c = c at *
    have e0 := mul_le_mul_of_nonneg_right s0 (sq_nonneg (π - c * x))
    have e3 := mul_le_mul_of_nonneg_right s3 (sq_nonneg (π + c * x))
    have e2 := mul_le_mul_of_nonneg_right s2 (mul_nonneg (sq_nonneg c) (sub_nonneg.2 hn))
    have e1 := mul_le_mul_of_nonneg_right s1 (mul_nonneg hg.le (sq_nonneg (π - c ^ 2 * a)))
    nlinarith
  · obtain ⟨h1, h2⟩ := hc b hb
    have hd := hP.unit b
    rw [htau]
    obtain ⟨a, β, π, rfl⟩ := wave_surj (n := 2) hγ S.u v
    generalize M.normal b = d at *
    have wave_sub : ∀ a β π a' β' π', wave (n := 2) γ S.u a β π - wave γ S.u a' β' π'
        = wave γ S.u (a - a') (β - β') (π - π') := by
      intro a β π a' β' π'
      rw [sub_eq_iff_eq_add, wave_add]
      congr 1 <;> simp
    cases hcb : cond b with
    | outflow bc => rw [hcb] at h1; exact h1.elim
    | wall =>
      have hu : S.u ⬝ᵥ d = 0 := by rw [hcb] at h2; exact h2
      have hrs : rs ≠ .upwind := by rw [hcb] at h1; exact h1
      rw [hcb, value_wall_wave γ hu] at hz
      subst hz
      have hs : rs.sigma S.c S.u d 0 = S.c ∧ rs.sigma S.c S.u d 3 = S.c := by
        cases rs with
        | upwind => exact absurd rfl hrs
        | laxFriedrich => simp [Riemann.sigma, hu]
        | roe => simp [Riemann.sigma, lams, hu, abs_of_pos hc0]
        | hll => simp [Riemann.sigma, hu, hc0.le]
        | hllem θ₀ => simp [Riemann.sigma, hu, hc0.le]
      rw [wave_sub, tau_energy hγ hr hc0 hd, hs.1, hs.2, fluxJac_wave hS, fluxJac_wave hS]
      simp only [waveEnergy_wave hγ, hu, zero_mul, zero_smul, zero_add, sub_dotProduct,
        smul_dotProduct, hd, smul_eq_mul, mul_one, sub_self, mul_zero, dotProduct_comm d β,
        sub_sub_cancel]
      have : 0 ≤ S.c ^ 3 * (β ⬝ᵥ d) ^ 2 := by positivity
      nlinarith
    | isothermal bc =>
      obtain ⟨hu, hT⟩ : S.u = 0 ∧ bc.T = some S.T := by rw [hcb] at h2; exact h2
      have hrs : rs = .laxFriedrich ∨ rs = .hll ∨ ∃ θ₀ > 0, rs = .hllem θ₀ := by
        rw [hcb] at h1; exact h1
      have hud : S.u ⬝ᵥ d = 0 := by rw [hu, zero_dotProduct]
      have g1 : 0 < γ - 1 := by linarith
      rw [hcb, value_isothermal_wave hS hu hT] at hz
      subst hz
      obtain ⟨θ, hθ, hs0, hs1, hs2, hs3, hk⟩ : ∃ θ > 0, rs.sigma S.c S.u d 0 = S.c ∧
          rs.sigma S.c S.u d 1 = S.c * θ ∧ rs.sigma S.c S.u d 2 = S.c * θ ∧
          rs.sigma S.c S.u d 3 = S.c ∧ entropyWeight γ rs * θ * (γ - 1) = 1 := by
        rcases hrs with rfl | rfl | ⟨θ₀, hθ, rfl⟩
        · exact ⟨1, one_pos, by simp [Riemann.sigma, hud], by simp [Riemann.sigma, hud],
            by simp [Riemann.sigma, hud], by simp [Riemann.sigma, hud],
            by simp only [entropyWeight]; field_simp⟩
        · exact ⟨1, one_pos, by simp [Riemann.sigma, hud, hc0.le], by simp [Riemann.sigma, hud, hc0.le],
            by simp [Riemann.sigma, hud, hc0.le], by simp [Riemann.sigma, hud, hc0.le],
            by simp only [entropyWeight]; field_simp⟩
        · exact ⟨θ₀, hθ, by simp [Riemann.sigma, hud, hc0.le],
            by simp [Riemann.sigma, hud, hc0.le, (show (0 : ℝ) < θ₀ from hθ).le],
            by simp [Riemann.sigma, hud, hc0.le, (show (0 : ℝ) < θ₀ from hθ).le],
            by simp [Riemann.sigma, hud, hc0.le],
            by simp only [entropyWeight, if_pos (show (0 : ℝ) < θ₀ from hθ)]; field_simp⟩
      rw [wave_sub, tau_energy hγ hr hc0 hd, hs0, hs1, hs2, hs3, fluxJac_wave hS, fluxJac_wave hS]
      have hn := sq_normal_le (β := β) hd
      simp only [waveEnergy_wave hγ, hud, zero_mul, zero_smul, zero_add, zero_dotProduct,
        smul_dotProduct, smul_eq_mul, mul_zero, dotProduct_comm d β, sub_zero, sub_self]
      generalize β ⬝ᵥ d = x at *
      generalize β ⬝ᵥ β = y at *
      generalize entropyWeight γ rs = κ at *
      generalize S.c = c at *
      have g0 : 0 < γ := by linarith
      obtain ⟨q, hq⟩ : ∃ q, q = c ^ 2 * a / γ := ⟨_, rfl⟩
      have ha : c ^ 2 * a = γ * q := by rw [hq]; field_simp
      rw [ha, mul_div_cancel_left₀ q g0.ne']
      have e : c * (π - q) * π + κ * (c * θ * ((π - q) * (π - γ * q)))
          = c * (1 + κ * θ) * (π - q) ^ 2 := by
        linear_combination (-(c * (π - q) * q)) * hk
      have h3 : 0 ≤ c * (π - q - c * x) ^ 2 := by positivity
      have h4 : 0 ≤ c * (π - q) ^ 2 := by positivity
      have h5 : 0 ≤ c ^ 2 * (c * θ * (y - x ^ 2)) :=
        mul_nonneg (by positivity) (mul_nonneg (by positivity) (by linarith))
      have h6 : 0 ≤ c * (κ * θ) * (π - q) ^ 2 := by positivity
      have h7 : 0 ≤ c ^ 3 * x ^ 2 := by positivity
      nlinarith

end Dream
