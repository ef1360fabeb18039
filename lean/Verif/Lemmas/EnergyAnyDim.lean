import Verif.Lemmas.Energy

/-!
# Lax–Friedrichs and HLL do not increase the energy
-/

noncomputable section

namespace Dream
open Matrix _root_.Spec

variable {n : ℕ} {γ : ℝ} {V B : Type} [Fintype V] [Fintype B]

theorem normalOf_state {S : GasState n} (hS : IdealGas γ S) (d : Fin n → ℝ) :
    normalOf d (consVec S.rho S.rho_u S.rho_E) = S.u ⬝ᵥ d := by
  have hm : mom (consVec S.rho S.rho_u S.rho_E) = S.rho_u := by funext i; simp
  have hr := hS.rho_pos.ne'
  rw [normalOf, hm, hS.momentum, smul_dotProduct]
  simp [hr]

theorem soundOf_state {S : GasState n} (hS : IdealGas γ S) :
    soundOf γ (consVec S.rho S.rho_u S.rho_E) = S.c := by
  have hm : mom (consVec S.rho S.rho_u S.rho_E) = S.rho_u := by funext i; simp
  have hr := hS.rho_pos.ne'
  have hg := hS.gamma
  have g0 : γ ≠ 0 := by linarith
  have hi : innerOf (consVec S.rho S.rho_u S.rho_E) = S.Ei := by
    simp only [innerOf, hm, consVec_zero, consVec_last]
    rw [hS.rho_E, hS.total, hS.kinetic, hS.momentum]
    simp only [smul_dotProduct, dotProduct_smul, smul_eq_mul]
    field_simp
    ring
  rw [soundOf, hi, ← Real.sqrt_sq hS.sound_pos.le, hS.sound, hS.gas_law, hS.caloric]
  congr 1
  field_simp

/-- The squares of speed of sound and temperature. -/
theorem sound_temperature {S : GasState n} (hS : IdealGas γ S) : S.c ^ 2 = (γ - 1) * S.T := by
  have hr := hS.rho_pos.ne'
  have hg := hS.gamma
  have g0 : γ ≠ 0 := by linarith
  rw [hS.sound, hS.gas_law]
  field_simp

theorem fderiv_of_linear {k l : ℕ} {f : (Fin k → ℝ) → Fin l → ℝ} (h : IsLinearMap ℝ f)
    (w v : Fin k → ℝ) : fderiv ℝ f w v = f v := by
  have e : f = ⇑(LinearMap.toContinuousLinearMap (IsLinearMap.mk' f h)) := rfl
  rw [e, ContinuousLinearMap.fderiv]

theorem value_wall_linear (γ : ℝ) (d : Fin n → ℝ) :
    IsLinearMap ℝ (fun w => (FacetCond.wall : FacetCond n).value γ d w) where
  map_add v z := by
    have h : mom (v + z) = mom v + mom z := rfl
    refine cons_ext ?_ (fun i => ?_) ?_
    · simp [FacetCond.value]
    · simp only [FacetCond.value, h, consVec_mom, Pi.sub_apply, Pi.add_apply, Pi.smul_apply,
        add_dotProduct, smul_eq_mul]
      ring
    · simp [FacetCond.value]
  map_smul s v := by
    have h : mom (s • v) = s • mom v := rfl
    refine cons_ext ?_ (fun i => ?_) ?_
    · simp [FacetCond.value]
    · simp only [FacetCond.value, h, consVec_mom, Pi.sub_apply, Pi.smul_apply,
        smul_dotProduct, smul_eq_mul]
      ring
    · simp [FacetCond.value]

theorem value_isothermal_linear (γ : ℝ) (d : Fin n → ℝ) (bc : Flow n) :
    IsLinearMap ℝ (fun w => (FacetCond.isothermal bc : FacetCond n).value γ d w) where
  map_add v z := by
    refine cons_ext ?_ (fun i => ?_) ?_
    · simp [FacetCond.value]
    · simp [FacetCond.value]
    · simp only [FacetCond.value, consVec_last, Pi.add_apply]
      ring
  map_smul s v := by
    refine cons_ext ?_ (fun i => ?_) ?_
    · simp [FacetCond.value]
    · simp [FacetCond.value]
    · simp only [FacetCond.value, consVec_last, Pi.smul_apply, smul_eq_mul]
      ring

/-- A wall removes the normal momentum. -/
theorem value_wall_wave (γ : ℝ) {u d : Fin n → ℝ} (hu : u ⬝ᵥ d = 0) (a : ℝ) (β : Fin n → ℝ) (π : ℝ)
    (w : Fin (n + 2) → ℝ) :
    fderiv ℝ (fun w => (FacetCond.wall : FacetCond n).value γ d w) w (wave γ u a β π)
      = wave γ u a (β - (β ⬝ᵥ d) • d) π := by
  rw [fderiv_of_linear (value_wall_linear γ d)]
  have hm : mom (wave γ u a β π) = a • u + β := by funext i; simp [wave]
  refine cons_ext ?_ (fun i => ?_) ?_
  · rfl
  · simp only [FacetCond.value, hm]
    simp only [wave, consVec_mom, Pi.sub_apply, Pi.add_apply, Pi.smul_apply, add_dotProduct, smul_dotProduct, hu, smul_eq_mul]
    ring
  · simp only [FacetCond.value, wave, consVec_last, dotProduct_sub, dotProduct_smul, hu, smul_eq_mul,
      mul_zero, sub_zero]

/-- An isothermal wall keeps the density at the prescribed temperature. -/
theorem value_isothermal_wave {S : GasState n} (hS : IdealGas γ S) {d : Fin n → ℝ} {bc : Flow n}
    (hu : S.u = 0) (hT : bc.T = some S.T) (a : ℝ) (β : Fin n → ℝ) (π : ℝ) (w : Fin (n + 2) → ℝ) :
    fderiv ℝ (fun w => (FacetCond.isothermal bc : FacetCond n).value γ d w) w (wave γ S.u a β π)
      = wave γ S.u a 0 (S.c ^ 2 * a / γ) := by
  have g : γ - 1 ≠ 0 := by linarith [hS.gamma]
  rw [fderiv_of_linear (value_isothermal_linear γ d bc), sound_temperature hS]
  refine cons_ext ?_ (fun i => ?_) ?_
  · rfl
  · simp [FacetCond.value, wave, hu]
  · simp only [FacetCond.value, wave, consVec_last, consVec_zero, hu, hT, Option.getD_some,
      dotProduct_zero, zero_mul, zero_div, add_zero]
    field_simp

theorem sq_normal_le {d β : Fin n → ℝ} (hd : d ⬝ᵥ d = 1) : (β ⬝ᵥ d) ^ 2 ≤ β ⬝ᵥ β := by
  have h : 0 ≤ (β - (β ⬝ᵥ d) • d) ⬝ᵥ (β - (β ⬝ᵥ d) • d) :=
    Finset.sum_nonneg fun i _ => mul_self_nonneg _
  simp only [sub_dotProduct, dotProduct_sub, smul_dotProduct, dotProduct_smul, smul_eq_mul, hd,
    dotProduct_comm d β] at h
  nlinarith

/-- The flux increases the energy at most with the fastest wave. -/
theorem waveEnergy_speed {S : GasState n} (hS : IdealGas γ S) {κ : ℝ} (hg : 0 < κ) {d : Fin n → ℝ} (hd : d ⬝ᵥ d = 1)
    (v : Fin (n + 2) → ℝ) :
    waveEnergy γ S.u S.c κ (fluxJac γ d (consVec S.rho S.rho_u S.rho_E) v) v
      ≤ (S.u ⬝ᵥ d + S.c) * waveEnergy γ S.u S.c κ v v := by
  have hγ := hS.gamma
  obtain ⟨a, β, π, rfl⟩ := wave_surj hγ S.u v
  rw [fluxJac_wave hS, waveEnergy_wave hγ, waveEnergy_wave hγ]
  have hn := sq_normal_le (β := β) hd
  have hc := hS.sound_pos
  simp only [add_dotProduct, smul_dotProduct, smul_eq_mul]
  rw [dotProduct_comm d β]
  generalize β ⬝ᵥ d = x at *
  generalize β ⬝ᵥ β = y at *
  generalize S.u ⬝ᵥ d = z at *
  generalize S.c = c at *
  have h1 : 0 ≤ c * (π - c * x) ^ 2 := by positivity
  have h2 : 0 ≤ c ^ 3 * (y - x ^ 2) := mul_nonneg (by positivity) (by linarith)
  have h3 : 0 ≤ c * (κ * (π - c ^ 2 * a) ^ 2) := by positivity
  nlinarith

/-- In every dimension the energy does not increase with Lax–Friedrichs and HLL, walls and isothermal
walls. -/
theorem energyFits_anyDim {rs : Riemann} (hrs : rs.AnyDim) {S : GasState n} (hS : IdealGas γ S)
    {P : HdgSpaces n (n + 2) V B} {M : HdgMesh n V B} {mask : B → ℝ} (hP : P.Fits M mask)
    {cond : B → FacetCond n} (hc : ∀ b, mask b = 0 → (cond b).Closed ∧ (cond b).Admits S (M.normal b)) :
    EnergyFits γ M mask cond (consVec S.rho S.rho_u S.rho_E)
      (fun b => rs.speed (normalOf (M.normal b) (consVec S.rho S.rho_u S.rho_E))
        (soundOf γ (consVec S.rho S.rho_u S.rho_E)) • ContinuousLinearMap.id ℝ _)
      (waveEnergy γ S.u S.c (1 / (γ - 1))) := by
  have hγ := hS.gamma
  have hc0 := hS.sound_pos
  have hg : 0 < 1 / (γ - 1) := by
    have : 0 < γ - 1 := by linarith
    positivity
  refine ⟨waveEnergy_comm γ S.u S.c _, fun v hv => waveEnergy_pos hγ S.u hc0 hg hv, waveEnergy_flux hS _,
    fluxJac_sum hS, fun b _ v => ?_, fun b hb v z hz => ?_⟩
  · rw [normalOf_state hS, soundOf_state hS]
    refine (waveEnergy_speed hS hg (hP.unit b) v).trans ?_
    simp only [ContinuousLinearMap.smul_apply, ContinuousLinearMap.id_apply, map_smul,
      LinearMap.smul_apply, smul_eq_mul]
    rw [← mul_assoc]
    have hn : 0 ≤ waveEnergy γ S.u S.c (1 / (γ - 1)) v v := by
      by_cases hv : v = 0
      · simp [hv]
      · exact (waveEnergy_pos hγ S.u hc0 hg hv).le
    refine mul_le_mul_of_nonneg_right ?_ hn
    rcases hrs with rfl | rfl
    · simp only [Riemann.speed]
      have h1 := le_abs_self (S.u ⬝ᵥ M.normal b)
      have h2 := abs_nonneg (S.u ⬝ᵥ M.normal b)
      linarith
    · simp only [Riemann.speed]
      have h1 := le_max_left (S.u ⬝ᵥ M.normal b + S.c) 0
      have h2 := le_max_right (S.u ⬝ᵥ M.normal b + S.c) 0
      linarith
  · obtain ⟨h1, h2⟩ := hc b hb
    rw [normalOf_state hS, soundOf_state hS]
    obtain ⟨a, β, π, rfl⟩ := wave_surj hγ S.u v
    have hd := hP.unit b
    generalize M.normal b = d at *
    simp only [ContinuousLinearMap.smul_apply, ContinuousLinearMap.id_apply, map_smul,
      LinearMap.smul_apply, smul_eq_mul, map_sub, LinearMap.sub_apply]
    cases hcb : cond b with
    | outflow bc => rw [hcb] at h1; exact h1.elim
    | wall =>
      have hu : S.u ⬝ᵥ d = 0 := by rw [hcb] at h2; exact h2
      rw [hcb, value_wall_wave γ hu] at hz
      subst hz
      rw [fluxJac_wave hS, fluxJac_wave hS]
      simp only [waveEnergy_wave hγ, hu, zero_mul, zero_smul, zero_add, sub_dotProduct,
        smul_dotProduct, hd, smul_eq_mul, mul_one, sub_self, mul_zero, dotProduct_comm d β]
      have hs : 0 ≤ rs.speed 0 S.c := (speed_nonneg hrs hc0).1
      have : 0 ≤ rs.speed 0 S.c * (S.c ^ 2 * (β ⬝ᵥ d) ^ 2) := by positivity
      nlinarith
    | isothermal bc =>
      obtain ⟨hu, hT⟩ : S.u = 0 ∧ bc.T = some S.T := by rw [hcb] at h2; exact h2
      have hud : S.u ⬝ᵥ d = 0 := by rw [hu, zero_dotProduct]
      rw [hcb, value_isothermal_wave hS hu hT] at hz
      subst hz
      have hs : rs.speed 0 S.c = S.c := by
        rcases hrs with rfl | rfl
        · simp [Riemann.speed]
        · simp [Riemann.speed, hc0.le]
      rw [fluxJac_wave hS, fluxJac_wave hS]
      have hn := sq_normal_le (β := β) hd
      simp only [waveEnergy_wave hγ, hud, zero_mul, zero_smul, zero_add, zero_dotProduct,
        smul_dotProduct, smul_eq_mul, mul_zero, dotProduct_comm d β, hs]
      generalize β ⬝ᵥ d = x at *
      generalize β ⬝ᵥ β = y at *
      generalize S.c = c at *
      have g1 : 0 < γ - 1 := by linarith
      have g0 : 0 < γ := by linarith
      obtain ⟨q, hq⟩ : ∃ q, q = c ^ 2 * a / γ := ⟨_, rfl⟩
      have ha : c ^ 2 * a = γ * q := by rw [hq]; field_simp
      rw [ha, mul_div_cancel_left₀ q g0.ne']
      obtain ⟨κ, hκ⟩ : ∃ κ, κ = 1 / (γ - 1) := ⟨_, rfl⟩
      have hk : κ * (γ - 1) = 1 := by rw [hκ]; field_simp
      have hk0 : 0 < κ := by rw [hκ]; positivity
      rw [← hκ]
      have e : π * π + c ^ 2 * y + κ * ((π - γ * q) * (π - γ * q)) - (q * π + c ^ 2 * 0
          + κ * ((q - γ * q) * (π - γ * q))) = (1 + κ) * (π - q) ^ 2 + c ^ 2 * y := by
        have hγk : κ * γ = 1 + κ := by linarith
        linear_combination (-(π * q) + q ^ 2) * hγk
      have h3 : 0 ≤ c * (π - q - c * x) ^ 2 := by positivity
      have h4 : 0 ≤ c * (π - q) ^ 2 := by positivity
      have h5 : 0 ≤ c ^ 3 * (y - x ^ 2) := mul_nonneg (by positivity) (by linarith)
      have h6 : 0 ≤ c * κ * (π - q) ^ 2 := by positivity
      have h7 : 0 ≤ c ^ 3 * x ^ 2 := by positivity
      simp only [mul_zero, add_zero] at e
      nlinarith

end Dream
