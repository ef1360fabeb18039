import Verif.Spec.Contact
import Verif.Props.Freestream

/-!
# C79: contact discontinuities
-/

noncomputable section

namespace Dream
open Matrix Spec

variable {V B : Type} [Fintype V] [Fintype B] {γ : ℝ} {S W L R : GasState 2} {d : Fin 2 → ℝ}

theorem rhoE_eq (hS : IdealGas γ S) : S.rho_E = S.p / (γ - 1) + S.rho * (S.u ⬝ᵥ S.u) / 2 := by
  have hg : γ - 1 ≠ 0 := by linarith [hS.gamma]
  have hg' : γ ≠ 0 := by linarith [hS.gamma]
  rw [hS.rho_E, hS.total, hS.kinetic, hS.gas_law, hS.caloric]
  field_simp

theorem gasVec_sub (hS : IdealGas γ S) (hW : IdealGas γ W) (h : InContact S W) :
    gasVec W - gasVec S = (W.rho - S.rho) • contactWave S.u := by
  have e1 := rhoE_eq hS
  have e2 := rhoE_eq hW
  rw [h.velocity, h.pressure] at e2
  funext i
  fin_cases i
  · simp [consVec, contactWave]
  · show W.rho_u 0 - S.rho_u 0 = (W.rho - S.rho) * S.u 0
    rw [hS.momentum, hW.momentum, h.velocity]
    simp only [Pi.smul_apply, smul_eq_mul]
    ring
  · show W.rho_u 1 - S.rho_u 1 = (W.rho - S.rho) * S.u 1
    rw [hS.momentum, hW.momentum, h.velocity]
    simp only [Pi.smul_apply, smul_eq_mul]
    ring
  · show W.rho_E - S.rho_E = (W.rho - S.rho) * ((S.u ⬝ᵥ S.u) / 2)
    rw [e1, e2]
    ring

/-- The contact wave is a multiple of the second column of the eigenvector matrix. -/
theorem matP_contact {rho c : ℝ} {u : Fin 2 → ℝ} (c0 : c ≠ 0) :
    contactWave u = matP γ rho c u d *ᵥ ![0, c ^ 2, 0, 0] := by
  funext i
  fin_cases i <;> simp [contactWave, matP, mulVec, dotProduct, Fin.sum_univ_succ] <;>
    field_simp

theorem sigma_contact (rs : Riemann) (c : ℝ) (u : Fin 2 → ℝ) :
    rs.sigma c u d 1 = contactSpeed (u ⬝ᵥ d) c rs := by
  cases rs <;> simp [Riemann.sigma, contactSpeed, lams]

/-- **C79.** Gases in contact: with every Riemann solver the numerical flux is the flux of the facet
value plus the difference of the densities, carried with the speed of this solver. -/
theorem C79_contact (rs : Riemann) (hS : IdealGas γ S) (hW : IdealGas γ W) (h : InContact S W)
    (hd : d 0 ^ 2 + d 1 ^ 2 = 1) :
    convectiveNumericalFlux γ rs (gasVec W) (gasVec S) (conservativeDict S) d =
      .ok (eulerFlux γ d S.rho S.rho_u S.rho_E +
        (contactSpeed (S.u ⬝ᵥ d) S.c rs * (W.rho - S.rho)) • contactWave S.u) := by
  obtain ⟨τ, h1, h2⟩ := C28_flux rs hS hd (gasVec W) (gasVec S)
  have h3 := rs.tau_eq (U := conservativeDict S) (d := d) hS.gamma rfl rfl rfl hS.rho_pos
    hS.sound_pos hd
  rw [h1] at h3
  rw [h2, Except.ok.inj h3, gasVec_sub hS hW h]
  congr 2
  have c0 := hS.sound_pos.ne'
  have hQ := Pinv_mul_P (u := S.u) hS.rho_pos.ne' c0 (γ := γ) (by linarith [hS.gamma]) hd
  rw [mulVec_smul]
  have e : (matP γ S.rho S.c S.u d * diagonal (rs.sigma S.c S.u d) * matPinv γ S.rho S.c S.u d) *ᵥ
      contactWave S.u = contactSpeed (S.u ⬝ᵥ d) S.c rs • contactWave S.u := by
    rw [matP_contact (γ := γ) (rho := S.rho) (d := d) c0, mulVec_mulVec, mulDiag hQ,
      ← mulVec_mulVec, ← mulVec_smul, ← sigma_contact]
    congr 1
    funext i
    rw [mulVec_diagonal]
    fin_cases i <;> simp
  rw [e, smul_smul, mul_comm]

theorem euler_contact (hS : IdealGas γ S) (hW : IdealGas γ W) (h : InContact S W) :
    eulerFlux γ d W.rho W.rho_u W.rho_E = eulerFlux γ d S.rho S.rho_u S.rho_E +
      ((S.u ⬝ᵥ d) * (W.rho - S.rho)) • contactWave S.u := by
  have p : ∀ {X : GasState 2}, IdealGas γ X →
      (γ - 1) * (X.rho_E - (X.rho_u ⬝ᵥ X.rho_u) / (2 * X.rho)) = X.p := by
    intro X hX
    have hg : γ - 1 ≠ 0 := by linarith [hX.gamma]
    have := hX.rho_pos.ne'
    rw [rhoE_eq hX, hX.momentum]
    simp only [smul_dotProduct, dotProduct_smul, smul_eq_mul]
    field_simp
    ring
  have rS := hS.rho_pos.ne'
  have rW := hW.rho_pos.ne'
  funext i
  fin_cases i
  · show W.rho_u ⬝ᵥ d = S.rho_u ⬝ᵥ d + (S.u ⬝ᵥ d) * (W.rho - S.rho) * 1
    rw [hS.momentum, hW.momentum, h.velocity]
    simp only [smul_dotProduct, smul_eq_mul]
    ring
  · show W.rho_u 0 * (W.rho_u ⬝ᵥ d) / W.rho
        + (γ - 1) * (W.rho_E - (W.rho_u ⬝ᵥ W.rho_u) / (2 * W.rho)) * d 0
      = S.rho_u 0 * (S.rho_u ⬝ᵥ d) / S.rho
        + (γ - 1) * (S.rho_E - (S.rho_u ⬝ᵥ S.rho_u) / (2 * S.rho)) * d 0
        + (S.u ⬝ᵥ d) * (W.rho - S.rho) * S.u 0
    rw [p hS, p hW, h.pressure, hS.momentum, hW.momentum, h.velocity]
    simp only [smul_dotProduct, smul_eq_mul, Pi.smul_apply]
    field_simp
    ring
  · show W.rho_u 1 * (W.rho_u ⬝ᵥ d) / W.rho
        + (γ - 1) * (W.rho_E - (W.rho_u ⬝ᵥ W.rho_u) / (2 * W.rho)) * d 1
      = S.rho_u 1 * (S.rho_u ⬝ᵥ d) / S.rho
        + (γ - 1) * (S.rho_E - (S.rho_u ⬝ᵥ S.rho_u) / (2 * S.rho)) * d 1
        + (S.u ⬝ᵥ d) * (W.rho - S.rho) * S.u 1
    rw [p hS, p hW, h.pressure, hS.momentum, hW.momentum, h.velocity]
    simp only [smul_dotProduct, smul_eq_mul, Pi.smul_apply]
    field_simp
    ring
  · show (W.rho_E + (γ - 1) * (W.rho_E - (W.rho_u ⬝ᵥ W.rho_u) / (2 * W.rho)))
        * (W.rho_u ⬝ᵥ d) / W.rho
      = (S.rho_E + (γ - 1) * (S.rho_E - (S.rho_u ⬝ᵥ S.rho_u) / (2 * S.rho)))
        * (S.rho_u ⬝ᵥ d) / S.rho
        + (S.u ⬝ᵥ d) * (W.rho - S.rho) * ((S.u ⬝ᵥ S.u) / 2)
    rw [p hS, p hW, rhoE_eq hS, rhoE_eq hW, h.pressure, hS.momentum, hW.momentum, h.velocity]
    simp only [smul_dotProduct, smul_eq_mul]
    field_simp
    ring

theorem euler_neg (ρ e : ℝ) (m : Fin 2 → ℝ) : eulerFlux γ (-d) ρ m e = -eulerFlux γ d ρ m e := by
  funext i
  fin_cases i
  · show m ⬝ᵥ -d = -(m ⬝ᵥ d)
    rw [dotProduct_neg]
  · show m 0 * (m ⬝ᵥ -d) / ρ + _ * (-d 0) = -(m 0 * (m ⬝ᵥ d) / ρ + _ * d 0)
    rw [dotProduct_neg]
    ring
  · show m 1 * (m ⬝ᵥ -d) / ρ + _ * (-d 1) = -(m 1 * (m ⬝ᵥ d) / ρ + _ * d 1)
    rw [dotProduct_neg]
    ring
  · show _ * (m ⬝ᵥ -d) / ρ = -(_ * (m ⬝ᵥ d) / ρ)
    rw [dotProduct_neg]
    ring

theorem pressure_eq (hS : IdealGas γ S) :
    (γ - 1) * (S.rho_E - (S.rho_u ⬝ᵥ S.rho_u) / (2 * S.rho)) = S.p := by
  have hg : γ - 1 ≠ 0 := by linarith [hS.gamma]
  have := hS.rho_pos.ne'
  rw [rhoE_eq hS, hS.momentum]
  simp only [smul_dotProduct, dotProduct_smul, smul_eq_mul]
  field_simp
  ring

theorem euler_along (hS : IdealGas γ S) (hu : S.u ⬝ᵥ d = 0) :
    eulerFlux γ d S.rho S.rho_u S.rho_E = ![0, S.p * d 0, S.p * d 1, 0] := by
  have hm : S.rho_u ⬝ᵥ d = 0 := by rw [hS.momentum, smul_dotProduct, hu, smul_zero]
  have p := pressure_eq hS
  funext i
  fin_cases i
  · exact hm
  · show S.rho_u 0 * (S.rho_u ⬝ᵥ d) / S.rho
      + (γ - 1) * (S.rho_E - (S.rho_u ⬝ᵥ S.rho_u) / (2 * S.rho)) * d 0 = S.p * d 0
    rw [p, hm]
    simp
  · show S.rho_u 1 * (S.rho_u ⬝ᵥ d) / S.rho
      + (γ - 1) * (S.rho_E - (S.rho_u ⬝ᵥ S.rho_u) / (2 * S.rho)) * d 1 = S.p * d 1
    rw [p, hm]
    simp
  · show (S.rho_E + (γ - 1) * (S.rho_E - (S.rho_u ⬝ᵥ S.rho_u) / (2 * S.rho)))
        * (S.rho_u ⬝ᵥ d) / S.rho = 0
    rw [hm]
    simp

/-- **C79.** Transport: if the facet value satisfies the transmission condition (what leaves one
side enters the other), Roe's and the upwind flux transport exactly the gas from where the flow
comes. `L` lies behind the facet with normal `d`, `R` in front of it. -/
theorem C79_transport (rs : Riemann) (hrs : rs = .upwind ∨ rs = .roe)
    (hS : IdealGas γ S) (hL : IdealGas γ L) (hR : IdealGas γ R) (cL : InContact S L)
    (cR : InContact S R) (hd : d 0 ^ 2 + d 1 ^ 2 = 1) {f g : Fin 4 → ℝ}
    (hf : convectiveNumericalFlux γ rs (gasVec L) (gasVec S) (conservativeDict S) d = .ok f)
    (hg : convectiveNumericalFlux γ rs (gasVec R) (gasVec S) (conservativeDict S) (-d) = .ok g)
    (ht : f + g = 0) :
    (0 ≤ S.u ⬝ᵥ d → f = eulerFlux γ d L.rho L.rho_u L.rho_E) ∧
    (S.u ⬝ᵥ d ≤ 0 → f = eulerFlux γ d R.rho R.rho_u R.rho_E) := by
  have hd' : (-d) 0 ^ 2 + (-d) 1 ^ 2 = 1 := by simpa using hd
  rw [C79_contact rs hS hL cL hd] at hf
  rw [C79_contact rs hS hR cR hd'] at hg
  have hf := Except.ok.inj hf
  have hg := Except.ok.inj hg
  rw [euler_neg] at hg
  rw [euler_contact hS hL cL, euler_contact hS hR cR]
  rw [← hf, ← hg] at ht
  rw [← hf]
  have h0 := congrFun ht 0
  simp only [Pi.add_apply, Pi.smul_apply, smul_eq_mul, contactWave, cons_val_zero, mul_one,
    Pi.zero_apply, Pi.neg_apply, dotProduct_neg] at h0
  have key : contactSpeed (S.u ⬝ᵥ d) S.c rs * (L.rho - S.rho)
      + contactSpeed (-(S.u ⬝ᵥ d)) S.c rs * (R.rho - S.rho) = 0 := by linarith
  constructor
  · intro hu
    congr 2
    rcases hrs with rfl | rfl
    · simp only [contactSpeed, max_eq_left hu]
    · simp only [contactSpeed, abs_of_nonneg hu]
  · intro hu
    congr 2
    rcases hrs with rfl | rfl
    · simp only [contactSpeed, max_eq_right hu, max_eq_left (neg_nonneg.2 hu)] at key ⊢
      linarith
    · simp only [contactSpeed, abs_neg, abs_of_nonpos hu] at key ⊢
      linarith

/-- **C79.** With Lax-Friedrichs the same facet carries, besides the mean of the two fluxes, half the
difference of the densities with the speed of sound, even if nothing flows through it. -/
theorem C79_lax_friedrich (hS : IdealGas γ S) (hL : IdealGas γ L) (hR : IdealGas γ R)
    (cL : InContact S L) (cR : InContact S R) (hd : d 0 ^ 2 + d 1 ^ 2 = 1) {f g : Fin 4 → ℝ}
    (hf : convectiveNumericalFlux γ .laxFriedrich (gasVec L) (gasVec S) (conservativeDict S) d = .ok f)
    (hg : convectiveNumericalFlux γ .laxFriedrich (gasVec R) (gasVec S) (conservativeDict S) (-d) = .ok g)
    (ht : f + g = 0) :
    S.rho = (L.rho + R.rho) / 2 ∧
    f = eulerFlux γ d S.rho S.rho_u S.rho_E
      + ((|S.u ⬝ᵥ d| + S.c) * ((L.rho - R.rho) / 2)) • contactWave S.u := by
  have hd' : (-d) 0 ^ 2 + (-d) 1 ^ 2 = 1 := by simpa using hd
  rw [C79_contact _ hS hL cL hd] at hf
  rw [C79_contact _ hS hR cR hd'] at hg
  have hf := Except.ok.inj hf
  have hg := Except.ok.inj hg
  rw [euler_neg] at hg
  rw [← hf, ← hg] at ht
  rw [← hf]
  have h0 := congrFun ht 0
  simp only [Pi.add_apply, Pi.smul_apply, smul_eq_mul, contactWave, cons_val_zero, mul_one,
    Pi.zero_apply, Pi.neg_apply, dotProduct_neg, contactSpeed, abs_neg] at h0
  have hp : 0 < |S.u ⬝ᵥ d| + S.c := add_pos_of_nonneg_of_pos (abs_nonneg _) hS.sound_pos
  have key : (|S.u ⬝ᵥ d| + S.c) * (L.rho + R.rho - 2 * S.rho) = 0 := by linarith
  have hm : S.rho = (L.rho + R.rho) / 2 := by
    have := (mul_eq_zero.1 key).resolve_left hp.ne'
    linarith
  refine ⟨hm, ?_⟩
  congr 2
  simp only [contactSpeed]
  rw [hm]
  ring

/-- **C79.** A contact along which the gas flows: with Roe's and the upwind flux nothing but the
pressure acts on the facet, whatever the densities on both sides and on the facet. -/
theorem C79_stationary (rs : Riemann) (hrs : rs = .upwind ∨ rs = .roe) (hS : IdealGas γ S)
    (hW : IdealGas γ W) (h : InContact S W) (hd : d 0 ^ 2 + d 1 ^ 2 = 1) (hu : S.u ⬝ᵥ d = 0) :
    convectiveNumericalFlux γ rs (gasVec W) (gasVec S) (conservativeDict S) d =
      .ok ![0, S.p * d 0, S.p * d 1, 0] := by
  rw [C79_contact rs hS hW h hd]
  have e : contactSpeed (S.u ⬝ᵥ d) S.c rs = 0 := by
    rcases hrs with rfl | rfl <;> simp [contactSpeed, hu]
  rw [e, zero_mul, zero_smul, add_zero, euler_along hS hu]

/-- **C79 fails** for Lax-Friedrichs and HLL, and for HLLEM with a positive threshold (as by
default): gases in contact along the flow mix as soon as their densities differ. -/
theorem C79_fails_smear (hS : IdealGas γ S) (hW : IdealGas γ W) (h : InContact S W)
    (hd : d 0 ^ 2 + d 1 ^ 2 = 1) (hu : S.u ⬝ᵥ d = 0) :
    (∀ rs, rs = Riemann.laxFriedrich ∨ rs = Riemann.hll →
      convectiveNumericalFlux γ rs (gasVec W) (gasVec S) (conservativeDict S) d =
        .ok (![0, S.p * d 0, S.p * d 1, 0] + (S.c * (W.rho - S.rho)) • contactWave S.u)) ∧
    (∀ θ₀, 0 ≤ θ₀ →
      convectiveNumericalFlux γ (.hllem θ₀) (gasVec W) (gasVec S) (conservativeDict S) d =
        .ok (![0, S.p * d 0, S.p * d 1, 0] + (S.c * θ₀ * (W.rho - S.rho)) • contactWave S.u)) := by
  have c0 := hS.sound_pos
  refine ⟨fun rs hrs => ?_, fun θ₀ hθ => ?_⟩
  · rw [C79_contact rs hS hW h hd, euler_along hS hu]
    have e : contactSpeed (S.u ⬝ᵥ d) S.c rs = S.c := by
      rcases hrs with rfl | rfl <;> simp [contactSpeed, hu, c0.le]
    rw [e]
  · rw [C79_contact _ hS hW h hd, euler_along hS hu]
    have e : contactSpeed (S.u ⬝ᵥ d) S.c (.hllem θ₀) = S.c * θ₀ := by
      simp [contactSpeed, hu, c0.le, hθ]
    rw [e]

/-! ## Gas at rest -/

/-- The pressure tensor: no mass, momentum `p`, no energy. -/
def pressureFlux (p : ℝ) : Matrix (Fin 4) (Fin 2) ℝ := !![0, 0; p, 0; 0, p; 0, 0]

theorem pressureFlux_mulVec (p : ℝ) (d : Fin 2 → ℝ) :
    pressureFlux p *ᵥ d = ![0, p * d 0, p * d 1, 0] := by
  funext i
  fin_cases i <;> simp [pressureFlux, mulVec, dotProduct, Fin.sum_univ_two]

theorem rest_flux {p : ℝ} (hS : IdealGas γ S) (h : AtRest p S) {F : Matrix (Fin 4) (Fin 2) ℝ}
    (hF : convectiveFlux γ (conservativeDict S) = .ok F) : F = pressureFlux p := by
  have key : ∀ d, F *ᵥ d = pressureFlux p *ᵥ d := by
    intro d
    obtain ⟨F', h1, h2⟩ := C26_flux_conservative hS d
    rw [hF] at h1
    rw [Except.ok.inj h1, h2, euler_along hS (by rw [h.still, zero_dotProduct]),
      pressureFlux_mulVec, h.pressure]
  exact Matrix.ext_of_mulVec_single fun i => key _

/-- **C79.** A gas at rest with the same pressure everywhere stays at rest, whatever its density:
with Roe's or the upwind flux it satisfies the discrete equations of every time step, on every
mesh. The densities may differ from point to point, between neighbouring elements and on the
facets; at boundaries with a condition the facet value is that of the element and the condition
matches it. -/
theorem C79_rest {p : ℝ} (rs : Riemann) (hrs : rs = .upwind ∨ rs = .roe) (M : HdgMesh 2 V B)
    (hn : ∀ b, M.normal b 0 ^ 2 + M.normal b 1 ^ 2 = 1) (mask : B → ℝ)
    (T : Set (HdgTest 2 4 V B)) (hG : Gauss M mask T) (s : Scheme) (dt : ℝ) (t : ℚ)
    (el : V → GasState 2) (tr hat : B → GasState 2)
    (hel : ∀ v, IdealGas γ (el v) ∧ AtRest p (el v))
    (htr : ∀ b, IdealGas γ (tr b) ∧ AtRest p (tr b))
    (hhat : ∀ b, IdealGas γ (hat b) ∧ AtRest p (hat b))
    (x : HdgState 2 4 V B) (hU : ∀ v, x.U v = gasVec (el v))
    (hx : x.IsEuler γ rs M (fun b => gasVec (tr b)) (fun b => gasVec (hat b)))
    (hR : ∀ b, x.R b = 0 ∨ hat b = tr b ∧ Matching γ (tr b) (M.normal b) (x.R b))
    (σ : V → ℝ) (hσ : ∀ v, spongeResidual γ (σ v) (conservativeDict (el v)) (x.U v)
      = .ok (x.source v)) :
    hdgStep M mask T (s.quotient dt) t x x x := by
  have hF' : x.F = fun _ => pressureFlux p := by
    funext v
    obtain ⟨Uf, h1, h2⟩ := hx.flux v
    rw [hU v, fields_vec (hel v).1] at h1
    cases h1
    exact rest_flux (hel v).1 (hel v).2 h2
  have hFn' : x.Fn = fun b => pressureFlux p *ᵥ M.normal b := by
    funext b
    obtain ⟨Uf, h0, h1⟩ := hx.numerical b
    rw [fields_vec (hhat b).1] at h0
    cases h0
    rw [C79_stationary rs hrs (hhat b).1 (htr b).1
      ⟨by rw [(htr b).2.still, (hhat b).2.still], by rw [(htr b).2.pressure, (hhat b).2.pressure]⟩
      (hn b) (by rw [(hhat b).2.still, zero_dotProduct])] at h1
    rw [pressureFlux_mulVec, ← (hhat b).2.pressure]
    exact (Except.ok.inj h1).symm
  have hR' : x.R = 0 := by
    funext b
    rcases hR b with h | ⟨-, h⟩
    · exact h
    · exact h.zero (htr b).1 (hn b)
  have hs : x.source = 0 := by
    funext v
    have := hσ v
    rw [spongeResidual, stateVec_dict, hU v] at this
    simp only [bind, Except.bind, sub_self, smul_zero, Except.ok.injEq] at this
    exact this.symm
  have hq : ∀ a : ℝ, s.quotient dt a a a = 0 := by
    intro a
    cases s <;> simp [Scheme.quotient, backwardEuler, backward2] <;> ring_nf <;> simp
  intro φ hφ
  rw [hF', hFn', hR', hs, hx.inviscid.1, hx.inviscid.2, convection_uniform hG _ hφ]
  simp [timeForm, diffusionForm, boundaryForm, frobenius, hq]

/-- C79, concrete instance: a heavy and a light gas at rest with the pressure 1, and the states
built from any distribution of such gases. -/
example : (IdealGas 2 (GasState.of (n := 2) 2 1 0 1) ∧ AtRest 1 (GasState.of 2 1 0 1)) ∧
    (IdealGas 2 (GasState.of (n := 2) 2 4 0 (1 / 4)) ∧ AtRest 1 (GasState.of 2 4 0 (1 / 4))) ∧
    InContact (GasState.of 2 1 ![3, 0] 1) (GasState.of 2 4 ![3, 0] (1 / 4)) := by
  refine ⟨⟨?_, rfl, ?_⟩, ⟨?_, rfl, ?_⟩, rfl, ?_⟩
  · exact IdealGas.of (by norm_num) (by norm_num) (by norm_num)
  · norm_num [GasState.of]
  · exact IdealGas.of (by norm_num) (by norm_num) (by norm_num)
  · norm_num [GasState.of]
  · norm_num [GasState.of]

/-- C79, concrete instance: every distribution of gases at rest is the state of some unknowns. -/
example {p : ℝ} (rs : Riemann) (hrs : rs = .upwind ∨ rs = .roe) (M : HdgMesh 2 V B)
    (hn : ∀ b, M.normal b 0 ^ 2 + M.normal b 1 ^ 2 = 1)
    (el : V → GasState 2) (tr hat : B → GasState 2)
    (hel : ∀ v, IdealGas γ (el v) ∧ AtRest p (el v))
    (htr : ∀ b, IdealGas γ (tr b) ∧ AtRest p (tr b))
    (hhat : ∀ b, IdealGas γ (hat b) ∧ AtRest p (hat b)) :
    ∃ x : HdgState 2 4 V B, (∀ v, x.U v = gasVec (el v)) ∧
      x.IsEuler γ rs M (fun b => gasVec (tr b)) (fun b => gasVec (hat b)) ∧ x.R = 0 := by
  refine ⟨⟨fun v => gasVec (el v), fun _ => pressureFlux p, 0,
    fun b => pressureFlux p *ᵥ M.normal b, 0, 0, 0⟩, fun _ => rfl, ⟨fun v => ?_, fun b => ?_, rfl, rfl⟩,
    rfl⟩
  · refine ⟨_, fields_vec (hel v).1, ?_⟩
    obtain ⟨F, h, -⟩ := C26_flux_conservative (hel v).1 0
    rw [h, rest_flux (hel v).1 (hel v).2 h]
  · refine ⟨_, fields_vec (hhat b).1, ?_⟩
    rw [C79_stationary rs hrs (hhat b).1 (htr b).1
      ⟨by rw [(htr b).2.still, (hhat b).2.still], by rw [(htr b).2.pressure, (hhat b).2.pressure]⟩
      (hn b) (by rw [(hhat b).2.still, zero_dotProduct]), (hhat b).2.pressure,
      ← pressureFlux_mulVec]

/-- **C79.** Whole runs: the gas at rest satisfies the equations of every step. -/
theorem C79_rest_run {p : ℝ} (rs : Riemann) (hrs : rs = .upwind ∨ rs = .roe) (M : HdgMesh 2 V B)
    (hn : ∀ b, M.normal b 0 ^ 2 + M.normal b 1 ^ 2 = 1) (mask : B → ℝ)
    (T : Set (HdgTest 2 4 V B)) (hG : Gauss M mask T) (s : Scheme) (dt : ℝ) (ts : List ℚ)
    (el : V → GasState 2) (tr hat : B → GasState 2)
    (hel : ∀ v, IdealGas γ (el v) ∧ AtRest p (el v))
    (htr : ∀ b, IdealGas γ (tr b) ∧ AtRest p (tr b))
    (hhat : ∀ b, IdealGas γ (hat b) ∧ AtRest p (hat b))
    (x : HdgState 2 4 V B) (hU : ∀ v, x.U v = gasVec (el v))
    (hx : x.IsEuler γ rs M (fun b => gasVec (tr b)) (fun b => gasVec (hat b)))
    (hR : ∀ b, x.R b = 0 ∨ hat b = tr b ∧ Matching γ (tr b) (M.normal b) (x.R b))
    (σ : V → ℝ) (hσ : ∀ v, spongeResidual γ (σ v) (conservativeDict (el v)) (x.U v)
      = .ok (x.source v)) :
    Satisfies (hdgStep M mask T (s.quotient dt)) x x ts (List.replicate ts.length x) := by
  induction ts with
  | nil => trivial
  | cons t ts ih =>
    exact ⟨C79_rest rs hrs M hn mask T hG s dt t el tr hat hel htr hhat x hU hx hR σ hσ, ih⟩

/-- **C79 fails** for Lax-Friedrichs, HLL and HLLEM with a positive threshold: if gases of
different densities are at rest on both sides of a facet, no facet value at rest with the same
pressure lets both sides keep their mass. -/
theorem C79_fails_rest {p : ℝ} (rs : Riemann)
    (hrs : rs = .laxFriedrich ∨ rs = .hll ∨ ∃ θ₀ > 0, rs = .hllem θ₀)
    (hS : IdealGas γ S ∧ AtRest p S) (hL : IdealGas γ L ∧ AtRest p L)
    (hR : IdealGas γ R ∧ AtRest p R) (hLR : L.rho ≠ R.rho) (hd : d 0 ^ 2 + d 1 ^ 2 = 1)
    {f g : Fin 4 → ℝ}
    (hf : convectiveNumericalFlux γ rs (gasVec L) (gasVec S) (conservativeDict S) d = .ok f)
    (hg : convectiveNumericalFlux γ rs (gasVec R) (gasVec S) (conservativeDict S) (-d) = .ok g) :
    f 0 ≠ 0 ∨ g 0 ≠ 0 := by
  have hd' : (-d) 0 ^ 2 + (-d) 1 ^ 2 = 1 := by simpa using hd
  have hu : ∀ e : Fin 2 → ℝ, S.u ⬝ᵥ e = 0 := fun e => by rw [hS.2.still, zero_dotProduct]
  have cL : InContact S L :=
    ⟨by rw [hL.2.still, hS.2.still], by rw [hL.2.pressure, hS.2.pressure]⟩
  have cR : InContact S R :=
    ⟨by rw [hR.2.still, hS.2.still], by rw [hR.2.pressure, hS.2.pressure]⟩
  obtain ⟨k, hk, hkf, hkg⟩ : ∃ k > 0, f 0 = k * (L.rho - S.rho) ∧ g 0 = k * (R.rho - S.rho) := by
    have c0 := hS.1.sound_pos
    rcases hrs with h | h | ⟨θ₀, hθ, h⟩
    · refine ⟨S.c, c0, ?_, ?_⟩
      · rw [(C79_fails_smear hS.1 hL.1 cL hd (hu d)).1 rs (.inl h)] at hf
        rw [← Except.ok.inj hf]
        simp [contactWave]
      · rw [(C79_fails_smear hS.1 hR.1 cR hd' (hu _)).1 rs (.inl h)] at hg
        rw [← Except.ok.inj hg]
        simp [contactWave]
    · refine ⟨S.c, c0, ?_, ?_⟩
      · rw [(C79_fails_smear hS.1 hL.1 cL hd (hu d)).1 rs (.inr h)] at hf
        rw [← Except.ok.inj hf]
        simp [contactWave]
      · rw [(C79_fails_smear hS.1 hR.1 cR hd' (hu _)).1 rs (.inr h)] at hg
        rw [← Except.ok.inj hg]
        simp [contactWave]
    · refine ⟨S.c * θ₀, mul_pos c0 hθ, ?_, ?_⟩
      · rw [h, (C79_fails_smear hS.1 hL.1 cL hd (hu d)).2 θ₀ hθ.le] at hf
        rw [← Except.ok.inj hf]
        simp [contactWave]
      · rw [h, (C79_fails_smear hS.1 hR.1 cR hd' (hu _)).2 θ₀ hθ.le] at hg
        rw [← Except.ok.inj hg]
        simp [contactWave]
  by_contra hc
  simp only [not_or, not_not] at hc
  rw [hkf, hkg] at hc
  have h1 := (mul_eq_zero.1 hc.1).resolve_left hk.ne'
  have h2 := (mul_eq_zero.1 hc.2).resolve_left hk.ne'
  exact hLR (by linarith)

/-! ## Shear layers -/

/-- **C79.** Shear: gases of the same density and pressure sliding along a facet at different
velocities. Roe's flux and the upwind flux do not keep them apart exactly: they send mass through
the facet, quadratically in the difference of the velocities. -/
theorem C79_fails_shear (hS : IdealGas γ S) (hW : IdealGas γ W) (hr : W.rho = S.rho)
    (hp : W.p = S.p) (hd : d 0 ^ 2 + d 1 ^ 2 = 1) (hu : S.u ⬝ᵥ d = 0) (hw : W.u ⬝ᵥ d = 0) :
    (∃ f, convectiveNumericalFlux γ .roe (gasVec W) (gasVec S) (conservativeDict S) d = .ok f ∧
      f 0 = (γ - 1) * S.rho * ((W.u - S.u) ⬝ᵥ (W.u - S.u)) / (2 * S.c)) ∧
    (∃ f, convectiveNumericalFlux γ .upwind (gasVec W) (gasVec S) (conservativeDict S) d = .ok f ∧
      f 0 = (γ - 1) * S.rho * ((W.u - S.u) ⬝ᵥ (W.u - S.u)) / (4 * S.c)) := by
  have c0 := hS.sound_pos
  have hg : γ - 1 ≠ 0 := by linarith [hS.gamma]
  have eS := rhoE_eq hS
  have eW := rhoE_eq hW
  have u0 : S.u 0 * d 0 + S.u 1 * d 1 = 0 := by
    simpa [dotProduct, Fin.sum_univ_two] using hu
  have w0 : W.u 0 * d 0 + W.u 1 * d 1 = 0 := by
    simpa [dotProduct, Fin.sum_univ_two] using hw
  set k := (γ - 1) * S.rho * ((W.u - S.u) ⬝ᵥ (W.u - S.u)) / 2 with hk
  have hv : matPinv γ S.rho S.c S.u d *ᵥ (gasVec W - gasVec S) =
      ![k, -k, (d 1 * (W.u 0 - S.u 0) - d 0 * (W.u 1 - S.u 1)), k] := by
    have g0 : (gasVec W - gasVec S) 0 = 0 := by
      show W.rho - S.rho = 0
      rw [hr, sub_self]
    have g1 : (gasVec W - gasVec S) 1 = S.rho * (W.u 0 - S.u 0) := by
      show W.rho_u 0 - S.rho_u 0 = _
      rw [hS.momentum, hW.momentum, hr]
      simp only [Pi.smul_apply, smul_eq_mul]
      ring
    have g2 : (gasVec W - gasVec S) 2 = S.rho * (W.u 1 - S.u 1) := by
      show W.rho_u 1 - S.rho_u 1 = _
      rw [hS.momentum, hW.momentum, hr]
      simp only [Pi.smul_apply, smul_eq_mul]
      ring
    have g3 : (gasVec W - gasVec S) 3 =
        S.rho * (W.u 0 ^ 2 + W.u 1 ^ 2 - S.u 0 ^ 2 - S.u 1 ^ 2) / 2 := by
      show W.rho_E - S.rho_E = _
      rw [eS, eW, hr, hp]
      simp only [dotProduct, Fin.sum_univ_two]
      ring
    have kk : k = (γ - 1) * S.rho * ((W.u 0 - S.u 0) ^ 2 + (W.u 1 - S.u 1) ^ 2) / 2 := by
      rw [hk]
      simp only [dotProduct, Fin.sum_univ_two, Pi.sub_apply]
      ring
    have r0 := hS.rho_pos.ne'
    funext i
    rw [mulVec, dotProduct, Fin.sum_univ_four, g0, g1, g2, g3, kk]
    fin_cases i <;> simp [matPinv, dotProduct, Fin.sum_univ_two]
    · linear_combination -S.c * S.rho * w0 + S.c * S.rho * u0
    · ring
    · field_simp
      ring
    · linear_combination S.c * S.rho * w0 - S.c * S.rho * u0
  have step : ∀ rs : Riemann, rs.sigma S.c S.u d 1 = 0 → ∃ f,
      convectiveNumericalFlux γ rs (gasVec W) (gasVec S) (conservativeDict S) d = .ok f ∧
      f 0 = k * (rs.sigma S.c S.u d 0 + rs.sigma S.c S.u d 3) / (2 * S.c ^ 2) := by
    intro rs h1
    obtain ⟨τ, h2, h3⟩ := C28_flux rs hS hd (gasVec W) (gasVec S)
    have h4 := rs.tau_eq (U := conservativeDict S) (d := d) hS.gamma rfl rfl rfl hS.rho_pos
      hS.sound_pos hd
    rw [h2] at h4
    refine ⟨_, h3, ?_⟩
    rw [Except.ok.inj h4, ← mulVec_mulVec, hv, euler_along hS hu, ← mulVec_mulVec]
    have e : diagonal (rs.sigma S.c S.u d) *ᵥ
        ![k, -k, (d 1 * (W.u 0 - S.u 0) - d 0 * (W.u 1 - S.u 1)), k] =
        ![rs.sigma S.c S.u d 0 * k, 0, rs.sigma S.c S.u d 2 *
          (d 1 * (W.u 0 - S.u 0) - d 0 * (W.u 1 - S.u 1)), rs.sigma S.c S.u d 3 * k] := by
      funext i
      rw [mulVec_diagonal]
      fin_cases i <;> simp [h1]
    rw [e]
    simp [mulVec, matP, dotProduct, Fin.sum_univ_four]
    ring
  constructor
  · obtain ⟨f, h1, h2⟩ := step .roe (by simp only [Riemann.sigma, lams]; simpa using hu)
    refine ⟨f, h1, ?_⟩
    rw [h2]
    have s0 : Riemann.roe.sigma S.c S.u d 0 = S.c := by
      show |S.u ⬝ᵥ d - S.c| = S.c
      rw [hu, zero_sub, abs_neg, abs_of_pos c0]
    have s3 : Riemann.roe.sigma S.c S.u d 3 = S.c := by
      show |S.u ⬝ᵥ d + S.c| = S.c
      rw [hu, zero_add, abs_of_pos c0]
    rw [s0, s3, hk]
    field_simp
    ring
  · obtain ⟨f, h1, h2⟩ := step .upwind (by
      show max (S.u ⬝ᵥ d) 0 = 0
      rw [hu, max_self])
    refine ⟨f, h1, ?_⟩
    rw [h2]
    have s0 : Riemann.upwind.sigma S.c S.u d 0 = 0 := by
      show max (S.u ⬝ᵥ d - S.c) 0 = 0
      rw [hu, zero_sub, max_eq_right (by linarith)]
    have s3 : Riemann.upwind.sigma S.c S.u d 3 = S.c := by
      show max (S.u ⬝ᵥ d + S.c) 0 = S.c
      rw [hu, zero_add, max_eq_left c0.le]
    rw [s0, s3, hk]
    field_simp
    ring

end Dream
