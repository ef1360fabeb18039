import Verif.Model.Dimensions
import Verif.Spec.Dimensions
import Verif.Props.Freestream
import Verif.Props.Forms
import Mathlib.Analysis.Calculus.Deriv.Prod
import Mathlib.Analysis.Calculus.Deriv.Inv
import Mathlib.Analysis.Calculus.FDeriv.Pi

/-!
# C83: one, two and three space dimensions
-/

noncomputable section

namespace Dream
open Matrix _root_.Spec

variable {n : ℕ} {γ : ℝ} {V B : Type} [Fintype V] [Fintype B]

/-! ### Splitting vectors of conservative variables -/

/-- Momentum components. -/
abbrev mom (w : Fin (n + 2) → ℝ) : Fin n → ℝ := fun i => w i.castSucc.succ

theorem consVec_parts (w : Fin (n + 2) → ℝ) :
    consVec (w 0) (mom w) (w (Fin.last (n + 1))) = w := by
  funext i
  refine Fin.cases rfl (fun j => ?_) i
  refine Fin.lastCases ?_ (fun k => ?_) j
  · simp [consVec]
  · simp [consVec]

@[simp] theorem consVec_zero (a : ℝ) (m : Fin n → ℝ) (e : ℝ) : consVec a m e 0 = a := rfl

@[simp] theorem consVec_mom (a : ℝ) (m : Fin n → ℝ) (e : ℝ) (i : Fin n) :
    consVec a m e i.castSucc.succ = m i := by simp [consVec]

@[simp] theorem consVec_last (a : ℝ) (m : Fin n → ℝ) (e : ℝ) :
    consVec a m e (Fin.last (n + 1)) = e := by
  rw [← Fin.succ_last]; simp [consVec]

theorem cons_ext {v w : Fin (n + 2) → ℝ} (h0 : v 0 = w 0)
    (hm : ∀ i : Fin n, v i.castSucc.succ = w i.castSucc.succ)
    (he : v (Fin.last (n + 1)) = w (Fin.last (n + 1))) : v = w := by
  funext i
  refine Fin.cases h0 (fun j => ?_) i
  refine Fin.lastCases ?_ (fun k => hm k) j
  rw [Fin.succ_last]; exact he

theorem eulerFlux_eq (γ : ℝ) (d : Fin n → ℝ) (ρ : ℝ) (m : Fin n → ℝ) (e : ℝ) :
    eulerFlux γ d ρ m e = consVec (m ⬝ᵥ d)
      (fun i => m i * (m ⬝ᵥ d) / ρ + (γ - 1) * (e - (m ⬝ᵥ m) / (2 * ρ)) * d i)
      ((e + (γ - 1) * (e - (m ⬝ᵥ m) / (2 * ρ))) * (m ⬝ᵥ d) / ρ) := rfl

theorem conservativeFields_gas {S : GasState n} (hS : IdealGas γ S) :
    conservativeFields γ (consVec S.rho S.rho_u S.rho_E) = .ok (conservativeDict S) := by
  simp only [conservativeFields, consVec_zero, consVec_mom, consVec_last]
  exact C24_fields hS

/-! ### The derivative of the flux -/

/-- The derivative of the normal flux at density `ρ`, momentum `m` and energy `e`, applied to a
perturbation. -/
def fluxDeriv (γ : ℝ) (d : Fin n → ℝ) (w v : Fin (n + 2) → ℝ) : Fin (n + 2) → ℝ :=
  let ρ := w 0; let m := mom w; let e := w (Fin.last (n + 1))
  let a := v 0; let b := mom v; let f := v (Fin.last (n + 1))
  let p := (γ - 1) * (e - (m ⬝ᵥ m) / (2 * ρ))
  let p' := (γ - 1) * (f - (m ⬝ᵥ b) / ρ + (m ⬝ᵥ m) * a / (2 * ρ ^ 2))
  consVec (b ⬝ᵥ d)
    (fun i => b i * (m ⬝ᵥ d) / ρ + m i * (b ⬝ᵥ d) / ρ - m i * (m ⬝ᵥ d) * a / ρ ^ 2 + p' * d i)
    ((f + p') * (m ⬝ᵥ d) / ρ + (e + p) * (b ⬝ᵥ d) / ρ - (e + p) * (m ⬝ᵥ d) * a / ρ ^ 2)

theorem flux_line (γ : ℝ) (d : Fin n → ℝ) (w v : Fin (n + 2) → ℝ) (h0 : w 0 ≠ 0) :
    HasDerivAt (fun t : ℝ => eulerFluxOf γ d (w + t • v)) (fluxDeriv γ d w v) 0 := by
  have hk (k : Fin (n + 2)) : HasDerivAt (fun t : ℝ => (w + t • v) k) (v k) 0 := by
    simpa using ((hasDerivAt_id (0 : ℝ)).mul_const (v k)).const_add (w k)
  have h01 : (w + (0 : ℝ) • v) 0 ≠ 0 := by simpa using h0
  have h00 : (2 : ℝ) * (w + (0 : ℝ) • v) 0 ≠ 0 := by simpa using h0
  have hmd : HasDerivAt (fun t : ℝ => mom (w + t • v) ⬝ᵥ d) (mom v ⬝ᵥ d) 0 := by
    simp only [dotProduct]
    exact HasDerivAt.fun_sum fun i _ => (hk i.castSucc.succ).mul_const (d i)
  have hmm : HasDerivAt (fun t : ℝ => mom (w + t • v) ⬝ᵥ mom (w + t • v))
      (2 * (mom w ⬝ᵥ mom v)) 0 := by
    simp only [dotProduct]
    refine (HasDerivAt.fun_sum fun i _ =>
      (hk (Fin.castSucc i).succ).mul (hk (Fin.castSucc i).succ)).congr_deriv ?_
    rw [Finset.mul_sum]
    refine Finset.sum_congr rfl fun i _ => ?_
    simp; ring
  have hp := ((hk (Fin.last (n + 1))).sub (hmm.div ((hk 0).const_mul 2) h00)).const_mul (γ - 1)
  rw [hasDerivAt_pi]
  intro i
  refine Fin.cases ?_ (fun j => ?_) i
  · simp only [eulerFluxOf, eulerFlux_eq, consVec_zero, fluxDeriv]
    exact hmd
  · refine Fin.lastCases ?_ (fun k => ?_) j
    · rw [Fin.succ_last]
      simp only [eulerFluxOf, eulerFlux_eq, consVec_last, fluxDeriv]
      refine HasDerivAt.congr_deriv ((((hk (Fin.last (n + 1))).add hp).mul hmd).div (hk 0) h01) ?_
      simp
      field_simp
      ring
    · simp only [eulerFluxOf, eulerFlux_eq, consVec_mom, fluxDeriv]
      refine HasDerivAt.congr_deriv
        ((((hk k.castSucc.succ).mul hmd).div (hk 0) h01).add (hp.mul_const (d k))) ?_
      simp
      field_simp
      ring

theorem flux_differentiable (γ : ℝ) (d : Fin n → ℝ) (w : Fin (n + 2) → ℝ) (h0 : w 0 ≠ 0) :
    DifferentiableAt ℝ (eulerFluxOf γ d) w := by
  have h2 : 2 * w 0 ≠ 0 := by simpa using h0
  have hmd : DifferentiableAt ℝ (fun w : Fin (n + 2) → ℝ => mom w ⬝ᵥ d) w := by
    simp only [dotProduct]; fun_prop
  have hmm : DifferentiableAt ℝ (fun w : Fin (n + 2) → ℝ => mom w ⬝ᵥ mom w) w := by
    simp only [dotProduct]; fun_prop
  rw [differentiableAt_pi]
  intro i
  refine Fin.cases ?_ (fun j => ?_) i
  · simp only [eulerFluxOf, eulerFlux_eq, consVec_zero]
    exact hmd
  · refine Fin.lastCases ?_ (fun k => ?_) j
    · rw [Fin.succ_last]
      simp only [eulerFluxOf, eulerFlux_eq, consVec_last]
      fun_prop (disch := assumption)
    · simp only [eulerFluxOf, eulerFlux_eq, consVec_mom]
      fun_prop (disch := assumption)

/-- The derivative as a linear map. -/
theorem flux_fderiv (γ : ℝ) (d : Fin n → ℝ) (w : Fin (n + 2) → ℝ) (h0 : w 0 ≠ 0) :
    ∃ A : (Fin (n + 2) → ℝ) →L[ℝ] (Fin (n + 2) → ℝ), HasFDerivAt (eulerFluxOf γ d) A w ∧
      ∀ v, A v = fluxDeriv γ d w v := by
  have hD := (flux_differentiable γ d w h0).hasFDerivAt
  refine ⟨_, hD, fun v => ?_⟩
  have h1 := flux_line γ d w v h0
  have hD' : HasFDerivAt (eulerFluxOf γ d) (fderiv ℝ (eulerFluxOf γ d) w) (w + (0 : ℝ) • v) := by
    simpa using hD
  have hl : HasDerivAt (fun t : ℝ => w + t • v) v 0 := by
    simpa using ((hasDerivAt_id (0 : ℝ)).smul_const v).const_add w
  have h2 := hD'.comp_hasDerivAt (0 : ℝ) hl
  exact h2.unique h1

/-- A perturbation of a gas state, given by those of density, momentum relative to the flow, and
pressure. -/
def wave (γ : ℝ) (u : Fin n → ℝ) (a : ℝ) (β : Fin n → ℝ) (π : ℝ) : Fin (n + 2) → ℝ :=
  consVec a (a • u + β) (π / (γ - 1) + (u ⬝ᵥ u) * a / 2 + u ⬝ᵥ β)

theorem wave_surj (hγ : 1 < γ) (u : Fin n → ℝ) (v : Fin (n + 2) → ℝ) :
    ∃ a β π, v = wave γ u a β π := by
  have g : γ - 1 ≠ 0 := by linarith
  refine ⟨v 0, mom v - v 0 • u, (γ - 1) * (v (Fin.last (n + 1)) - u ⬝ᵥ mom v
    + (u ⬝ᵥ u) * v 0 / 2), ?_⟩
  refine cons_ext (by simp [wave]) (fun i => by simp [wave]) ?_
  simp only [wave, consVec_last, dotProduct_sub, dotProduct_smul, smul_eq_mul]
  field_simp
  ring

theorem wave_inj (hγ : 1 < γ) {u : Fin n → ℝ} {a a' : ℝ} {β β' : Fin n → ℝ} {π π' : ℝ}
    (h : wave γ u a β π = wave γ u a' β' π') : a = a' ∧ β = β' ∧ π = π' := by
  have g : γ - 1 ≠ 0 := by linarith
  obtain ⟨rfl, h2, h3⟩ := consVec_inj.1 h
  have hβ : β = β' := by simpa using h2
  subst hβ
  refine ⟨rfl, rfl, ?_⟩
  have h4 : π / (γ - 1) = π' / (γ - 1) := by linarith
  field_simp at h4
  exact h4

theorem wave_smul (u : Fin n → ℝ) (s a : ℝ) (β : Fin n → ℝ) (π : ℝ) :
    s • wave γ u a β π = wave γ u (s * a) (s • β) (s * π) := by
  refine cons_ext ?_ (fun i => ?_) ?_
  · simp [wave]
  · simp [wave]; ring
  · simp [wave]; ring

theorem wave_add (u : Fin n → ℝ) (a a' : ℝ) (β β' : Fin n → ℝ) (π π' : ℝ) :
    wave γ u a β π + wave γ u a' β' π' = wave γ u (a + a') (β + β') (π + π') := by
  refine cons_ext ?_ (fun i => ?_) ?_
  · simp [wave]
  · simp [wave]; ring
  · simp [wave]; ring

/-- How waves are transported by the flow. -/
theorem fluxDeriv_wave {S : GasState n} (hS : IdealGas γ S) (d : Fin n → ℝ) (a : ℝ)
    (β : Fin n → ℝ) (π : ℝ) :
    fluxDeriv γ d (consVec S.rho S.rho_u S.rho_E) (wave γ S.u a β π)
      = wave γ S.u ((S.u ⬝ᵥ d) * a + β ⬝ᵥ d) ((S.u ⬝ᵥ d) • β + π • d)
          ((S.u ⬝ᵥ d) * π + S.c ^ 2 * (β ⬝ᵥ d)) := by
  have r0 := hS.rho_pos.ne'
  have hg := hS.gamma
  have g : γ - 1 ≠ 0 := by linarith
  have g' : γ ≠ 0 := by linarith
  have hm : mom (consVec S.rho S.rho_u S.rho_E) = S.rho • S.u := by
    funext i; simp [mom, hS.momentum]
  have hb : mom (wave γ S.u a β π) = a • S.u + β := by funext i; simp [mom, wave]
  have hE : S.rho_E = S.rho * (S.Ei + (S.u ⬝ᵥ S.u) / 2) := by
    rw [hS.rho_E, hS.total, hS.kinetic]
  have hc : S.c ^ 2 = γ * (γ - 1) * S.Ei := by
    rw [hS.sound, hS.gas_law, hS.caloric]; field_simp
  have hud : d ⬝ᵥ S.u = S.u ⬝ᵥ d := dotProduct_comm _ _
  unfold fluxDeriv
  simp only [hm, hb, consVec_zero, consVec_last, smul_dotProduct, dotProduct_smul, add_dotProduct,
    dotProduct_add, smul_eq_mul]
  have h0 : wave γ S.u a β π 0 = a := rfl
  have hl : wave γ S.u a β π (Fin.last (n + 1))
      = π / (γ - 1) + (S.u ⬝ᵥ S.u) * a / 2 + S.u ⬝ᵥ β := by simp [wave]
  refine cons_ext ?_ (fun i => ?_) ?_
  · simp [wave]; ring
  · simp only [consVec_mom, wave, h0, hl, Pi.add_apply, Pi.smul_apply, smul_eq_mul, consVec_zero,
      consVec_last]
    have hmi : S.rho_u i = S.rho * S.u i := by rw [hS.momentum]; rfl
    rw [hmi]
    generalize S.u ⬝ᵥ d = x
    generalize β ⬝ᵥ d = y
    generalize S.u ⬝ᵥ S.u = z
    generalize S.u ⬝ᵥ β = k
    field_simp
    ring
  · simp only [wave, h0, hl, consVec_last, consVec_zero, dotProduct_add, dotProduct_smul,
      smul_eq_mul, hE, hc]
    generalize S.u ⬝ᵥ d = x
    generalize β ⬝ᵥ d = y
    generalize S.u ⬝ᵥ S.u = z
    generalize S.u ⬝ᵥ β = k
    field_simp
    ring

/-! ### Signal speeds -/

theorem wave_deriv {S : GasState n} (hS : IdealGas γ S) (d : Fin n → ℝ)
    {A : (Fin (n + 2) → ℝ) →L[ℝ] (Fin (n + 2) → ℝ)}
    (hA : ∀ v, A v = fluxDeriv γ d (consVec S.rho S.rho_u S.rho_E) v) (a : ℝ) (β : Fin n → ℝ)
    (π : ℝ) : A (wave γ S.u a β π) = wave γ S.u ((S.u ⬝ᵥ d) * a + β ⬝ᵥ d)
      ((S.u ⬝ᵥ d) • β + π • d) ((S.u ⬝ᵥ d) * π + S.c ^ 2 * (β ⬝ᵥ d)) := by
  rw [hA, fluxDeriv_wave hS]

theorem acoustic_eigen {S : GasState n} (hS : IdealGas γ S) {d : Fin n → ℝ} (hd : d ⬝ᵥ d = 1)
    {A : (Fin (n + 2) → ℝ) →L[ℝ] (Fin (n + 2) → ℝ)}
    (hA : ∀ v, A v = fluxDeriv γ d (consVec S.rho S.rho_u S.rho_E) v) (σ k : ℝ)
    (hσ : σ ^ 2 = S.c ^ 2) :
    A (wave γ S.u k ((σ * k) • d) (S.c ^ 2 * k))
      = (S.u ⬝ᵥ d + σ) • wave γ S.u k ((σ * k) • d) (S.c ^ 2 * k) := by
  rw [wave_deriv hS d hA, wave_smul]
  congr 1
  · rw [smul_dotProduct, hd, smul_eq_mul]; ring
  · rw [smul_smul, smul_smul, ← add_smul]
    congr 1
    rw [← hσ]; ring
  · rw [smul_dotProduct, hd, smul_eq_mul, ← hσ]; ring

/-- **C83** In every dimension the Euler equations transport perturbations of a gas state, across a
face with unit normal `d`, with the speeds `uₙ - c`, `uₙ`, `uₙ + c` and no others; every
perturbation is a sum of three that travel with these speeds. -/
theorem C83_signal_speeds {S : GasState n} (hS : IdealGas γ S) {d : Fin n → ℝ} (hd : d ⬝ᵥ d = 1) :
    ∃ A, HasFDerivAt (eulerFluxOf γ d) A (consVec S.rho S.rho_u S.rho_E) ∧
      (∀ μ, IsSpeed A μ ↔ μ = S.u ⬝ᵥ d - S.c ∨ μ = S.u ⬝ᵥ d ∨ μ = S.u ⬝ᵥ d + S.c) ∧
      ∀ v, ∃ v₁ v₂ v₃, v = v₁ + v₂ + v₃ ∧ A v₁ = (S.u ⬝ᵥ d - S.c) • v₁ ∧
        A v₂ = (S.u ⬝ᵥ d) • v₂ ∧ A v₃ = (S.u ⬝ᵥ d + S.c) • v₃ := by
  obtain ⟨A, hA, hAv⟩ := flux_fderiv γ d (consVec S.rho S.rho_u S.rho_E)
    (by simpa using hS.rho_pos.ne')
  have c0 := hS.sound_pos
  have hw0 : ∀ β π, wave γ S.u 1 β π ≠ 0 := by
    intro β π h
    have := congrFun h 0
    simp [wave] at this
  refine ⟨A, hA, fun μ => ⟨?_, ?_⟩, fun v => ?_⟩
  · rintro ⟨v, hv, e⟩
    obtain ⟨a, β, π, rfl⟩ := wave_surj hS.gamma S.u v
    rw [wave_deriv hS d hAv, wave_smul] at e
    obtain ⟨e1, e2, e3⟩ := wave_inj hS.gamma e
    have e4 : (S.u ⬝ᵥ d) * (β ⬝ᵥ d) + π = μ * (β ⬝ᵥ d) := by
      have := congrArg (· ⬝ᵥ d) e2
      simpa [add_dotProduct, smul_dotProduct, hd] using this
    by_contra hμ
    push Not at hμ
    obtain ⟨h1, h2, h3⟩ := hμ
    have hs : μ - S.u ⬝ᵥ d ≠ 0 := sub_ne_zero.2 h2
    have hq : β ⬝ᵥ d = 0 := by
      have : (β ⬝ᵥ d) * ((μ - S.u ⬝ᵥ d - S.c) * (μ - S.u ⬝ᵥ d + S.c)) = 0 := by
        linear_combination (μ - S.u ⬝ᵥ d) * (-e4) - e3
      rcases mul_eq_zero.1 this with h | h
      · exact h
      · rcases mul_eq_zero.1 h with h | h
        · exact absurd (by linarith) h3
        · exact absurd (by linarith) h1
    have hπ : π = 0 := by rw [hq] at e4; linarith
    have ha : a = 0 := by
      have : (μ - S.u ⬝ᵥ d) * a = 0 := by rw [hq] at e1; linarith
      exact (mul_eq_zero.1 this).resolve_left hs
    have hβ : β = 0 := by
      have : (μ - S.u ⬝ᵥ d) • β = 0 := by
        rw [sub_smul, ← e2, hπ, zero_smul, add_zero, sub_self]
      exact (smul_eq_zero.1 this).resolve_left hs
    apply hv
    rw [ha, hπ, hβ]
    refine cons_ext ?_ (fun i => ?_) ?_ <;> simp [wave]
  · rintro (rfl | rfl | rfl)
    · exact ⟨_, hw0 _ _, by
        simpa [sub_eq_add_neg] using acoustic_eigen hS hd hAv (-S.c) 1 (by ring)⟩
    · refine ⟨wave γ S.u 1 0 0, hw0 _ _, ?_⟩
      rw [wave_deriv hS d hAv, wave_smul]
      simp
    · exact ⟨_, hw0 _ _, acoustic_eigen hS hd hAv S.c 1 rfl⟩
  · obtain ⟨a, β, π, rfl⟩ := wave_surj hS.gamma S.u v
    set q := β ⬝ᵥ d
    refine ⟨wave γ S.u ((π / S.c ^ 2 - q / S.c) / 2)
        ((-S.c * ((π / S.c ^ 2 - q / S.c) / 2)) • d) (S.c ^ 2 * ((π / S.c ^ 2 - q / S.c) / 2)),
      wave γ S.u (a - π / S.c ^ 2) (β - q • d) 0,
      wave γ S.u ((π / S.c ^ 2 + q / S.c) / 2)
        ((S.c * ((π / S.c ^ 2 + q / S.c) / 2)) • d) (S.c ^ 2 * ((π / S.c ^ 2 + q / S.c) / 2)),
      ?_, ?_, ?_, ?_⟩
    · rw [wave_add, wave_add]
      congr 1
      · ring
      · rw [add_right_comm, ← add_smul, ← add_sub_assoc, add_comm _ β, add_sub_assoc, ← sub_smul]
        rw [show -S.c * ((π / S.c ^ 2 - q / S.c) / 2) + S.c * ((π / S.c ^ 2 + q / S.c) / 2) - q
          = 0 by field_simp; ring]
        simp
      · field_simp; ring
    · simpa [sub_eq_add_neg] using acoustic_eigen hS hd hAv (-S.c) _ (by ring)
    · rw [wave_deriv hS d hAv, wave_smul]
      have : (β - q • d) ⬝ᵥ d = 0 := by
        rw [sub_dotProduct, smul_dotProduct, hd]; simp [q]
      rw [this]
      simp
    · exact acoustic_eigen hS hd hAv S.c _ rfl

/-- **C83** Lax–Friedrichs and HLL work in every dimension: the numerical flux is the Euler flux of
the facet state plus a multiple of the jump, where the factor is for Lax–Friedrichs the largest
signal speed in either direction, and for HLL the largest outgoing signal speed (zero if all
signals come in). -/
theorem C83_numerical_flux {S : GasState n} (hS : IdealGas γ S) {d : Fin n → ℝ}
    (hd : d ⬝ᵥ d = 1) (w w' : Fin (n + 2) → ℝ) :
    ∃ A l h, HasFDerivAt (eulerFluxOf γ d) A (consVec S.rho S.rho_u S.rho_E) ∧
      IsGreatest {x | ∃ μ, IsSpeed A μ ∧ x = |μ|} l ∧
      IsGreatest {x | x = 0 ∨ IsSpeed A x} h ∧
      convectiveNumericalFlux γ .laxFriedrich w w' (conservativeDict S) d
        = .ok (eulerFlux γ d S.rho S.rho_u S.rho_E + l • (w - w')) ∧
      convectiveNumericalFlux γ .hll w w' (conservativeDict S) d
        = .ok (eulerFlux γ d S.rho S.rho_u S.rho_E + h • (w - w')) := by
  obtain ⟨A, hA, hs, -⟩ := C83_signal_speeds hS hd
  have c0 := hS.sound_pos
  obtain ⟨F, hF, hFd⟩ := C26_flux_conservative hS d
  obtain ⟨t1, t2⟩ := C28_lax_friedrich_hll (U := conservativeDict S) (u := S.u) (c := S.c)
    (γ := γ) d (by simp [velocity, conservativeDict, equation, equationE])
    (by simp [speedOfSound, EOS.speedOfSound, conservativeDict, equation, equationE])
  refine ⟨A, |S.u ⬝ᵥ d| + S.c, max (S.u ⬝ᵥ d + S.c) 0, hA, ⟨?_, ?_⟩, ⟨?_, ?_⟩, ?_, ?_⟩
  · rcases le_total 0 (S.u ⬝ᵥ d) with h | h
    · refine ⟨S.u ⬝ᵥ d + S.c, (hs _).2 (.inr (.inr rfl)), ?_⟩
      rw [abs_of_nonneg h, abs_of_nonneg (by linarith)]
    · refine ⟨S.u ⬝ᵥ d - S.c, (hs _).2 (.inl rfl), ?_⟩
      rw [abs_of_nonpos h, abs_of_nonpos (by linarith)]; ring
  · rintro x ⟨μ, hμ, rfl⟩
    have h1 := neg_abs_le (S.u ⬝ᵥ d)
    have h2 := le_abs_self (S.u ⬝ᵥ d)
    rw [abs_le]
    rcases (hs _).1 hμ with rfl | rfl | rfl <;> constructor <;> linarith
  · rcases le_total 0 (S.u ⬝ᵥ d + S.c) with h | h
    · right; rw [max_eq_left h]; exact (hs _).2 (.inr (.inr rfl))
    · left; rw [max_eq_right h]
  · rintro x (rfl | hx)
    · exact le_max_right _ _
    · refine le_max_of_le_left ?_
      rcases (hs _).1 hx with rfl | rfl | rfl <;> linarith
  · simp [convectiveNumericalFlux, t1, hF, hFd, bind, Except.bind, smul_mulVec]
  · simp [convectiveNumericalFlux, t2, hF, hFd, bind, Except.bind, smul_mulVec]

/-- The Riemann solvers that work in every dimension. -/
def Riemann.AnyDim (rs : Riemann) : Prop := rs = .laxFriedrich ∨ rs = .hll

/-- Lax–Friedrichs: `|uₙ| + c`, HLL: `max(uₙ + c, 0)`. -/
def Riemann.speed (rs : Riemann) (un c : ℝ) : ℝ :=
  match rs with
  | .hll => max (un + c) 0
  | _ => |un| + c

theorem anyDim_flux_eq {rs : Riemann} (hrs : rs.AnyDim) {S : GasState n} (hS : IdealGas γ S)
    (d : Fin n → ℝ) (w w' : Fin (n + 2) → ℝ) :
    convectiveNumericalFlux γ rs w w' (conservativeDict S) d
      = .ok (eulerFlux γ d S.rho S.rho_u S.rho_E + rs.speed (S.u ⬝ᵥ d) S.c • (w - w')) := by
  obtain ⟨F, hF, hFd⟩ := C26_flux_conservative hS d
  obtain ⟨t1, t2⟩ := C28_lax_friedrich_hll (U := conservativeDict S) (u := S.u) (c := S.c)
    (γ := γ) d (by simp [velocity, conservativeDict, equation, equationE])
    (by simp [speedOfSound, EOS.speedOfSound, conservativeDict, equation, equationE])
  rcases hrs with rfl | rfl
  · simp [convectiveNumericalFlux, t1, hF, hFd, bind, Except.bind, smul_mulVec, Riemann.speed]
  · simp [convectiveNumericalFlux, t2, hF, hFd, bind, Except.bind, smul_mulVec, Riemann.speed]

theorem anyDim_flux {rs : Riemann} (hrs : rs.AnyDim) {S : GasState n} (hS : IdealGas γ S)
    (d : Fin n → ℝ) : ∃ l, ∀ w w', convectiveNumericalFlux γ rs w w' (conservativeDict S) d
      = .ok (eulerFlux γ d S.rho S.rho_u S.rho_E + l • (w - w')) ∧
      (S.u ⬝ᵥ d = 0 → l = S.c) := by
  refine ⟨_, fun w w' => ⟨anyDim_flux_eq hrs hS d w w', fun h => ?_⟩⟩
  rcases hrs with rfl | rfl
  · simp [Riemann.speed, h]
  · simp [Riemann.speed, h, hS.sound_pos.le]

theorem pressure_of_cons {S : GasState n} (hS : IdealGas γ S) :
    (γ - 1) * (S.rho_E - (S.rho_u ⬝ᵥ S.rho_u) / (2 * S.rho)) = S.p := by
  rw [hS.gas_law, hS.caloric, hS.rho_E, hS.total, hS.kinetic, hS.momentum]
  have := hS.rho_pos
  have hg := hS.gamma
  simp only [smul_dotProduct, dotProduct_smul, smul_eq_mul]
  field_simp
  ring

theorem eulerFlux_gas {S : GasState n} (hS : IdealGas γ S) (d : Fin n → ℝ) :
    eulerFlux γ d S.rho S.rho_u S.rho_E = consVec (S.rho_u ⬝ᵥ d)
      ((S.rho_u ⬝ᵥ d / S.rho) • S.rho_u + S.p • d)
      ((S.rho_E + S.p) * (S.rho_u ⬝ᵥ d) / S.rho) := by
  rw [eulerFlux_eq, pressure_of_cons hS]
  congr 1
  funext i
  simp
  ring

/-! ### Walls and containers -/

/-- **C83** Inviscid walls and symmetry planes are impermeable in every dimension: with
Lax–Friedrichs or HLL, if the trace satisfies the wall condition the numerical flux is a force in
normal direction only, the pressure at the wall plus `ρ c uₙ`. -/
theorem C83_wall {rs : Riemann} (hrs : rs.AnyDim) {S : GasState n} (hS : IdealGas γ S)
    {d : Fin n → ℝ} (hd : d ⬝ᵥ d = 1) {wHat : Fin (n + 2) → ℝ}
    (hw : inviscidWallResidual γ d (conservativeDict S) wHat = .ok 0) :
    ∃ UHat f, conservativeFields γ wHat = .ok UHat ∧
      convectiveNumericalFlux γ rs (consVec S.rho S.rho_u S.rho_E) wHat UHat d = .ok f ∧
      ∃ W : GasState n, IdealGas γ W ∧ consVec W.rho W.rho_u W.rho_E = wHat ∧
        f = consVec 0 ((W.p + W.c * (S.rho_u ⬝ᵥ d)) • d) 0 := by
  have hE : 0 < S.Ei := by
    have h1 := hS.T_pos
    rw [hS.caloric] at h1
    have h2 := hS.gamma
    by_contra hn
    nlinarith
  obtain ⟨W, hWdef⟩ : ∃ W, W = GasState.of γ S.rho (S.u - (S.u ⬝ᵥ d) • d)
    (S.Ei + (S.u ⬝ᵥ d) ^ 2 / 2) := ⟨_, rfl⟩
  have hW : IdealGas γ W := by
    rw [hWdef]; exact IdealGas.of hS.gamma hS.rho_pos (by positivity)
  have hr : W.rho = S.rho := by rw [hWdef]; rfl
  have hu : W.u = S.u - (S.u ⬝ᵥ d) • d := by rw [hWdef]; rfl
  have hud : W.u ⬝ᵥ d = 0 := by
    rw [hu, sub_dotProduct, smul_dotProduct, hd]; simp
  have hm : W.rho_u = S.rho_u - (S.rho_u ⬝ᵥ d) • d := by
    rw [hW.momentum, hr, hu, hS.momentum, smul_sub, smul_dotProduct, smul_smul, smul_eq_mul]
  have hmd : W.rho_u ⬝ᵥ d = 0 := by rw [hW.momentum, smul_dotProduct, hud, smul_zero]
  have he : W.rho_E = S.rho_E := by
    rw [hS.rho_E, hS.total, hS.kinetic, hWdef]
    simp only [GasState.of, sub_dotProduct, dotProduct_sub, smul_dotProduct, dotProduct_smul,
      smul_eq_mul, hd, dotProduct_comm d S.u]
    ring
  obtain ⟨h1, h2, h3⟩ := dictState γ S
  simp only [inviscidWallResidual, h1, h2, h3, bind, Except.bind, Except.ok.injEq] at hw
  have e : consVec W.rho W.rho_u W.rho_E = wHat := by
    rw [sub_eq_zero.1 hw, hr, hm, he]
  obtain ⟨l, hl⟩ := anyDim_flux hrs hW d
  obtain ⟨hf, hlc⟩ := hl (consVec S.rho S.rho_u S.rho_E) wHat
  refine ⟨_, _, by rw [← e]; exact conservativeFields_gas hW, hf, W, hW, e, ?_⟩
  rw [hlc hud, eulerFlux_gas hW, hmd, ← e, hr, hm, he]
  refine cons_ext ?_ (fun i => ?_) ?_
  · simp
  · simp; ring
  · simp

/-- The point lies on an inviscid wall or symmetry plane. -/
def AtWallIn (γ : ℝ) (rs : Riemann) (d : Fin n → ℝ) (f : Fin (n + 2) → ℝ) : Prop :=
  ∃ (S : GasState n) (wHat : Fin (n + 2) → ℝ) (UHat : Flow n), IdealGas γ S ∧
    inviscidWallResidual γ d (conservativeDict S) wHat = .ok 0 ∧
    conservativeFields γ wHat = .ok UHat ∧
    convectiveNumericalFlux γ rs (consVec S.rho S.rho_u S.rho_E) wHat UHat d = .ok f

/-- **C83** A gas in a container in any dimension: with walls, symmetry planes, periodic boundaries
or boundaries without condition, and Lax–Friedrichs or HLL, mass and energy are the same after
every step of a transient run. -/
theorem C83_container {rs : Riemann} (hrs : rs.AnyDim) (M : HdgMesh n V B)
    (hn : ∀ b, M.normal b ⬝ᵥ M.normal b = 1) (bcs : Conditions) (hC : bcs.regions.Nodup)
    (T : Set (HdgTest n (n + 2) V B)) (hT : HasConstants (M.mask bcs) T) (s : Scheme) (dt : ℝ)
    (hdt : dt ≠ 0) (ts : List ℚ) (x0 : HdgState n (n + 2) V B)
    (xs : List (HdgState n (n + 2) V B))
    (hR : ∀ x ∈ xs, ∀ b, M.mask bcs b = 1 → x.R b = 0)
    (hG : ∀ x ∈ xs, ∀ b, x.Gn b = 0) (hsrc : ∀ x ∈ xs, ∀ v, x.source v = 0)
    (hwall : ∀ x ∈ xs, ∀ b, M.mask bcs b = 0 → AtWallIn γ rs (M.normal b) (x.Fn b))
    (h : Satisfies (hdgStep M (M.mask bcs) T (s.quotient dt)) x0 x0 ts xs) :
    ∀ x ∈ xs, x.total M 0 = x0.total M 0 ∧
      x.total M (Fin.last (n + 1)) = x0.total M (Fin.last (n + 1)) := by
  have hmask : ∀ b, M.mask bcs b = 0 ∨ M.mask bcs b = 1 := fun b => (C68_mask M bcs hC b).1
  have hfl : ∀ x ∈ xs, ∀ b, M.mask bcs b = 0 →
      x.Fn b 0 = 0 ∧ x.Fn b (Fin.last (n + 1)) = 0 := by
    intro x hx b hb
    obtain ⟨S, wHat, UHat, hS, hw, hU, hf⟩ := hwall x hx b hb
    obtain ⟨UHat', f, hU', hf', W, -, -, e⟩ := C83_wall hrs hS (hn b) hw
    rw [hU] at hU'
    cases hU'
    rw [hf] at hf'
    cases hf'
    rw [e]
    exact ⟨by simp, by simp⟩
  have hl : ∀ i : Fin (n + 2), (i = 0 ∨ i = Fin.last (n + 1)) → ∀ x ∈ xs,
      x.loss M (M.mask bcs) i = 0 := by
    intro i hi x hx
    rw [HdgState.loss]
    have e1 : (∑ b, if M.mask bcs b = 0 then M.wB b * (x.Fn b i - x.Gn b i) else 0) = 0 := by
      apply Finset.sum_eq_zero
      intro b _
      split_ifs with hb
      · rw [hG x hx b]
        rcases hi with rfl | rfl
        · simp [(hfl x hx b hb).1]
        · simp [(hfl x hx b hb).2]
      · rfl
    rw [e1, zero_add]
    exact Finset.sum_eq_zero fun v _ => by simp [hsrc x hx v]
  intro x hx
  exact ⟨C66_closed M _ hmask T hT s dt hdt ts x0 xs hR h _ (hl _ (.inl rfl)) x hx,
    C66_closed M _ hmask T hT s dt hdt ts x0 xs hR h _ (hl _ (.inr rfl)) x hx⟩

/-! ### Uniform flow -/

/-- `R` is the residual, at the uniform state `S`, of a boundary condition that prescribes this
state and exists in every dimension: an outflow at the pressure of `S`, a wall or symmetry plane
along which the gas flows, an isothermal wall of the right temperature with the gas at rest; or
there is no term. -/
inductive MatchingIn (γ : ℝ) (S : GasState n) (d : Fin n → ℝ) : (Fin (n + 2) → ℝ) → Prop
  | nothing : MatchingIn γ S d 0
  | outflow {R} {bc : Flow n} (hp : bc.p = some S.p)
      (h : outflowResidual γ bc (conservativeDict S) (consVec S.rho S.rho_u S.rho_E) = .ok R) :
      MatchingIn γ S d R
  | wall {R} (hu : S.u ⬝ᵥ d = 0)
      (h : inviscidWallResidual γ d (conservativeDict S) (consVec S.rho S.rho_u S.rho_E)
        = .ok R) : MatchingIn γ S d R
  | isothermal {R} {bc : Flow n} (hu : S.u = 0) (hT : bc.T = some S.T)
      (h : isothermalWallResidual γ bc (conservativeDict S) (consVec S.rho S.rho_u S.rho_E)
        = .ok R) : MatchingIn γ S d R

theorem MatchingIn.zero {S : GasState n} (hS : IdealGas γ S) {d : Fin n → ℝ} (hd : d ⬝ᵥ d = 1)
    {R : Fin (n + 2) → ℝ} (h : MatchingIn γ S d R) : R = 0 := by
  cases h with
  | nothing => rfl
  | outflow hp h =>
    obtain ⟨R', h1, h2⟩ := C33_outflow hS hp hS.p_pos S.rho S.rho_E S.rho_u
    rw [h1] at h
    cases h
    exact h2.2 ⟨S, hS, rfl, rfl, rfl, rfl, rfl, rfl⟩
  | wall hu h =>
    obtain ⟨R', h1, h2⟩ := C33_inviscid_wall (γ := γ) (S := S) hd S.rho S.rho_E S.rho_u
    rw [h1] at h
    cases h
    refine h2.2 ⟨rfl, rfl, ?_, fun _ _ => rfl⟩
    rw [hS.momentum, smul_dotProduct, hu, smul_zero]
  | isothermal hu hT h =>
    obtain ⟨R', h1, h2⟩ := C33_isothermal_wall hS hT hS.T_pos S.rho S.rho_E S.rho_u
    rw [h1] at h
    cases h
    exact h2.2 ⟨S, hS, rfl, rfl, rfl, rfl, hu, rfl⟩

/-- **C83** Uniform flow is preserved in every dimension, with Lax–Friedrichs or HLL, both schemes
and every time step: the constant sequence satisfies the discrete equations at every step. -/
theorem C83_uniform {rs : Riemann} (hrs : rs.AnyDim) {S : GasState n} (hS : IdealGas γ S)
    (M : HdgMesh n V B) (hn : ∀ b, M.normal b ⬝ᵥ M.normal b = 1) (mask : B → ℝ)
    (T : Set (HdgTest n (n + 2) V B)) (hG : Gauss M mask T) (s : Scheme) (dt : ℝ) (ts : List ℚ)
    (x : HdgState n (n + 2) V B) (hU : ∀ v, x.U v = consVec S.rho S.rho_u S.rho_E)
    (hx : x.IsEulerIn γ rs M (fun _ => consVec S.rho S.rho_u S.rho_E)
      (fun _ => consVec S.rho S.rho_u S.rho_E))
    (hR : ∀ b, MatchingIn γ S (M.normal b) (x.R b))
    (σ : V → ℝ) (hσ : ∀ v, spongeResidual γ (σ v) (conservativeDict S) (x.U v)
      = .ok (x.source v)) :
    Satisfies (hdgStep M mask T (s.quotient dt)) x x ts (List.replicate ts.length x) := by
  have key : ∀ t, hdgStep M mask T (s.quotient dt) t x x x := by
    intro t
    obtain ⟨A, hA⟩ : ∃ A, convectiveFlux γ (conservativeDict S) = .ok A :=
      (C26_flux_conservative hS 0).imp fun _ h => h.1
    have hF' : x.F = fun _ => A := by
      funext v
      obtain ⟨Uf, h1, h2⟩ := hx.flux v
      rw [hU v, conservativeFields_gas hS] at h1
      cases h1
      rw [hA] at h2
      exact (Except.ok.inj h2).symm
    have hFn' : x.Fn = fun b => A *ᵥ M.normal b := by
      funext b
      obtain ⟨Uf, h0, h1⟩ := hx.numerical b
      rw [conservativeFields_gas hS] at h0
      cases h0
      obtain ⟨l, hl⟩ := anyDim_flux hrs hS (M.normal b)
      rw [(hl _ _).1, sub_self, smul_zero, add_zero] at h1
      obtain ⟨A', hA', h2⟩ := C26_flux_conservative hS (M.normal b)
      rw [hA] at hA'
      cases hA'
      rw [h2]
      exact (Except.ok.inj h1).symm
    have hR' : x.R = 0 := by
      funext b
      exact (hR b).zero hS (hn b)
    have hs : x.source = 0 := by
      funext v
      have := hσ v
      rw [spongeResidual, stateVec_dict, hU v] at this
      simp only [bind, Except.bind, sub_self, smul_zero, Except.ok.injEq] at this
      exact this.symm
    have hq : ∀ a : ℝ, s.quotient dt a a a = 0 := by
      intro a
      cases s <;> simp [Scheme.quotient, backwardEuler, backward2] <;> ring_nf <;> simp
    intro φ hφ
    rw [hF', hFn', hR', hs, hx.inviscid.1, hx.inviscid.2, convection_uniform hG A hφ]
    simp [timeForm, diffusionForm, boundaryForm, frobenius, hq]
  induction ts with
  | nil => trivial
  | cons t ts ih => exact ⟨key t, ih⟩

/-! ### What is refused -/

theorem other_dim {n : ℕ} (hn : n ≠ 2) (γ : ℝ) (S : GasState n) (d : Fin n → ℝ) :
    conservativeFromCharacteristic γ (conservativeDict S) d = .error .notImplemented := by
  rcases n with _ | _ | _ | k
  · simp [conservativeFromCharacteristic, conservativeDict]
  · simp [conservativeFromCharacteristic, conservativeDict]
  · exact absurd rfl hn
  · simp [conservativeFromCharacteristic, conservativeDict]

theorem other_transform {n : ℕ} (hn : n ≠ 2) (γ : ℝ) (S : GasState n) (d : Fin n → ℝ)
    (A : Matrix (Fin (n + 2)) (Fin (n + 2)) ℝ) :
    transformCharacteristicToConservative γ A (conservativeDict S) d = .error .notImplemented := by
  simp only [transformCharacteristicToConservative, other_dim hn, bind, Except.bind]

/-- **C83** Outside two dimensions the other Riemann solvers, farfields and characteristic
conditions are refused with `NotImplementedError`: never is a flux returned. -/
theorem C83_refused {n : ℕ} (hn : n ≠ 2) {S : GasState n} {d : Fin n → ℝ}
    (w wHat : Fin (n + 2) → ℝ) :
    (∀ rs : Riemann, ¬ rs.AnyDim →
      convectiveNumericalFlux γ rs w wHat (conservativeDict S) d = .error .notImplemented) ∧
    (∀ (b : Bool) (bc : Flow n) (winf : Fin (n + 2) → ℝ), stateVec γ bc = .ok winf →
      farfieldResidual γ b bc d w wHat (conservativeDict S) = .error .notImplemented) ∧
    (∀ (t : CbcTarget) (bc U : Flow n) (wbc : Fin (n + 2) → ℝ), cbcState γ t bc U = .ok wbc →
      ∀ D β dt tng wn gradT, cbcResidual γ t bc U (conservativeDict S) D β dt d tng w wHat wn gradT
        = .error .notImplemented) := by
  have hv : ∀ ty : Option String, (ty = some "absolute" ∨ ty = some "incoming" ∨
      ty = some "outgoing") → ∃ l, characteristicVelocities (conservativeDict S) d ty = .ok l := by
    rintro ty (rfl | rfl | rfl) <;> exact ⟨_, rfl⟩
  refine ⟨fun rs hrs => ?_, fun b bc winf h => ?_, fun t bc U wbc h D β dt tng wn gradT => ?_⟩
  · cases rs with
    | laxFriedrich => exact absurd (.inl rfl) hrs
    | hll => exact absurd (.inr rfl) hrs
    | upwind =>
      obtain ⟨l, hl⟩ := hv (some "outgoing") (by simp)
      simp only [convectiveNumericalFlux, Riemann.tau, tauUpwind, conservativeConvectiveJacobian,
        hl, other_transform hn, bind, Except.bind]
    | roe =>
      obtain ⟨l, hl⟩ := hv (some "absolute") (by simp)
      simp only [convectiveNumericalFlux, Riemann.tau, tauRoe, hl, other_transform hn, bind,
        Except.bind]
    | hllem θ =>
      have h1 : velocity (conservativeDict S) = .ok S.u := by
        simp [velocity, conservativeDict, equation, equationE]
      have h2 : speedOfSound γ (conservativeDict S) = .ok S.c := by
        simp [speedOfSound, EOS.speedOfSound, conservativeDict, equation, equationE]
      simp only [convectiveNumericalFlux, Riemann.tau, tauHLLEM, h1, h2, other_transform hn, bind,
        Except.bind]
  · obtain ⟨l, hl⟩ := hv (some "incoming") (by simp)
    cases b
    · simp [farfieldResidual, h, conservativeConvectiveJacobian, hl, other_transform hn, bind,
        Except.bind]
    · simp [farfieldResidual, h, conservativeConvectiveIdentity, characteristicIdentity, hl,
        other_transform hn, bind, Except.bind]
  · simp only [cbcResidual, h, other_transform hn, bind, Except.bind]

/-- Boundary conditions that exist in every dimension. -/
def anyDimBoundary : List CondClass :=
  [.outflow, .inviscidWall, .symmetry, .isothermalWall, .periodic]

/-- The values a user has to give for the conditions are there. -/
structure Setup.Complete (s : Setup n) (S : GasState n) : Prop where
  state : ∀ c, ∃ w, stateVec s.flow.γ (s.fields c) = .ok w
  pressure : ∀ c, ∃ p, (s.fields c).p = some p
  temperature : ∀ c, ∃ T, (s.fields c).T = some T
  target : ∀ c, ∃ w, cbcState s.flow.γ (s.target c) (s.fields c) (conservativeDict S) = .ok w

theorem foldlM_all_ok {α β : Type} (f : β → α → Except PyErr β) (l : List α)
    (h : ∀ a ∈ l, ∀ b, ∃ b', f b a = .ok b') (b : β) : ∃ b', l.foldlM f b = .ok b' := by
  induction l generalizing b with
  | nil => exact ⟨b, rfl⟩
  | cons a l ih =>
    obtain ⟨b', hb'⟩ := h a (by simp) b
    rw [List.foldlM_cons, hb']
    exact ih (fun a ha => h a (by simp [ha])) b'

theorem foldlM_refuses {α β : Type} (f : β → α → Except PyErr β) (e : PyErr) (l : List α)
    (h : ∀ a ∈ l, (∀ b, ∃ b', f b a = .ok b') ∨ ∀ b, f b a = .error e)
    (hex : ∃ a ∈ l, ∀ b, f b a = .error e) (b : β) : l.foldlM f b = .error e := by
  induction l generalizing b with
  | nil => simp at hex
  | cons a l ih =>
    rw [List.foldlM_cons]
    rcases h a (by simp) with h1 | h1
    · obtain ⟨b', hb'⟩ := h1 b
      rw [hb']
      refine ih (fun a ha => h a (by simp [ha])) ?_ b'
      obtain ⟨x, hx, hx'⟩ := hex
      rcases List.mem_cons.1 hx with rfl | hx
      · rw [hx' b] at hb'; cases hb'
      · exact ⟨x, hx, hx'⟩
    · rw [h1 b]; rfl

theorem store_builds {cfg : FormCfg} {t : FormTerm} (h : cfg.build t = .ok ()) (blf : FormDict)
    (k : Name) : ∃ b, cfg.store blf k t = .ok b :=
  ⟨_, by simp only [FormCfg.store, h, bind, Except.bind]; rfl⟩

theorem store_refuses {cfg : FormCfg} {t : FormTerm} {e : PyErr} (h : cfg.build t = .error e)
    (blf : FormDict) (k : Name) : cfg.store blf k t = .error e := by
  simp only [FormCfg.store, h, bind, Except.bind]

section Supported
variable {s : Setup n} {S : GasState n} (hS : IdealGas s.flow.γ S) (hc : s.Complete S)
  (d : Fin n → ℝ) (g : Matrix (Fin n) (Fin n) ℝ × (Fin n → ℝ) × (Fin n → ℝ))
include hS hc

theorem build_convection_ok (hrs : s.rs.AnyDim) :
    s.build (consVec S.rho S.rho_u S.rho_E) d g .convection = .ok () := by
  obtain ⟨l, hl⟩ := anyDim_flux hrs hS d
  obtain ⟨A, hA, -⟩ := C26_flux_conservative hS d
  simp only [Setup.build, conservativeFields_gas hS, hA, (hl _ _).1, bind, Except.bind]

theorem build_convection_error (hn : n ≠ 2) (hrs : ¬ s.rs.AnyDim) :
    s.build (consVec S.rho S.rho_u S.rho_E) d g .convection = .error .notImplemented := by
  obtain ⟨A, hA, -⟩ := C26_flux_conservative hS d
  simp only [Setup.build, conservativeFields_gas hS, hA, (C83_refused hn _ _).1 _ hrs, bind,
    Except.bind]

theorem build_anyDim {c : Cond} (h : c.cls ∈ anyDimBoundary) (r : Name) :
    (dispatchBoundary c = .ok none) ∨ ∃ f, dispatchBoundary c = .ok (some f) ∧ f ≠ .cbc ∧
      s.build (consVec S.rho S.rho_u S.rho_E) d g (.condition f r c) = .ok () := by
  obtain ⟨i, k⟩ := c
  simp only [anyDimBoundary, List.mem_cons, List.not_mem_nil, or_false] at h
  rcases h with rfl | rfl | rfl | rfl | rfl
  · right
    obtain ⟨p, hp⟩ := hc.pressure ⟨i, .outflow⟩
    refine ⟨.outflow, rfl, by decide, ?_⟩
    simp [Setup.build, conservativeFields_gas hS, outflowResidual, outflowState, stateVec, given,
      hp, conservativeDict, density,
      EOS.density, momentum, energy, innerEnergy, EOS.innerEnergy, kineticEnergy, equation,
      equationE, bind, Except.bind]
  · right
    obtain ⟨h1, h2, h3⟩ := dictState s.flow.γ S
    refine ⟨.inviscidWall, rfl, by decide, ?_⟩
    simp [Setup.build, conservativeFields_gas hS, inviscidWallResidual, h1, h2, h3, bind,
      Except.bind]
  · right
    obtain ⟨h1, h2, h3⟩ := dictState s.flow.γ S
    refine ⟨.inviscidWall, rfl, by decide, ?_⟩
    simp [Setup.build, conservativeFields_gas hS, inviscidWallResidual, h1, h2, h3, bind,
      Except.bind]
  · right
    obtain ⟨T, hT⟩ := hc.temperature ⟨i, .isothermalWall⟩
    refine ⟨.isothermalWall, rfl, by decide, ?_⟩
    simp [Setup.build, conservativeFields_gas hS, isothermalWallResidual, given, hT,
      conservativeDict, density, EOS.density, momentum,
      innerEnergy, EOS.innerEnergy, equation, equationE, bind, Except.bind]
  · exact .inl rfl

theorem build_other (hn : n ≠ 2) (hm : s.mixed = .inactive) {c : Cond}
    (h : c.cls ∈ offeredBoundary) (h' : c.cls ∉ anyDimBoundary) (r : Name) :
    ∃ f, dispatchBoundary c = .ok (some f) ∧
      s.build (consVec S.rho S.rho_u S.rho_E) d g (.condition f r c) = .error .notImplemented := by
  obtain ⟨i, k⟩ := c
  obtain ⟨w, hw⟩ := hc.state ⟨i, k⟩
  obtain ⟨w', hw'⟩ := hc.target ⟨i, k⟩
  have hr := C83_refused (γ := s.flow.γ) hn (S := S) (d := d) (consVec S.rho S.rho_u S.rho_E)
    (consVec S.rho S.rho_u S.rho_E)
  simp only [offeredBoundary, anyDimBoundary, List.mem_cons, List.not_mem_nil, or_false] at h h'
  push Not at h'
  have hk : k = .farfield ∨ k = .grcbc ∨ k = .nscbc ∨ k = .adiabaticWall := by tauto
  rcases hk with rfl | rfl | rfl | rfl
  · exact ⟨.farfield, rfl, by simp [Setup.build, conservativeFields_gas hS, hr.2.1 _ _ _ hw, bind,
      Except.bind]⟩
  · exact ⟨.cbc, rfl, by simp [Setup.build, conservativeFields_gas hS, hr.2.2 _ _ _ _ hw', bind,
      Except.bind]⟩
  · exact ⟨.cbc, rfl, by simp [Setup.build, conservativeFields_gas hS, hr.2.2 _ _ _ _ hw', bind,
      Except.bind]⟩
  · exact ⟨.adiabaticWall, rfl, by simp [Setup.build, adiabaticWall, hm, bind, Except.bind]⟩

theorem build_domain {c : Cond} (h : c.cls ∈ [CondClass.spongeLayer, .pspongeLayer, .initial])
    (r : Name) :
    (dispatchDomain c = .ok none) ∨ ∃ f, dispatchDomain c = .ok (some f) ∧ f ≠ .cbc ∧
      s.build (consVec S.rho S.rho_u S.rho_E) d g (.condition f r c) = .ok () := by
  obtain ⟨i, k⟩ := c
  obtain ⟨w, hw⟩ := hc.state ⟨i, k⟩
  simp only [List.mem_cons, List.not_mem_nil, or_false] at h
  rcases h with rfl | rfl | rfl
  · right
    exact ⟨.sponge, rfl, by decide, by simp [Setup.build, spongeResidual, hw, bind, Except.bind]⟩
  · right
    exact ⟨.sponge, rfl, by decide, by simp [Setup.build, spongeResidual, hw, bind, Except.bind]⟩
  · exact .inl rfl

/-- **C83** Which inviscid computations outside two dimensions can be set up: exactly those with
the Lax–Friedrichs or HLL solver and boundaries that are outflows, walls, symmetry planes,
isothermal walls or periodic. All others are refused with `NotImplementedError` before anything is
computed. -/
theorem C83_supported (hn : n ≠ 2) (hi : s.flow.isInviscid) (hm : s.mixed = .inactive)
    (bnds doms : Dict Name Cond) (hb : ∀ kv ∈ bnds, kv.2.cls ∈ offeredBoundary)
    (hd : ∀ kv ∈ doms, kv.2.cls ∈ [CondClass.spongeLayer, .pspongeLayer, .initial]) :
    ((s.rs.AnyDim ∧ ∀ kv ∈ bnds, kv.2.cls ∈ anyDimBoundary) → ∃ blf,
      (s.forms false (consVec S.rho S.rho_u S.rho_E) d g).initializeForms bnds doms = .ok blf) ∧
    (¬ (s.rs.AnyDim ∧ ∀ kv ∈ bnds, kv.2.cls ∈ anyDimBoundary) →
      (s.forms false (consVec S.rho S.rho_u S.rho_E) d g).initializeForms bnds doms
        = .error .notImplemented) := by
  obtain ⟨cfg, hcfg⟩ : ∃ cfg, cfg = s.forms false (consVec S.rho S.rho_u S.rho_E) d g := ⟨_, rfl⟩
  have hbuild : cfg.build = s.build (consVec S.rho S.rho_u S.rho_E) d g := by rw [hcfg]; rfl
  have hst : cfg.stationary = false := by rw [hcfg]; rfl
  have hinv : cfg.inviscid = true := by rw [hcfg]; simp [Setup.forms, hi]
  have hmix : cfg.mixed = .inactive := by rw [hcfg]; exact hm
  rw [← hcfg]
  have hdiff : ∀ b, cfg.addDiffusion b = .ok b := fun b => by simp [FormCfg.addDiffusion, hinv]
  have hmixed : ∀ b, cfg.addMixedForm b = .ok b := fun b => by simp [FormCfg.addMixedForm, hmix]
  have hcheck : ∀ f, cfg.schemeCheck f = .ok () := fun f => by simp [FormCfg.schemeCheck, hst]
  have htime : ∀ b, ∃ b', cfg.addTemporalForms b = .ok b' := fun b => by
    simp only [FormCfg.addTemporalForms, hst]
    exact store_builds (by rw [hbuild]; rfl) _ _
  have hdom : ∀ b, ∃ b', cfg.addConditionForms dispatchDomain doms b = .ok b' := by
    refine foldlM_all_ok _ _ fun kv hkv b => ?_
    rcases build_domain hS hc d g (hd kv hkv) kv.1 with h | ⟨f, h, -, h'⟩
    · exact ⟨b, by simp only [FormCfg.addCondition, h, bind, Except.bind]⟩
    · simp only [FormCfg.addCondition, h, hcheck, bind, Except.bind]
      exact store_builds (by rw [hbuild, h']) _ _
  have hgood : ∀ kv ∈ bnds, kv.2.cls ∈ anyDimBoundary → ∀ b, ∃ b',
      cfg.addCondition dispatchBoundary b kv = .ok b' := by
    intro kv _ hk b
    rcases build_anyDim hS hc d g hk kv.1 with h | ⟨f, h, -, h'⟩
    · exact ⟨b, by simp only [FormCfg.addCondition, h, bind, Except.bind]⟩
    · simp only [FormCfg.addCondition, h, hcheck, bind, Except.bind]
      exact store_builds (by rw [hbuild, h']) _ _
  have hbad : ∀ kv ∈ bnds, kv.2.cls ∉ anyDimBoundary → ∀ b,
      cfg.addCondition dispatchBoundary b kv = .error .notImplemented := by
    intro kv hkv hk b
    obtain ⟨f, h, h'⟩ := build_other hS hc d g hn hm (hb kv hkv) hk kv.1
    simp only [FormCfg.addCondition, h, hcheck, bind, Except.bind]
    exact store_refuses (by rw [hbuild, h']) _ _
  constructor
  · rintro ⟨hrs, hall⟩
    obtain ⟨b1, h1⟩ := store_builds (cfg := cfg) (t := .convection)
      (by rw [hbuild]; exact build_convection_ok hS hc d g hrs) [] "convection".toList
    obtain ⟨b2, h2⟩ := foldlM_all_ok (cfg.addCondition dispatchBoundary) bnds
      (fun kv hkv => hgood kv hkv (hall kv hkv)) b1
    change cfg.addConditionForms dispatchBoundary bnds b1 = _ at h2
    obtain ⟨b3, h3⟩ := hdom b2
    obtain ⟨b4, h4⟩ := htime b3
    exact ⟨b4, by simp only [FormCfg.initializeForms, FormCfg.addSpatialForms, h1, hdiff, hmixed,
      h2, h3, h4, bind, Except.bind]⟩
  · intro hno
    by_cases hrs : s.rs.AnyDim
    · have hex : ∃ kv ∈ bnds, kv.2.cls ∉ anyDimBoundary := by
        by_contra hcon
        push Not at hcon
        exact hno ⟨hrs, hcon⟩
      obtain ⟨b1, h1⟩ := store_builds (cfg := cfg) (t := .convection)
        (by rw [hbuild]; exact build_convection_ok hS hc d g hrs) [] "convection".toList
      have h2 : cfg.addConditionForms dispatchBoundary bnds b1 = .error .notImplemented := by
        refine foldlM_refuses _ _ _ (fun kv hkv => ?_) ?_ b1
        · by_cases hk : kv.2.cls ∈ anyDimBoundary
          · exact .inl (hgood kv hkv hk)
          · exact .inr (hbad kv hkv hk)
        · obtain ⟨kv, hkv, hk⟩ := hex
          exact ⟨kv, hkv, hbad kv hkv hk⟩
      simp only [FormCfg.initializeForms, FormCfg.addSpatialForms, h1, hdiff, hmixed, h2, bind,
        Except.bind]
    · have h1 : cfg.store [] "convection".toList .convection = .error .notImplemented :=
        store_refuses (by rw [hbuild]; exact build_convection_error hS hc d g hn hrs) _ _
      simp only [FormCfg.initializeForms, FormCfg.addSpatialForms, h1, bind, Except.bind]

end Supported

/-- **C83** In two dimensions nothing is refused but adiabatic walls: every Riemann solver works
with every other boundary condition. -/
theorem C83_plane {s : Setup 2} {S : GasState 2} (hS : IdealGas s.flow.γ S) (hc : s.Complete S)
    (d : Fin 2 → ℝ) (g : Matrix (Fin 2) (Fin 2) ℝ × (Fin 2 → ℝ) × (Fin 2 → ℝ))
    (hi : s.flow.isInviscid) (hm : s.mixed = .inactive) (bnds doms : Dict Name Cond)
    (hb : ∀ kv ∈ bnds, kv.2.cls ∈ offeredBoundary ∧ kv.2.cls ≠ .adiabaticWall)
    (hd : ∀ kv ∈ doms, kv.2.cls ∈ [CondClass.spongeLayer, .pspongeLayer, .initial]) :
    ∃ blf, (s.forms false (consVec S.rho S.rho_u S.rho_E) d g).initializeForms bnds doms
      = .ok blf := by
  obtain ⟨cfg, hcfg⟩ : ∃ cfg, cfg = s.forms false (consVec S.rho S.rho_u S.rho_E) d g := ⟨_, rfl⟩
  have hbuild : cfg.build = s.build (consVec S.rho S.rho_u S.rho_E) d g := by rw [hcfg]; rfl
  have hst : cfg.stationary = false := by rw [hcfg]; rfl
  have hinv : cfg.inviscid = true := by rw [hcfg]; simp [Setup.forms, hi]
  have hmix : cfg.mixed = .inactive := by rw [hcfg]; exact hm
  rw [← hcfg]
  have hdiff : ∀ b, cfg.addDiffusion b = .ok b := fun b => by simp [FormCfg.addDiffusion, hinv]
  have hmixed : ∀ b, cfg.addMixedForm b = .ok b := fun b => by simp [FormCfg.addMixedForm, hmix]
  have hcheck : ∀ f, cfg.schemeCheck f = .ok () := fun f => by simp [FormCfg.schemeCheck, hst]
  have htr : ∀ (A : Matrix (Fin 4) (Fin 4) ℝ) (e : Fin 2 → ℝ), ∃ A',
      transformCharacteristicToConservative s.flow.γ A (conservativeDict S) e = .ok A' :=
    fun A e => ⟨_, rfl⟩
  have hconv : cfg.build .convection = .ok () := by
    obtain ⟨A, hA, -⟩ := C26_flux_conservative hS d
    have hτ : ∃ τ, s.rs.tau s.flow.γ (conservativeDict S) d = .ok τ := by
      have h1 : velocity (conservativeDict S) = .ok S.u := by
        simp [velocity, conservativeDict, equation, equationE]
      have h2 : speedOfSound s.flow.γ (conservativeDict S) = .ok S.c := by
        simp [speedOfSound, EOS.speedOfSound, conservativeDict, equation, equationE]
      cases s.rs with
      | upwind => exact ⟨_, rfl⟩
      | roe => exact ⟨_, rfl⟩
      | laxFriedrich =>
        exact ⟨_, by simp only [Riemann.tau, tauLaxFriedrich, h1, h2, bind, Except.bind]; rfl⟩
      | hll => exact ⟨_, by simp only [Riemann.tau, tauHLL, h1, h2, bind, Except.bind]; rfl⟩
      | hllem θ =>
        obtain ⟨A', hA'⟩ := htr (Bla.diagonalM (lamVec 2 1
          (Bla.max (Bla.abs (S.u ⬝ᵥ d) / (Bla.abs (S.u ⬝ᵥ d) + S.c)) θ) 1)) d
        exact ⟨_, by simp only [Riemann.tau, tauHLLEM, h1, h2, hA', bind, Except.bind]; rfl⟩
    obtain ⟨τ, hτ⟩ := hτ
    rw [hbuild]
    simp only [Setup.build, conservativeFields_gas hS, hA, convectiveNumericalFlux, hτ, bind,
      Except.bind]
  have hgood : ∀ kv ∈ bnds, ∀ b, ∃ b', cfg.addCondition dispatchBoundary b kv = .ok b' := by
    intro kv hkv b
    by_cases hk : kv.2.cls ∈ anyDimBoundary
    · rcases build_anyDim hS hc d g hk kv.1 with h | ⟨f, h, -, h'⟩
      · exact ⟨b, by simp only [FormCfg.addCondition, h, bind, Except.bind]⟩
      · simp only [FormCfg.addCondition, h, hcheck, bind, Except.bind]
        exact store_builds (by rw [hbuild, h']) _ _
    · obtain ⟨k, ⟨i, c⟩⟩ := kv
      obtain ⟨ho, ha⟩ := hb _ hkv
      obtain ⟨w, hw⟩ := hc.state ⟨i, c⟩
      obtain ⟨w', hw'⟩ := hc.target ⟨i, c⟩
      simp only [offeredBoundary, anyDimBoundary, List.mem_cons, List.not_mem_nil, or_false]
        at ho hk ha
      push Not at hk
      have hcls : c = .farfield ∨ c = .grcbc ∨ c = .nscbc := by tauto
      have hcbc : s.build (consVec S.rho S.rho_u S.rho_E) d g (.condition .cbc k ⟨i, c⟩)
          = .ok () := by
        simp only [Setup.build, conservativeFields_gas hS, cbcResidual, hw', bind, Except.bind]
        rfl
      rcases hcls with rfl | rfl | rfl
      · have h : dispatchBoundary ⟨i, .farfield⟩ = .ok (some .farfield) := rfl
        simp only [FormCfg.addCondition, h, hcheck, bind, Except.bind]
        refine store_builds ?_ _ _
        rw [hbuild]
        simp only [Setup.build, conservativeFields_gas hS, farfieldResidual, hw, bind, Except.bind]
        cases s.identityJacobian ⟨i, .farfield⟩ <;> rfl
      · have h : dispatchBoundary ⟨i, .grcbc⟩ = .ok (some .cbc) := rfl
        simp only [FormCfg.addCondition, h, hcheck, bind, Except.bind]
        exact store_builds (by rw [hbuild, hcbc]) _ _
      · have h : dispatchBoundary ⟨i, .nscbc⟩ = .ok (some .cbc) := rfl
        simp only [FormCfg.addCondition, h, hcheck, bind, Except.bind]
        exact store_builds (by rw [hbuild, hcbc]) _ _
  have hdom : ∀ b, ∃ b', cfg.addConditionForms dispatchDomain doms b = .ok b' := by
    refine foldlM_all_ok _ _ fun kv hkv b => ?_
    rcases build_domain hS hc d g (hd kv hkv) kv.1 with h | ⟨f, h, -, h'⟩
    · exact ⟨b, by simp only [FormCfg.addCondition, h, bind, Except.bind]⟩
    · simp only [FormCfg.addCondition, h, hcheck, bind, Except.bind]
      exact store_builds (by rw [hbuild, h']) _ _
  obtain ⟨b1, h1⟩ := store_builds hconv [] "convection".toList
  obtain ⟨b2, h2⟩ := foldlM_all_ok (cfg.addCondition dispatchBoundary) bnds hgood b1
  change cfg.addConditionForms dispatchBoundary bnds b1 = _ at h2
  obtain ⟨b3, h3⟩ := hdom b2
  obtain ⟨b4, h4⟩ : ∃ b4, cfg.addTemporalForms b3 = .ok b4 := by
    simp only [FormCfg.addTemporalForms, hst]
    exact store_builds (by rw [hbuild]; rfl) _ _
  exact ⟨b4, by simp only [FormCfg.initializeForms, FormCfg.addSpatialForms, h1, hdiff, hmixed,
    h2, h3, h4, bind, Except.bind]⟩

/-- **C83** Viscous flow cannot be computed in three dimensions: with every mixed method that
accepts viscosity the computation cannot be set up. -/
theorem C83_viscous_refused {s : Setup 3} (hv : ¬ s.flow.isInviscid)
    (hm : mixedMethodCheck s.mixed s.flow = .ok ()) (stationary : Bool) (w : Fin 5 → ℝ)
    (d : Fin 3 → ℝ) (g : Matrix (Fin 3) (Fin 3) ℝ × (Fin 3 → ℝ) × (Fin 3 → ℝ))
    (bnds doms : Dict Name Cond) :
    ∃ e, (s.forms stationary w d g).initializeForms bnds doms = .error e := by
  obtain ⟨cfg, hcfg⟩ : ∃ cfg, cfg = s.forms stationary w d g := ⟨_, rfl⟩
  have hbuild : cfg.build = s.build w d g := by rw [hcfg]; rfl
  have hinv : cfg.inviscid = false := by rw [hcfg]; simp [Setup.forms, hv]
  have hmix : cfg.mixed = s.mixed := by rw [hcfg]; rfl
  have hdim : cfg.dim = 3 := by rw [hcfg]; rfl
  rw [← hcfg]
  unfold FormCfg.initializeForms FormCfg.addSpatialForms
  cases h1 : cfg.store [] "convection".toList .convection with
  | error e => exact ⟨e, rfl⟩
  | ok b1 =>
    cases h2 : cfg.addDiffusion b1 with
    | error e => exact ⟨e, by simp only [h2, bind, Except.bind]⟩
    | ok b2 =>
      have h3 : ∃ e, cfg.addMixedForm b2 = .error e := by
        unfold FormCfg.addMixedForm
        rw [hmix]
        cases hs : s.mixed with
        | inactive =>
          exact absurd ((C55_check s.mixed s.flow).1.1 hm |>.1 hs) hv
        | strainHeat => exact ⟨.notImplemented, by simp [hdim]⟩
        | gradient =>
          exfalso
          have hb : ∃ e, s.build w d g .diffusion = .error e := by
            simp only [Setup.build, Setup.mixedFields, hs]
            cases hU : conservativeFields s.flow.γ w with
            | error e => exact ⟨e, rfl⟩
            | ok U =>
              obtain ⟨e, he⟩ := C55_fails_gradient s.flow U g.2.1 g.2.2 g.1
              exact ⟨e, by simp only [he, bind, Except.bind]⟩
          obtain ⟨e, he⟩ := hb
          simp only [FormCfg.addDiffusion, hinv] at h2
          rw [store_refuses (e := e) (by rw [hbuild, he])] at h2
          cases h2
      obtain ⟨e, h3⟩ := h3
      exact ⟨e, by simp only [h2, h3, bind, Except.bind]⟩

/-! ### Plane flows in space -/

theorem snoc_dot (u d : Fin n → ℝ) (a b : ℝ) :
    (Fin.snoc u a : Fin (n + 1) → ℝ) ⬝ᵥ Fin.snoc d b = u ⬝ᵥ d + a * b := by
  simp [dotProduct, Fin.sum_univ_castSucc]

theorem embed_ideal {S : GasState n} (hS : IdealGas γ S) : IdealGas γ S.embed where
  gamma := hS.gamma
  rho_pos := hS.rho_pos
  T_pos := hS.T_pos
  gas_law := hS.gas_law
  caloric := hS.caloric
  sound_pos := hS.sound_pos
  sound := hS.sound
  kinetic := by
    change S.Ek = ((Fin.snoc S.u 0 : Fin (n + 1) → ℝ) ⬝ᵥ Fin.snoc S.u 0) / 2
    rw [snoc_dot, hS.kinetic]; simp
  total := hS.total
  enthalpy := hS.enthalpy
  momentum := by
    change (Fin.snoc S.rho_u 0 : Fin (n + 1) → ℝ) = S.rho • (Fin.snoc S.u 0 : Fin (n + 1) → ℝ)
    funext i
    refine Fin.lastCases ?_ (fun j => ?_) i
    · simp
    · simp [hS.momentum]
  rho_E := hS.rho_E
  rho_Ei := hS.rho_Ei
  rho_Ek := hS.rho_Ek
  rho_H := hS.rho_H

theorem embedCons_eq (w : Fin (n + 2) → ℝ) :
    embedCons w = consVec (w 0) (Fin.snoc (mom w) 0) (w (Fin.last (n + 1))) := rfl

theorem embedCons_consVec (a : ℝ) (m : Fin n → ℝ) (e : ℝ) :
    embedCons (consVec a m e) = consVec a (Fin.snoc m 0) e := by
  have h : mom (consVec a m e) = m := by funext i; simp
  rw [embedCons_eq, h]; simp

theorem consVec_sub (a b : ℝ) (m k : Fin n → ℝ) (e f : ℝ) :
    consVec a m e - consVec b k f = consVec (a - b) (m - k) (e - f) :=
  cons_ext (by simp) (by simp) (by simp)

theorem embedCons_sub (v w : Fin (n + 2) → ℝ) : embedCons (v - w) = embedCons v - embedCons w := by
  rw [embedCons_eq, embedCons_eq, embedCons_eq, consVec_sub]
  congr 1
  funext i
  refine Fin.lastCases ?_ (fun j => ?_) i <;> simp

/-- **C83** Plane flows are special spatial flows: a state of `n` dimensions taken as one of
`n + 1` dimensions that does not move in the new direction is a state of the gas, the numerical
flux through faces parallel to the new direction and the residuals of walls, isothermal walls,
outflows and sponge layers are the same, with nothing in the new direction; through a face across
the new direction only the pressure acts. -/
theorem C83_embedding {rs : Riemann} (hrs : rs.AnyDim) {S : GasState n} (hS : IdealGas γ S)
    (d : Fin n → ℝ) (w wHat : Fin (n + 2) → ℝ) :
    IdealGas γ S.embed ∧
    (∃ f, convectiveNumericalFlux γ rs w wHat (conservativeDict S) d = .ok f ∧
      convectiveNumericalFlux γ rs (embedCons w) (embedCons wHat) (conservativeDict S.embed)
        (Fin.snoc d 0) = .ok (embedCons f)) ∧
    (convectiveNumericalFlux γ rs (embedCons w) (embedCons w) (conservativeDict S.embed)
        (Pi.single (Fin.last n) 1) = .ok (consVec 0 (S.p • Pi.single (Fin.last n) 1) 0)) ∧
    (∃ R, inviscidWallResidual γ d (conservativeDict S) wHat = .ok R ∧
      inviscidWallResidual γ (Fin.snoc d 0) (conservativeDict S.embed) (embedCons wHat)
        = .ok (embedCons R)) ∧
    (∀ (bc : Flow n) (bc' : Flow (n + 1)) (p : ℝ), bc.p = some p → bc'.p = some p →
      ∃ R, outflowResidual γ bc (conservativeDict S) wHat = .ok R ∧
        outflowResidual γ bc' (conservativeDict S.embed) (embedCons wHat) = .ok (embedCons R)) ∧
    (∀ (bc : Flow n) (bc' : Flow (n + 1)) (T : ℝ), bc.T = some T → bc'.T = some T →
      ∃ R, isothermalWallResidual γ bc (conservativeDict S) wHat = .ok R ∧
        isothermalWallResidual γ bc' (conservativeDict S.embed) (embedCons wHat)
          = .ok (embedCons R)) ∧
    (∀ σ : ℝ, ∃ R, spongeResidual γ σ (conservativeDict S) w = .ok R ∧
      spongeResidual γ σ (conservativeDict S.embed) (embedCons w) = .ok (embedCons R)) := by
  have hE := embed_ideal hS
  have hru : S.embed.rho_u = Fin.snoc S.rho_u 0 := rfl
  have hu : S.embed.u = Fin.snoc S.u 0 := rfl
  refine ⟨hE, ?_, ?_, ?_, ?_, ?_, ?_⟩
  · have key : ∀ l : ℝ, embedCons (eulerFlux γ d S.rho S.rho_u S.rho_E + l • (w - wHat)) =
        eulerFlux γ (Fin.snoc d 0 : Fin (n + 1) → ℝ) S.embed.rho S.embed.rho_u S.embed.rho_E
          + l • (embedCons w - embedCons wHat) := by
      intro l
      rw [eulerFlux_gas hS, eulerFlux_gas hE, hru, snoc_dot, ← embedCons_sub]
      obtain ⟨v, hv⟩ : ∃ v, v = w - wHat := ⟨_, rfl⟩
      rw [← hv]
      refine cons_ext ?_ (fun i => ?_) ?_
      · simp [embedCons_eq]
      · refine Fin.lastCases ?_ (fun j => ?_) i
        · simp [embedCons_eq]
        · simp [embedCons_eq]; rfl
      · simp [embedCons_eq]; rfl
    refine ⟨_, anyDim_flux_eq hrs hS d w wHat, ?_⟩
    rw [anyDim_flux_eq hrs hE, hu, snoc_dot, key]
    simp only [mul_zero, add_zero]
    rfl
  · rw [anyDim_flux_eq hrs hE, sub_self, smul_zero, add_zero, eulerFlux_gas hE, hru]
    have h0 : (Fin.snoc S.rho_u 0 : Fin (n + 1) → ℝ) ⬝ᵥ Pi.single (Fin.last n) 1 = 0 := by simp
    rw [h0]
    congr 1
    refine cons_ext ?_ (fun i => ?_) ?_
    · simp
    · simp; left; rfl
    · simp
  · obtain ⟨h1, h2, h3⟩ := dictState γ S
    obtain ⟨k1, k2, k3⟩ := dictState γ S.embed
    refine ⟨_, by simp only [inviscidWallResidual, h1, h2, h3, bind, Except.bind]; rfl, ?_⟩
    simp only [inviscidWallResidual, k1, k2, k3, bind, Except.bind, embedCons_sub,
      embedCons_consVec, hru, snoc_dot]
    congr 3
    funext i
    refine Fin.lastCases ?_ (fun j => ?_) i <;> simp
  · intro bc bc' p hp hp'
    have h : ∀ {m : ℕ} (S : GasState m) (bc : Flow m) (v : Fin (m + 2) → ℝ), bc.p = some p →
        outflowResidual γ bc (conservativeDict S) v
          = .ok (v - consVec S.rho S.rho_u (p / (γ - 1) + S.rho_Ek)) := by
      intro m S bc v hp
      simp [outflowResidual, outflowState, stateVec, given, hp, conservativeDict, density,
        EOS.density, momentum, energy, innerEnergy, EOS.innerEnergy, kineticEnergy, equation,
        equationE, bind, Except.bind]
    refine ⟨_, h S bc _ hp, ?_⟩
    rw [h S.embed bc' _ hp', embedCons_sub, embedCons_consVec]
    rfl
  · intro bc bc' T hT hT'
    have h : ∀ {m : ℕ} (S : GasState m) (bc : Flow m) (v : Fin (m + 2) → ℝ), bc.T = some T →
        isothermalWallResidual γ bc (conservativeDict S) v
          = .ok (v - consVec S.rho (fun _ => 0) (S.rho * T / γ)) := by
      intro m S bc v hT
      simp [isothermalWallResidual, given, hT, conservativeDict, density, EOS.density, momentum,
        innerEnergy, EOS.innerEnergy, equation, equationE, bind, Except.bind]
    refine ⟨_, h S bc _ hT, ?_⟩
    rw [h S.embed bc' _ hT', embedCons_sub, embedCons_consVec]
    congr 3
    funext i
    refine Fin.lastCases ?_ (fun j => ?_) i <;> simp
  · intro σ
    refine ⟨_, by simp only [spongeResidual, stateVec_dict, bind, Except.bind]; rfl, ?_⟩
    simp only [spongeResidual, stateVec_dict, bind, Except.bind]
    have : ∀ v : Fin (n + 2) → ℝ, embedCons (σ • v) = σ • embedCons v := by
      intro v
      rw [embedCons_eq, embedCons_eq]
      refine cons_ext (by simp) (fun i => ?_) (by simp)
      refine Fin.lastCases ?_ (fun j => ?_) i <;> simp
    rw [this, embedCons_sub, embedCons_consVec]
    rfl

/-! ### Concrete instances -/

/-- A moving gas in three dimensions. -/
def spatialState : GasState 3 := GasState.of (7 / 5) 1 ![1, 2, 3] 1

theorem spatialState_ideal : IdealGas (7 / 5) spatialState :=
  IdealGas.of (by norm_num) (by norm_num) (by norm_num)

/-- C83, concrete instance: three dimensions, a slanted normal. -/
example : ∃ A, HasFDerivAt (eulerFluxOf (7 / 5) ![2 / 3, 1 / 3, 2 / 3]) A
    (consVec spatialState.rho spatialState.rho_u spatialState.rho_E) ∧
    IsSpeed A (spatialState.u ⬝ᵥ ![2 / 3, 1 / 3, 2 / 3] + spatialState.c) := by
  obtain ⟨A, h1, h2, -⟩ := C83_signal_speeds spatialState_ideal (d := ![2 / 3, 1 / 3, 2 / 3])
    (by simp [dotProduct, Fin.sum_univ_three]; norm_num)
  exact ⟨A, h1, (h2 _).2 (by simp)⟩

/-- C83, concrete instance: a wall trace in three dimensions. -/
example : inviscidWallResidual (7 / 5) ![0, 0, 1] (conservativeDict spatialState)
    (consVec spatialState.rho ![1, 2, 0] spatialState.rho_E) = .ok 0 := by
  obtain ⟨h1, h2, h3⟩ := dictState (7 / 5) spatialState
  simp only [inviscidWallResidual, h1, h2, h3, bind, Except.bind]
  congr 1
  rw [sub_eq_zero]
  congr 1
  funext i
  fin_cases i <;> simp [spatialState, GasState.of, dotProduct, Fin.sum_univ_three]

/-- The unit cube as one element. -/
def unitCube : HdgMesh 3 Unit (Fin 6) where
  wV := fun _ => 1
  wB := fun _ => 1
  normal := ![![1, 0, 0], ![-1, 0, 0], ![0, 1, 0], ![0, -1, 0], ![0, 0, 1], ![0, 0, -1]]
  region := fun _ => some ['w']

/-- The centres of the faces. -/
def cubeFaces : Fin 6 → Fin 3 → ℝ :=
  ![![1, 1 / 2, 1 / 2], ![0, 1 / 2, 1 / 2], ![1 / 2, 1, 1 / 2], ![1 / 2, 0, 1 / 2],
    ![1 / 2, 1 / 2, 1], ![1 / 2, 1 / 2, 0]]

/-- C83, concrete instance: affine functions on the unit cube. -/
theorem gauss_unitCube : Gauss unitCube (fun _ => 0)
    {φ | ∃ (a : Fin 5 → ℝ) (g : Matrix (Fin 5) (Fin 3) ℝ),
      φ.grad = (fun _ => g) ∧ φ.trace = fun b => a + g *ᵥ cubeFaces b} := by
  constructor
  · rintro φ ⟨a, g, h1, h2⟩ i j
    rw [h1, h2]
    fin_cases j <;>
      simp [unitCube, cubeFaces, Fin.sum_univ_six, mulVec, dotProduct, Fin.sum_univ_three] <;> ring
  · simp

/-- An inviscid flow in three dimensions. -/
def spatialSetup (rs : Riemann) : Setup 3 where
  flow := { demoCfg with visc := .inviscid }
  rs := rs
  mixed := .inactive
  fields := fun _ => conservativeDict spatialState
  identityJacobian := fun _ => false
  target := fun _ => .outflow
  relaxation := fun _ => 1
  tangential := fun _ => 0

theorem spatialSetup_complete (rs : Riemann) : (spatialSetup rs).Complete spatialState where
  state := fun _ => ⟨_, stateVec_dict _ _⟩
  pressure := fun _ => ⟨_, rfl⟩
  temperature := fun _ => ⟨_, rfl⟩
  target := fun _ => ⟨_, C33_cbc_target
    (show IdealGas (7 / 5) spatialState from spatialState_ideal) _⟩

/-- C83, concrete instance: walls and an outflow with HLL can be set up, a farfield cannot. -/
example : (∃ blf, ((spatialSetup .hll).forms false (consVec spatialState.rho spatialState.rho_u
      spatialState.rho_E) ![1, 0, 0] (0, 0, 0)).initializeForms
      [("a".toList, ⟨0, .inviscidWall⟩), ("b".toList, ⟨1, .outflow⟩)] [] = .ok blf) ∧
    ((spatialSetup .hll).forms false (consVec spatialState.rho spatialState.rho_u
      spatialState.rho_E) ![1, 0, 0] (0, 0, 0)).initializeForms
      [("a".toList, ⟨0, .inviscidWall⟩), ("b".toList, ⟨1, .farfield⟩)] []
        = .error .notImplemented := by
  have h := fun bnds hb => C83_supported (s := spatialSetup .hll)
    (show IdealGas (7 / 5) spatialState from spatialState_ideal) (spatialSetup_complete _)
    ![1, 0, 0] (0, 0, 0) (by decide) rfl rfl bnds [] hb (by simp)
  refine ⟨(h _ (by simp [offeredBoundary])).1 ⟨.inr rfl, by simp [anyDimBoundary]⟩,
    (h _ (by simp [offeredBoundary])).2 (by simp [anyDimBoundary])⟩

end Dream
