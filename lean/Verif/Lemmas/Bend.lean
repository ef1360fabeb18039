import Verif.Lemmas.FlowBranch
import Verif.Lemmas.Stabilised
import Mathlib.Analysis.Calculus.Deriv.Abs
import Mathlib.Analysis.Calculus.FDeriv.Mul
import Mathlib.Analysis.Calculus.Deriv.Inv

/-!
# Functions with one kink
-/

noncomputable section

namespace Dream
open Matrix Set Filter Topology _root_.Spec

variable {γ : ℝ} {E : Type} [NormedAddCommGroup E] [NormedSpace ℝ E] {k : E →L[ℝ] ℝ} {f g : E → ℝ}
  {f' : E →L[ℝ] ℝ} {p : E}

/-- The function has derivatives in all directions `q`, from the right, of the form `L q + m |k q|`. -/
def Bend (k : E →L[ℝ] ℝ) (f : E → ℝ) (p : E) : Prop :=
  ∃ (L : E →L[ℝ] ℝ) (m : ℝ), ∀ q,
    HasDerivWithinAt (fun τ : ℝ => f (p + τ • q)) (L q + m * |k q|) (Ioi 0) 0

/-- One of the two one-sided derivatives depends linearly on the direction. -/
theorem Bend.oneSided (h : Bend k f p) :
    ∃ l : E →L[ℝ] ℝ, ∀ q, OneSided (fun τ : ℝ => f (p + τ • q)) (l q) := by
  obtain ⟨L, m, h⟩ := h
  refine ⟨L + m • k, fun q => ?_⟩
  rcases le_total 0 (k q) with hq | hq
  · refine Or.inl ?_
    have := h q
    rw [abs_of_nonneg hq] at this
    exact this
  · refine Or.inr ?_
    have h1 := h (-q)
    rw [map_neg, map_neg, abs_neg, abs_of_nonpos hq] at h1
    have h2 : HasDerivWithinAt (fun τ : ℝ => -τ) (-1) (Iio 0) 0 := (hasDerivAt_neg 0).hasDerivWithinAt
    have h3 := HasDerivWithinAt.scomp_of_eq (0 : ℝ) h1 h2 (fun x hx => by simpa using hx) (by simp)
    have e : (-1 : ℝ) • (-L q + m * -k q) = (L + m • k) q := by
      simp
      ring
    rw [e] at h3
    refine h3.congr (fun x _ => ?_) ?_
    · simp
    · simp

theorem Bend.of_deriv (k : E →L[ℝ] ℝ) (h : HasFDerivAt f f' p) : Bend k f p :=
  ⟨f', 0, fun q => by
    rw [zero_mul, add_zero]
    exact (along_line h q).hasDerivWithinAt⟩

theorem Bend.of_contDiffAt (k : E →L[ℝ] ℝ) (h : ContDiffAt ℝ 1 f p) : Bend k f p :=
  .of_deriv k (h.differentiableAt one_ne_zero).hasFDerivAt

theorem Bend.const (k : E →L[ℝ] ℝ) (c : ℝ) (p : E) : Bend k (fun _ => c) p :=
  .of_contDiffAt k contDiffAt_const

theorem Bend.congr (h : Bend k f p) (hg : f =ᶠ[𝓝 p] g) : Bend k g p := by
  obtain ⟨L, m, h⟩ := h
  refine ⟨L, m, fun q => (h q).congr_of_eventuallyEq ?_ ?_⟩
  · exact ((line_cont p q).mono_left nhdsWithin_le_nhds).eventually (hg.mono fun _ e => e.symm)
  · simpa using hg.eq_of_nhds.symm

theorem Bend.add (h : Bend k f p) (hg : Bend k g p) : Bend k (fun x => f x + g x) p := by
  obtain ⟨L, m, h⟩ := h
  obtain ⟨L', m', h'⟩ := hg
  refine ⟨L + L', m + m', fun q => ?_⟩
  have := (h q).add (h' q)
  have e : (L + L') q + (m + m') * |k q| = L q + m * |k q| + (L' q + m' * |k q|) := by
    simp
    ring
  rw [e]
  exact this

theorem Bend.mul (h : Bend k f p) (hg : Bend k g p) : Bend k (fun x => f x * g x) p := by
  obtain ⟨L, m, h⟩ := h
  obtain ⟨L', m', h'⟩ := hg
  refine ⟨g p • L + f p • L', g p * m + f p * m', fun q => ?_⟩
  have := (h q).mul (h' q)
  simp only [zero_smul, add_zero] at this
  have e : (g p • L + f p • L') q + (g p * m + f p * m') * |k q|
      = (L q + m * |k q|) * g p + f p * (L' q + m' * |k q|) := by
    simp
    ring
  rw [e]
  exact this

theorem Bend.sum {ι : Type} (s : Finset ι) {f : ι → E → ℝ} (hf : ∀ i, Bend k (f i) p) :
    Bend k (fun x => ∑ i ∈ s, f i x) p := by
  classical
  induction s using Finset.induction_on with
  | empty => simpa using Bend.const k (0 : ℝ) p
  | insert i s hi ih =>
    simp only [Finset.sum_insert hi]
    exact (hf i).add ih

/-- The product with a factor that vanishes at the point. -/
theorem Bend.mul_zero (h : Bend k f p) (h0 : f p = 0) (hg : ContinuousAt g p) :
    Bend k (fun x => f x * g x) p := by
  obtain ⟨L, m, h⟩ := h
  refine ⟨g p • L, g p * m, fun q => ?_⟩
  have h1 := (hasDerivWithinAt_iff_tendsto_slope' (by simp)).1 (h q)
  rw [hasDerivWithinAt_iff_tendsto_slope' (by simp)]
  have h2 : Tendsto (fun τ : ℝ => g (p + τ • q)) (𝓝[>] 0) (𝓝 (g p)) :=
    hg.tendsto.comp ((line_cont p q).mono_left nhdsWithin_le_nhds)
  have h3 := h1.mul h2
  have e : (g p • L) q + g p * m * |k q| = (L q + m * |k q|) * g p := by
    simp
    ring
  rw [e]
  refine h3.congr' (Eventually.of_forall fun τ => ?_)
  simp only [slope_def_field, zero_smul, add_zero, h0, zero_mul, sub_zero]
  ring

/-- Absolute values. -/
theorem Bend.abs (h : HasFDerivAt f f' p) (hk : f p = 0 → k = f') : Bend k (fun x => |f x|) p := by
  rcases lt_trichotomy (f p) 0 with h0 | h0 | h0
  · refine (Bend.of_deriv k h.neg).congr ?_
    filter_upwards [h.continuousAt.eventually (gt_mem_nhds h0)] with x hx
    exact (abs_of_neg hx).symm
  · refine ⟨0, 1, fun q => ?_⟩
    have := abs_right (along_line h q) (by simpa using h0)
    rw [hk h0]
    simpa using this
  · refine (Bend.of_deriv k h).congr ?_
    filter_upwards [h.continuousAt.eventually (lt_mem_nhds h0)] with x hx
    exact (abs_of_pos hx).symm

/-- Maxima. -/
theorem Bend.max_const (c : ℝ) (h : HasFDerivAt f f' p) (hk : f p = c → k = f') :
    Bend k (fun x => max (f x) c) p := by
  have h1 : Bend k (fun x => |f x - c|) p := .abs (h.sub_const c) fun e => hk (sub_eq_zero.1 e)
  have h2 := ((Bend.const k (1 / 2) p).mul (h1.add (.of_deriv k h))).add (.const k (c / 2) p)
  refine h2.congr (Eventually.of_forall fun x => ?_)
  rcases le_total (f x) c with e | e
  · simp only [max_eq_right e, abs_of_nonpos (sub_nonpos.2 e)]
    ring
  · simp only [max_eq_left e, abs_of_nonneg (sub_nonneg.2 e)]
    ring

/-- Composition with a linear map. -/
theorem Bend.comp_snd {F : Type} [NormedAddCommGroup F] [NormedSpace ℝ F] {x : F} (h : Bend k f p) :
    Bend (k.comp (ContinuousLinearMap.snd ℝ F E)) (fun y : F × E => f y.2) (x, p) := by
  obtain ⟨L, m, h⟩ := h
  exact ⟨L.comp (ContinuousLinearMap.snd ℝ F E), m, fun q => h q.2⟩

/-- Of the speeds `u - c`, `u` and `u + c` at most one vanishes. -/
theorem speeds_bend {u c : E → ℝ} {u' c' : E →L[ℝ] ℝ} (hc0 : 0 < c p) (hu : HasFDerivAt u u' p)
    (hc : HasFDerivAt c c' p) : ∃ k : E →L[ℝ] ℝ, (u p = 0 → k = u') ∧ (u p - c p = 0 → k = u' - c') ∧
      (u p + c p = 0 → k = u' + c') := by
  by_cases h1 : u p = 0
  · exact ⟨u', fun _ => rfl, fun h => by linarith, fun h => by linarith⟩
  · by_cases h2 : u p - c p = 0
    · exact ⟨u' - c', fun h => (h1 h).elim, fun _ => rfl, fun h => by linarith⟩
    · exact ⟨u' + c', fun h => (h1 h).elim, fun h => (h2 h).elim, fun _ => rfl⟩

/-- The factor of the HLLEM solver. -/
theorem hllem_bend {u c : E → ℝ} {u' c' : E →L[ℝ] ℝ} (hc0 : 0 < c p) (hu : HasFDerivAt u u' p)
    (hc : HasFDerivAt c c' p) (θ₀ : ℝ) : ∃ k : E →L[ℝ] ℝ, Bend k (fun x => max (u x + c x) 0) p ∧
      Bend k (fun x => max (u x + c x) 0 * max (|u x| / (|u x| + c x)) θ₀) p := by
  have hd : ∀ x, 0 ≤ |u x| := fun x => abs_nonneg _
  have hden : |u p| + c p ≠ 0 := by have := hd p; linarith
  have hcont : ContinuousAt (fun x => |u x| / (|u x| + c x)) p :=
    hu.continuousAt.abs.div (hu.continuousAt.abs.add hc.continuousAt) hden
  by_cases h0 : u p = 0
  · have hm : ∀ k, Bend k (fun x => max (u x + c x) 0) p := fun k =>
      .max_const 0 (hu.add hc) fun e => by
        have e' : u p + c p = 0 := e
        linarith
    have hq : Bend u' (fun x => |u x| / (|u x| + c x)) p := by
      have h1 : Bend u' (fun x => |u x|) p := .abs hu fun _ => rfl
      have h2 := h1.mul_zero (g := fun x => (|u x| + c x)⁻¹) (by rw [h0, abs_zero])
        ((hu.continuousAt.abs.add hc.continuousAt).inv₀ hden)
      simpa only [div_eq_mul_inv] using h2
    refine ⟨u', hm u', (hm u').mul ?_⟩
    by_cases hθ : 0 < θ₀
    · refine (Bend.const u' θ₀ p).congr ?_
      have : |u p| / (|u p| + c p) < θ₀ := by rw [h0, abs_zero, zero_div]; exact hθ
      filter_upwards [hcont.eventually (gt_mem_nhds this)] with x hx
      exact (max_eq_right hx.le).symm
    · refine hq.congr ?_
      filter_upwards [hc.continuousAt.eventually (lt_mem_nhds hc0)] with x hx
      have : 0 ≤ |u x| / (|u x| + c x) := div_nonneg (hd x) (add_nonneg (hd x) hx.le)
      exact (max_eq_left ((not_lt.1 hθ).trans this)).symm
  · by_cases h1 : u p + c p = 0
    · have hm : Bend (u' + c') (fun x => max (u x + c x) 0) p := .max_const 0 (hu.add hc) fun _ => rfl
      exact ⟨_, hm, hm.mul_zero (by rw [h1, max_self]) (hcont.max continuousAt_const)⟩
    · have hm : ∀ k, Bend k (fun x => max (u x + c x) 0) p := fun k =>
        .max_const 0 (hu.add hc) fun e => (h1 e).elim
      have ha : DifferentiableAt ℝ (fun x => |u x|) p := hu.differentiableAt.abs h0
      have hi : DifferentiableAt ℝ (fun x => (|u x| + c x)⁻¹) p :=
        (differentiableAt_inv hden).comp p (ha.add hc.differentiableAt)
      have hq : DifferentiableAt ℝ (fun x => |u x| / (|u x| + c x)) p := by
        simp only [div_eq_mul_inv]
        exact ha.mul hi
      exact ⟨_, hm _, (hm _).mul (.max_const θ₀ hq.hasFDerivAt fun _ => rfl)⟩

/-- The eigenvalues of the stabilisation matrices have at most one kink at each state. -/
theorem sigma_bend (hγ : 1 < γ) (rs : Riemann) (d : Fin 2 → ℝ) {w : Fin 4 → ℝ}
    (hw : GasVec (n := 2) w) : ∃ k : (Fin 4 → ℝ) →L[ℝ] ℝ, ∀ i,
      Bend k (fun w => rs.sigma (soundOf (n := 2) γ w) (velOf w) d i) w := by
  have hc : HasFDerivAt (soundOf (n := 2) γ) _ w :=
    ((soundOf_contDiffAt (n := 2) hγ hw).differentiableAt one_ne_zero).hasFDerivAt
  have h0 := velOf_contDiffAt hw.1.ne' 0
  have h1 := velOf_contDiffAt hw.1.ne' 1
  have hn : ContDiffAt ℝ 1 (fun w => velOf w ⬝ᵥ d) w := by
    simp only [dotProduct, Fin.sum_univ_two]
    fun_prop
  have hu : HasFDerivAt (fun w => velOf w ⬝ᵥ d) _ w := (hn.differentiableAt one_ne_zero).hasFDerivAt
  have c0 := soundOf_pos hγ hw
  obtain ⟨k, k1, k2, k3⟩ := speeds_bend c0 hu hc
  cases rs with
  | upwind =>
    refine ⟨k, fun i => ?_⟩
    fin_cases i
    · exact .max_const 0 (hu.sub hc) k2
    · exact .max_const 0 hu k1
    · exact .max_const 0 hu k1
    · exact .max_const 0 (hu.add hc) k3
  | laxFriedrich => exact ⟨k, fun i => (Bend.abs hu k1).add (.of_deriv k hc)⟩
  | roe =>
    refine ⟨k, fun i => ?_⟩
    fin_cases i
    · exact .abs (hu.sub hc) k2
    · exact .abs hu k1
    · exact .abs hu k1
    · exact .abs (hu.add hc) k3
  | hll => exact ⟨k, fun i => .max_const 0 (hu.add hc) k3⟩
  | hllem θ₀ =>
    obtain ⟨k, h1, h2⟩ := hllem_bend c0 hu hc θ₀
    refine ⟨k, fun i => ?_⟩
    fin_cases i
    · exact h1.mul (.const k 1 w)
    · exact h2
    · exact h2
    · exact h1.mul (.const k 1 w)

/-- The numerical fluxes have at most one kink at each state. -/
theorem stabFlux_oneSided (hγ : 1 < γ) (rs : Riemann) (d : Fin 2 → ℝ)
    {p : (Fin 4 → ℝ) × (Fin 4 → ℝ)} (hp : GasVec (n := 2) p.2) :
    ∃ l : (Fin 4 → ℝ) × (Fin 4 → ℝ) →L[ℝ] Fin 4 → ℝ, ∀ q i,
      OneSided (fun τ : ℝ => stabFlux γ rs d (p + τ • q) i) (l q i) := by
  obtain ⟨x, w⟩ := p
  obtain ⟨k, hk⟩ := sigma_bend hγ rs d hp
  have hi : ∀ i, ∃ l : (Fin 4 → ℝ) × (Fin 4 → ℝ) →L[ℝ] ℝ, ∀ q,
      OneSided (fun τ : ℝ => stabFlux γ rs d ((x, w) + τ • q) i) (l q) := by
    intro i
    refine Bend.oneSided (k := k.comp (ContinuousLinearMap.snd ℝ (Fin 4 → ℝ) (Fin 4 → ℝ)))
      (f := fun p => stabFlux γ rs d p i) ?_
    have e : ∀ p : (Fin 4 → ℝ) × (Fin 4 → ℝ), stabFlux γ rs d p i = eulerFluxOf (n := 2) γ d p.2 i
        + ∑ j, (∑ l, matP γ (p.2 0) (soundOf (n := 2) γ p.2) (velOf p.2) d i l *
          rs.sigma (soundOf (n := 2) γ p.2) (velOf p.2) d l *
          matPinv γ (p.2 0) (soundOf (n := 2) γ p.2) (velOf p.2) d l j) * (p.1 j - p.2 j) := by
      intro p
      simp only [stabFlux, tauOf, Pi.add_apply, mulVec, dotProduct, Matrix.mul_apply (M := _ * _),
        mul_diagonal, Pi.sub_apply]
    simp only [e]
    have h1 : ContDiffAt ℝ 1 (fun w => eulerFluxOf (n := 2) γ d w i) w :=
      contDiffAt_pi.1 (flux_contDiffAt (n := 2) γ d hp.1.ne') i
    refine (Bend.comp_snd (.of_contDiffAt k h1)).add (Bend.sum _ fun j => Bend.mul (Bend.sum _ fun l =>
      ((Bend.comp_snd (.of_contDiffAt k (matP_contDiffAt hγ d hp i l))).mul (Bend.comp_snd (hk l))).mul
        (Bend.comp_snd (.of_contDiffAt k (matPinv_contDiffAt hγ d hp l j)))) ?_)
    exact .of_contDiffAt _ (by fun_prop)
  choose l hl using hi
  exact ⟨ContinuousLinearMap.pi l, fun q i => hl i q⟩

end Dream
