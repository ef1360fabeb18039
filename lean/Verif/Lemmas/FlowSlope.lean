import Verif.Spec.NewtonFlow
import Verif.Props.ShortSteps
import Mathlib.Analysis.Calculus.Deriv.Slope
import Mathlib.Analysis.Calculus.Deriv.Comp
import Mathlib.Analysis.Calculus.Deriv.Add
import Mathlib.Analysis.Calculus.Deriv.Mul

/-!
# Slopes of fluxes along lines
-/

noncomputable section

namespace Dream
open Matrix Set Filter Topology _root_.Spec

variable {n : ℕ} {γ : ℝ} {V B : Type} [Fintype V] [Fintype B]

/-- A filter along which the slopes tend to the one-sided derivative. -/
theorem OneSided.filter {f : ℝ → ℝ} {d : ℝ} (h : OneSided f d) :
    ∃ l : Filter ℝ, l.NeBot ∧ l ≤ 𝓝[≠] 0 ∧ Tendsto (slope f 0) l (𝓝 d) := by
  rcases h with h | h
  · exact ⟨𝓝[>] 0, inferInstance, nhdsWithin_mono _ fun x hx => ne_of_gt hx,
      (hasDerivWithinAt_iff_tendsto_slope' (by simp)).1 h⟩
  · exact ⟨𝓝[<] 0, inferInstance, nhdsWithin_mono _ fun x hx => ne_of_lt hx,
      (hasDerivWithinAt_iff_tendsto_slope' (by simp)).1 h⟩

theorem oneSided_of_deriv {f : ℝ → ℝ} {d : ℝ} (h : HasDerivAt f d 0) : OneSided f d :=
  Or.inl h.hasDerivWithinAt

theorem OneSided.congr {f g : ℝ → ℝ} {d : ℝ} (h : OneSided f d) (hg : f =ᶠ[𝓝 0] g) :
    OneSided g d := by
  have h0 : f 0 = g 0 := hg.eq_of_nhds
  rcases h with h | h
  · exact Or.inl (h.congr_of_eventuallyEq (hg.symm.filter_mono nhdsWithin_le_nhds) h0.symm)
  · exact Or.inr (h.congr_of_eventuallyEq (hg.symm.filter_mono nhdsWithin_le_nhds) h0.symm)

/-- A line. -/
theorem line_deriv {E : Type} [NormedAddCommGroup E] [NormedSpace ℝ E] (p q : E) :
    HasDerivAt (fun τ : ℝ => p + τ • q) q 0 := by
  have := ((hasDerivAt_id (0 : ℝ)).smul_const q).const_add p
  simpa using this

theorem line_cont {E : Type} [NormedAddCommGroup E] [NormedSpace ℝ E] (p q : E) :
    Tendsto (fun τ : ℝ => p + τ • q) (𝓝 0) (𝓝 p) := by
  have := (line_deriv p q).continuousAt.tendsto
  simpa using this

theorem along_line {E F : Type} [NormedAddCommGroup E] [NormedSpace ℝ E] [NormedAddCommGroup F]
    [NormedSpace ℝ F] {f : E → F} {f' : E →L[ℝ] F} {p : E} (h : HasFDerivAt f f' p) (q : E) :
    HasDerivAt (fun τ : ℝ => f (p + τ • q)) (f' q) 0 :=
  HasFDerivAt.comp_hasDerivAt_of_eq (0 : ℝ) h (line_deriv p q) (by simp)

/-- Slopes along a line near a point at which a function is strictly differentiable. -/
theorem slope_near {E : Type} [NormedAddCommGroup E] [NormedSpace ℝ E] {f : E → ℝ} {f' : E →L[ℝ] ℝ}
    {p : E} (h : HasStrictFDerivAt f f' p) (q : E) {ε : ℝ} (hε : 0 < ε) :
    ∀ᶠ x in 𝓝 p, ∀ e, OneSided (fun τ : ℝ => f (x + τ • q)) e → |e - f' q| ≤ ε := by
  have hc : 0 < ε / (‖q‖ + 1) := by positivity
  have h1 := h.isLittleO.def hc
  rw [nhds_prod_eq] at h1
  obtain ⟨U, hU, hUU⟩ := (Filter.eventually_prod_self_iff (r := fun x y =>
    ‖f x - f y - f' (x - y)‖ ≤ ε / (‖q‖ + 1) * ‖x - y‖)).1 h1
  filter_upwards [eventually_eventually_nhds.2 hU] with x hx e he
  obtain ⟨l, hl, hl0, ht⟩ := he.filter
  have hl1 : l ≤ 𝓝 0 := hl0.trans nhdsWithin_le_nhds
  have hin : ∀ᶠ τ in l, x + τ • q ∈ U := (line_cont x q).mono_left hl1 hx
  have hne : ∀ᶠ τ in l, τ ≠ 0 := hl0 self_mem_nhdsWithin
  refine le_of_tendsto (ht.sub_const (f' q)).abs ?_
  filter_upwards [hin, hne] with τ h2 h3
  have h4 := hUU (x + τ • q) h2 x (mem_of_mem_nhds hx)
  simp only [add_sub_cancel_left, map_smul, smul_eq_mul, norm_smul, Real.norm_eq_abs] at h4
  have e1 : slope (fun τ : ℝ => f (x + τ • q)) 0 τ - f' q
      = (f (x + τ • q) - f x - τ * f' q) / τ := by
    simp only [slope_def_field, zero_smul, add_zero, sub_zero]
    field_simp
  rw [e1, abs_div, div_le_iff₀ (abs_pos.2 h3)]
  refine h4.trans ?_
  have h5 : ε / (‖q‖ + 1) * ‖q‖ ≤ ε := by
    rw [div_mul_eq_mul_div, div_le_iff₀ (by positivity)]
    nlinarith [norm_nonneg q]
  nlinarith [abs_nonneg τ]

/-- Slopes in a fixed direction tend to the strict derivative. -/
theorem oneSided_tendsto {E : Type} [NormedAddCommGroup E] [NormedSpace ℝ E] {f : E → ℝ}
    {f' : E →L[ℝ] ℝ} {p : E} (h : HasStrictFDerivAt f f' p) (q : E) {X : Type} {l : Filter X}
    {g : X → E} (hg : Tendsto g l (𝓝 p)) {e : X → ℝ}
    (he : ∀ᶠ x in l, OneSided (fun τ : ℝ => f (g x + τ • q)) (e x)) : Tendsto e l (𝓝 (f' q)) := by
  rw [Metric.tendsto_nhds]
  intro ε hε
  filter_upwards [he, hg.eventually (slope_near h q (half_pos hε))] with x h1 h2
  rw [Real.dist_eq]
  linarith [h2 _ h1]

/-- Along a filter of nonzero numbers a function has only one slope. -/
theorem OneSided.eq {f : ℝ → ℝ} {d e : ℝ} (h : OneSided f e) (hd : HasDerivAt f d 0) : e = d := by
  obtain ⟨l, hl, hl0, ht⟩ := h.filter
  exact tendsto_nhds_unique ht ((hasDerivAt_iff_tendsto_slope.1 hd).mono_left hl0)

open Classical in
/-- The data `D` are the slopes of fluxes, residuals and sources along a line. -/
structure IsSlope (γ : ℝ)
    (N : B → (Fin (n + 2) → ℝ) × (Fin (n + 2) → ℝ) → Fin (n + 2) → ℝ) (M : HdgMesh n V B) (mask : B → ℝ) (cond : B → FacetCond n)
    (σ : V → ℝ) (w : Fin (n + 2) → ℝ) (z z' : ElementFn n (n + 2) V B × (B → Fin (n + 2) → ℝ))
    (D : FluxData n V B) : Prop where
  flux : ∀ v i j, HasDerivAt (fun τ : ℝ => (fluxDataN γ N M mask cond σ w (z + τ • z')).1 v i j)
    (D.1 v i j) 0
  numerical : ∀ b i, OneSided (fun τ : ℝ => (fluxDataN γ N M mask cond σ w (z + τ • z')).2.1 b i)
    (D.2.1 b i)
  residual : ∀ b i, HasDerivAt (fun τ : ℝ => (fluxDataN γ N M mask cond σ w (z + τ • z')).2.2.1 b i)
    (D.2.2.1 b i) 0
  source : ∀ v i, HasDerivAt (fun τ : ℝ => (fluxDataN γ N M mask cond σ w (z + τ • z')).2.2.2 v i)
    (D.2.2.2 v i) 0

/-- All values are those of a gas. -/
def GasData (z : ElementFn n (n + 2) V B × (B → Fin (n + 2) → ℝ)) : Prop :=
  (∀ v, GasVec (z.1.2.1 v)) ∧ (∀ b, GasVec (z.1.2.2 b)) ∧ ∀ b, GasVec (z.2 b)

end Dream
