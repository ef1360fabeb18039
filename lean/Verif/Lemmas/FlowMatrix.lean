import Verif.Lemmas.FlowCoeffs

/-!
# The matrix of the flow solver is continuous at uniform flow
-/

noncomputable section

namespace Dream
open Matrix Set Filter Topology _root_.Spec

variable {n : ℕ} {γ : ℝ} {V B : Type} [Fintype V] [Fintype B] {ι κ : Type} [Fintype ι] [Fintype κ]
  {P : HdgSpaces n (n + 2) V B} {M : HdgMesh n V B} {mask : B → ℝ}

theorem gasData_nhds {z : ElementFn n (n + 2) V B × (B → Fin (n + 2) → ℝ)} (hz : GasData z) :
    ∀ᶠ y in 𝓝 z, GasData y := by
  refine (eventually_all.2 fun v => ?_).and ((eventually_all.2 fun b => ?_).and
    (eventually_all.2 fun b => ?_))
  · have : ContinuousAt (fun y : ElementFn n (n + 2) V B × (B → Fin (n + 2) → ℝ) => y.1.2.1 v) z := by
      fun_prop
    exact this.eventually (gasVec_nhds (hz.1 v))
  · have : ContinuousAt (fun y : ElementFn n (n + 2) V B × (B → Fin (n + 2) → ℝ) => y.1.2.2 b) z := by
      fun_prop
    exact this.eventually (gasVec_nhds (hz.2.1 b))
  · have : ContinuousAt (fun y : ElementFn n (n + 2) V B × (B → Fin (n + 2) → ℝ) => y.2 b) z := by
      fun_prop
    exact this.eventually (gasVec_nhds (hz.2.2 b))

section
open Classical

variable {N : B → (Fin (n + 2) → ℝ) × (Fin (n + 2) → ℝ) → Fin (n + 2) → ℝ} {rs : Riemann} {cond : B → FacetCond n} {S : GasState n} {σ : V → ℝ}

theorem flow_slope (hS : IdealGas γ S)
    (hN : ∀ b (u : Fin (n + 2) → ℝ) {uHat : Fin (n + 2) → ℝ}, GasVec uHat →
      convectiveNumericalFlux γ rs u uHat (conservativeDict (gasOf γ uHat)) (M.normal b)
        = .ok (N b (u, uHat)))
    (hm : ∀ b, mask b = 0 ∨ mask b = 1)
    (hc : ∀ b, mask b = 0 → (cond b).Admits S (M.normal b))
    {z z' : ElementFn n (n + 2) V B × (B → Fin (n + 2) → ℝ)} (hz : GasData z)
    {x' : HdgState n (n + 2) V B}
    (h : x'.IsFlowSlope γ rs M mask cond σ (conservativeDict S) z.1 z.2 z'.1 z'.2) :
    x'.G = 0 ∧ x'.Gn = 0 ∧ IsSlope γ N M mask cond σ (consVec S.rho S.rho_u S.rho_E) z z'
      (fun v i j => x'.F v i j, x'.Fn, x'.R, x'.source) := by
  obtain ⟨y, hy, hG, hGn, h1, h2, h3, h4⟩ := h
  have ev : ∀ᶠ τ in 𝓝 (0 : ℝ), y τ = dataState (z + τ • z').1
      (fluxDataN γ N M mask cond σ (consVec S.rho S.rho_u S.rho_E) (z + τ • z')) := by
    filter_upwards [hy, (line_cont z z').eventually (gasData_nhds hz)] with τ e1 e2
    exact (isFlowN_iff hS.gamma hN hm hc σ (a := (z + τ • z').1) (ζ := (z + τ • z').2) e2.1 e2.2.1
      e2.2.2 _).1 e1
  refine ⟨hG, hGn, ⟨fun v i j => ?_, fun b i => ?_, fun b i => ?_, fun v i => ?_⟩⟩
  · exact (h1 v i j).congr_of_eventuallyEq (ev.mono fun τ e => by simp only [e]; rfl)
  · exact (h2 b i).congr (ev.mono fun τ e => by simp only [e]; rfl)
  · exact (h3 b i).congr_of_eventuallyEq (ev.mono fun τ e => by simp only [e]; rfl)
  · exact (h4 v i).congr_of_eventuallyEq (ev.mono fun τ e => by simp only [e]; rfl)

/-- Slopes in a fixed direction tend to those at the uniform flow. -/
theorem slope_tendsto {w : Fin (n + 2) → ℝ}
    {z0 z' : ElementFn n (n + 2) V B × (B → Fin (n + 2) → ℝ)}
    {D' : (ElementFn n (n + 2) V B × (B → Fin (n + 2) → ℝ)) →L[ℝ] FluxData n V B}
    (hD0 : HasStrictFDerivAt (fluxDataN γ N M mask cond σ w) D' z0) {X : Type}
    {l : Filter X} {g : X → ElementFn n (n + 2) V B × (B → Fin (n + 2) → ℝ)} (hg : Tendsto g l (𝓝 z0))
    {D : X → FluxData n V B}
    (hD : ∀ᶠ x in l, IsSlope γ N M mask cond σ w (g x) z' (D x)) : Tendsto D l (𝓝 (D' z')) := by
  have l1 : ∀ (L : FluxData n V B →ₗ[ℝ] ℝ),
      (∀ᶠ x in l, OneSided (fun τ : ℝ => L (fluxDataN γ N M mask cond σ w (g x + τ • z'))) (L (D x))) →
      Tendsto (fun x => L (D x)) l (𝓝 (L (D' z'))) := by
    intro L hL
    obtain ⟨L', hL'⟩ := exists_clm L
    simp only [← hL'] at hL ⊢
    exact oneSided_tendsto (L'.hasStrictFDerivAt.comp z0 hD0) z' hg hL
  refine Tendsto.prodMk_nhds ?_ (Tendsto.prodMk_nhds ?_ (Tendsto.prodMk_nhds ?_ ?_))
  · refine tendsto_pi_nhds.2 fun v => tendsto_pi_nhds.2 fun i => tendsto_pi_nhds.2 fun j => ?_
    exact l1 ⟨⟨fun D => D.1 v i j, fun _ _ => rfl⟩, fun _ _ => rfl⟩
      (hD.mono fun x hx => oneSided_of_deriv (hx.flux v i j))
  · refine tendsto_pi_nhds.2 fun b => tendsto_pi_nhds.2 fun i => ?_
    exact l1 ⟨⟨fun D => D.2.1 b i, fun _ _ => rfl⟩, fun _ _ => rfl⟩
      (hD.mono fun x hx => hx.numerical b i)
  · refine tendsto_pi_nhds.2 fun b => tendsto_pi_nhds.2 fun i => ?_
    exact l1 ⟨⟨fun D => D.2.2.1 b i, fun _ _ => rfl⟩, fun _ _ => rfl⟩
      (hD.mono fun x hx => oneSided_of_deriv (hx.residual b i))
  · refine tendsto_pi_nhds.2 fun v => tendsto_pi_nhds.2 fun i => ?_
    exact l1 ⟨⟨fun D => D.2.2.2 v i, fun _ _ => rfl⟩, fun _ _ => rfl⟩
      (hD.mono fun x hx => oneSided_of_deriv (hx.source v i))

end

end Dream
