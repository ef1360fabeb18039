import Verif.Props.ShortSteps
import Verif.Spec.Returns
import Mathlib.LinearAlgebra.Matrix.SesquilinearForm

/-!
# The energy of perturbations of uniform flow
-/

noncomputable section

namespace Dream
open Matrix _root_.Spec

variable {n : ℕ} {γ : ℝ} {V B : Type} [Fintype V] [Fintype B]

/-! ### Linearised fluxes -/

theorem fluxJac_apply (γ : ℝ) (d : Fin n → ℝ) {w : Fin (n + 2) → ℝ} (h0 : w 0 ≠ 0)
    (v : Fin (n + 2) → ℝ) : fluxJac γ d w v = fluxDeriv γ d w v := by
  obtain ⟨A, hA, h⟩ := flux_fderiv γ d w h0
  rw [fluxJac, hA.fderiv, h]

theorem fluxJac_wave {S : GasState n} (hS : IdealGas γ S) (d : Fin n → ℝ) (a : ℝ) (β : Fin n → ℝ)
    (π : ℝ) : fluxJac γ d (consVec S.rho S.rho_u S.rho_E) (wave γ S.u a β π)
      = wave γ S.u ((S.u ⬝ᵥ d) * a + β ⬝ᵥ d) ((S.u ⬝ᵥ d) • β + π • d)
          ((S.u ⬝ᵥ d) * π + S.c ^ 2 * (β ⬝ᵥ d)) := by
  rw [fluxJac_apply γ d (by simpa using hS.rho_pos.ne'), fluxDeriv_wave hS]

theorem pointFlux_fderiv (γ : ℝ) {w : Fin (n + 2) → ℝ} (h0 : w 0 ≠ 0) (v : Fin (n + 2) → ℝ)
    (i : Fin (n + 2)) (j : Fin n) :
    fderiv ℝ (pointFlux γ) w v i j = fluxJac γ (Pi.single j 1) w v i := by
  have hd : ∀ d, DifferentiableAt ℝ (eulerFluxOf γ d) w := fun d => flux_differentiable γ d w h0
  have h1 : HasFDerivAt (pointFlux γ) (ContinuousLinearMap.pi fun i => ContinuousLinearMap.pi fun j =>
      (ContinuousLinearMap.proj i).comp (fluxJac γ (Pi.single j 1) w)) w := by
    rw [hasFDerivAt_pi]
    intro i
    rw [hasFDerivAt_pi]
    intro j
    exact (ContinuousLinearMap.proj (R := ℝ) (φ := fun _ : Fin (n + 2) => ℝ) i).hasFDerivAt.comp w
      (hd (Pi.single j 1)).hasFDerivAt
  rw [h1.fderiv]
  rfl

/-! ### The energy -/

/-- The pressure of a perturbation. -/
def waveP (γ : ℝ) (u : Fin n → ℝ) (v : Fin (n + 2) → ℝ) : ℝ :=
  (γ - 1) * (v (Fin.last (n + 1)) - u ⬝ᵥ mom v + (u ⬝ᵥ u) * v 0 / 2)

/-- The energy of perturbations of a gas with velocity `u` and speed of sound `c`: of pressure, of
momentum relative to the gas, and of entropy, with the weight `κ`. -/
def waveEnergy (γ : ℝ) (u : Fin n → ℝ) (c κ : ℝ) :
    (Fin (n + 2) → ℝ) →ₗ[ℝ] (Fin (n + 2) → ℝ) →ₗ[ℝ] ℝ :=
  LinearMap.mk₂ ℝ (fun v v' => waveP γ u v * waveP γ u v'
      + c ^ 2 * ((mom v - v 0 • u) ⬝ᵥ (mom v' - v' 0 • u))
      + κ * ((waveP γ u v - c ^ 2 * v 0) * (waveP γ u v' - c ^ 2 * v' 0)))
    (fun v v' z => by
      have h : mom (v + v') = mom v + mom v' := rfl
      simp only [waveP, h, Pi.add_apply, dotProduct_add, add_dotProduct, sub_dotProduct,
        dotProduct_sub, smul_dotProduct, dotProduct_smul, smul_eq_mul]
      ring)
    (fun s v z => by
      have h : mom (s • v) = s • mom v := rfl
      simp only [waveP, h, Pi.smul_apply, sub_dotProduct,
        dotProduct_sub, smul_dotProduct, dotProduct_smul, smul_eq_mul]
      ring)
    (fun v z z' => by
      have h : mom (z + z') = mom z + mom z' := rfl
      simp only [waveP, h, Pi.add_apply, dotProduct_add, add_dotProduct, sub_dotProduct,
        dotProduct_sub, smul_dotProduct, dotProduct_smul, smul_eq_mul]
      ring)
    (fun s v z => by
      have h : mom (s • z) = s • mom z := rfl
      simp only [waveP, h, Pi.smul_apply, sub_dotProduct,
        dotProduct_sub, smul_dotProduct, dotProduct_smul, smul_eq_mul]
      ring)

theorem waveP_wave (hγ : 1 < γ) (u : Fin n → ℝ) (a : ℝ) (β : Fin n → ℝ) (π : ℝ) :
    waveP γ u (wave γ u a β π) = π := by
  have g : γ - 1 ≠ 0 := by linarith
  have hm : mom (wave γ u a β π) = a • u + β := by funext i; simp [wave]
  have h0 : wave γ u a β π 0 = a := rfl
  have hl : wave γ u a β π (Fin.last (n + 1)) = π / (γ - 1) + (u ⬝ᵥ u) * a / 2 + u ⬝ᵥ β :=
    consVec_last _ _ _
  simp only [waveP, hm, h0, hl, dotProduct_add, dotProduct_smul, smul_eq_mul]
  field_simp
  ring

theorem waveEnergy_wave (hγ : 1 < γ) (u : Fin n → ℝ) (c κ a : ℝ) (β : Fin n → ℝ) (π a' : ℝ)
    (β' : Fin n → ℝ) (π' : ℝ) :
    waveEnergy γ u c κ (wave γ u a β π) (wave γ u a' β' π')
      = π * π' + c ^ 2 * (β ⬝ᵥ β') + κ * ((π - c ^ 2 * a) * (π' - c ^ 2 * a')) := by
  have hm : ∀ a β π, mom (wave γ u a β π) = a • u + β := fun a β π => by funext i; simp [wave]
  have h0 : ∀ a β π, wave γ u a β π 0 = a := fun _ _ _ => rfl
  simp only [waveEnergy, LinearMap.mk₂_apply, waveP_wave hγ, hm, h0, add_sub_cancel_left]

theorem waveEnergy_comm (γ : ℝ) (u : Fin n → ℝ) (c κ : ℝ) (v z : Fin (n + 2) → ℝ) :
    waveEnergy γ u c κ v z = waveEnergy γ u c κ z v := by
  simp only [waveEnergy, LinearMap.mk₂_apply]
  rw [dotProduct_comm]
  ring

theorem waveEnergy_pos (hγ : 1 < γ) (u : Fin n → ℝ) {c κ : ℝ} (hc : 0 < c) (hg : 0 < κ)
    {v : Fin (n + 2) → ℝ} (hv : v ≠ 0) : 0 < waveEnergy γ u c κ v v := by
  obtain ⟨a, β, π, rfl⟩ := wave_surj hγ u v
  rw [waveEnergy_wave hγ]
  have hβ : 0 ≤ β ⬝ᵥ β := Finset.sum_nonneg fun i _ => mul_self_nonneg _
  have h1 := mul_self_nonneg π
  have h2 := mul_nonneg (sq_nonneg c) hβ
  have h3 := mul_nonneg hg.le (mul_self_nonneg (π - c ^ 2 * a))
  refine lt_of_le_of_ne (by linarith) fun h => hv ?_
  have e1 : π = 0 := mul_self_eq_zero.1 (by linarith)
  have e2 : c ^ 2 * (β ⬝ᵥ β) = 0 := by linarith
  have e3 : κ * ((π - c ^ 2 * a) * (π - c ^ 2 * a)) = 0 := by linarith
  have e4 : β = 0 := dotProduct_self_eq_zero.1 ((mul_eq_zero.1 e2).resolve_left (by positivity))
  have e5 : π - c ^ 2 * a = 0 := mul_self_eq_zero.1 ((mul_eq_zero.1 e3).resolve_left hg.ne')
  have e6 : a = 0 := by
    rw [e1, zero_sub, neg_eq_zero] at e5
    exact (mul_eq_zero.1 e5).resolve_left (by positivity)
  subst e1 e4 e6
  refine cons_ext ?_ (fun i => ?_) ?_ <;> simp [wave]

/-- The linearised flux is symmetric. -/
theorem waveEnergy_flux {S : GasState n} (hS : IdealGas γ S) (κ : ℝ) (d : Fin n → ℝ)
    (v z : Fin (n + 2) → ℝ) :
    waveEnergy γ S.u S.c κ (fluxJac γ d (consVec S.rho S.rho_u S.rho_E) v) z
      = waveEnergy γ S.u S.c κ v (fluxJac γ d (consVec S.rho S.rho_u S.rho_E) z) := by
  have hγ := hS.gamma
  obtain ⟨a, β, π, rfl⟩ := wave_surj hγ S.u v
  obtain ⟨a', β', π', rfl⟩ := wave_surj hγ S.u z
  rw [fluxJac_wave hS, fluxJac_wave hS, waveEnergy_wave hγ, waveEnergy_wave hγ]
  simp only [add_dotProduct, dotProduct_add, smul_dotProduct, dotProduct_smul, smul_eq_mul]
  rw [dotProduct_comm d β']
  ring

/-- The fluxes are linear in the direction. -/
theorem fluxJac_sum {S : GasState n} (hS : IdealGas γ S) (d : Fin n → ℝ) (v : Fin (n + 2) → ℝ) :
    fluxJac γ d (consVec S.rho S.rho_u S.rho_E) v
      = ∑ j, d j • fluxJac γ (Pi.single j 1) (consVec S.rho S.rho_u S.rho_E) v := by
  have hγ := hS.gamma
  obtain ⟨a, β, π, rfl⟩ := wave_surj hγ S.u v
  simp only [fluxJac_wave hS, wave_smul]
  have hs : ∀ (s : Finset (Fin n)) (f : Fin n → ℝ) (g : Fin n → Fin n → ℝ) (h : Fin n → ℝ),
      ∑ j ∈ s, wave γ S.u (f j) (g j) (h j) = wave γ S.u (∑ j ∈ s, f j) (∑ j ∈ s, g j)
        (∑ j ∈ s, h j) := by
    classical
    intro s f g h
    induction s using Finset.induction_on with
    | empty =>
      refine cons_ext ?_ (fun i => ?_) ?_ <;> simp [wave]
    | insert j s hj ih => rw [Finset.sum_insert hj, ih, wave_add, Finset.sum_insert hj,
        Finset.sum_insert hj, Finset.sum_insert hj]
  rw [hs]
  have e : ∀ x : Fin n → ℝ, x ⬝ᵥ d = ∑ j, d j * x j := fun x => by
    simp only [dotProduct]
    exact Finset.sum_congr rfl fun j _ => mul_comm _ _
  congr 1
  · simp only [dotProduct_single_one, e]
    rw [Finset.sum_mul, ← Finset.sum_add_distrib]
    exact Finset.sum_congr rfl fun j _ => by ring
  · simp only [dotProduct_single_one, e]
    funext i
    simp only [Pi.add_apply, Pi.smul_apply, smul_eq_mul, Finset.sum_apply, Finset.sum_mul]
    have h1 : ∑ j, d j * (S.u j * β i + π * (Pi.single j (1 : ℝ) : Fin n → ℝ) i)
        = ∑ j, d j * S.u j * β i + π * d i := by
      simp only [mul_add, Finset.sum_add_distrib]
      congr 1
      · exact Finset.sum_congr rfl fun j _ => by ring
      · rw [Finset.sum_eq_single i]
        · simp
          ring
        · intro j _ hj
          simp [Pi.single_eq_of_ne hj.symm]
        · simp
    rw [h1]
  · simp only [dotProduct_single_one, e]
    rw [Finset.sum_mul, Finset.mul_sum, ← Finset.sum_add_distrib]
    exact Finset.sum_congr rfl fun j _ => by ring

/-! ### The rate of change of the energy -/

/-- `E` is an energy that neither the numerical flux inside nor the conditions on the boundary
increase. -/
structure EnergyFits (γ : ℝ) (M : HdgMesh n V B) (mask : B → ℝ) (cond : B → FacetCond n)
    (w : Fin (n + 2) → ℝ) (τ : B → (Fin (n + 2) → ℝ) →L[ℝ] (Fin (n + 2) → ℝ))
    (E : (Fin (n + 2) → ℝ) →ₗ[ℝ] (Fin (n + 2) → ℝ) →ₗ[ℝ] ℝ) : Prop where
  comm : ∀ v z, E v z = E z v
  pos : ∀ v, v ≠ 0 → 0 < E v v
  flux : ∀ d v z, E (fluxJac γ d w v) z = E v (fluxJac γ d w z)
  sum : ∀ d v, fluxJac γ d w v = ∑ j, d j • fluxJac γ (Pi.single j 1) w v
  inside : ∀ b, mask b = 1 → ∀ v, E (fluxJac γ (M.normal b) w v) v ≤ 2 * E (τ b v) v
  outside : ∀ b, mask b = 0 → ∀ v z,
    z = fderiv ℝ (fun w => (cond b).value γ (M.normal b) w) w v →
    E (fluxJac γ (M.normal b) w v) v ≤ 2 * (E (fluxJac γ (M.normal b) w z) v + E (τ b (v - z)) v)

/-- Every bilinear form has a matrix. -/
theorem exists_formMatrix {k : ℕ} (E : (Fin k → ℝ) →ₗ[ℝ] (Fin k → ℝ) →ₗ[ℝ] ℝ) :
    ∃ S : Matrix (Fin k) (Fin k) ℝ, ∀ v z, E v z = v ⬝ᵥ S *ᵥ z :=
  ⟨LinearMap.toMatrix₂' ℝ E, fun v z => by
    rw [← Matrix.toLinearMap₂'_apply', Matrix.toLinearMap₂'_toMatrix']⟩

theorem exists_mapMatrix {k : ℕ} (A : (Fin k → ℝ) →ₗ[ℝ] (Fin k → ℝ)) :
    ∃ S : Matrix (Fin k) (Fin k) ℝ, ∀ v, A v = S *ᵥ v :=
  ⟨LinearMap.toMatrix' A, fun v => by
    rw [LinearMap.toMatrix'_mulVec]⟩

/-- Partial integration for the energy. -/
theorem energy_parts {P : HdgSpaces n (n + 2) V B} {M : HdgMesh n V B} {mask : B → ℝ}
    {cond : B → FacetCond n} (hR : P.Rich M mask cond) {w : Fin (n + 2) → ℝ}
    {τ : B → (Fin (n + 2) → ℝ) →L[ℝ] (Fin (n + 2) → ℝ)}
    {E : (Fin (n + 2) → ℝ) →ₗ[ℝ] (Fin (n + 2) → ℝ) →ₗ[ℝ] ℝ} (hE : EnergyFits γ M mask cond w τ E)
    {a : ElementFn n (n + 2) V B} (ha : a ∈ P.element) :
    2 * ∑ v, M.wV v * ∑ j, E (fluxJac γ (Pi.single j 1) w (a.2.1 v)) (fun l => a.1 v l j)
      = ∑ b, M.wB b * E (fluxJac γ (M.normal b) w (a.2.2 b)) (a.2.2 b) := by
  have hB : ∀ j : Fin n, ∃ S : Matrix (Fin (n + 2)) (Fin (n + 2)) ℝ, ∀ v z,
      E (fluxJac γ (Pi.single j 1) w v) z = ∑ i, ∑ l, S i l * (v i * z l) := fun j => by
    obtain ⟨S, hS⟩ := exists_formMatrix (E ∘ₗ (fluxJac γ (Pi.single j 1) w).toLinearMap)
    refine ⟨S, fun v z => (hS v z).trans ?_⟩
    simp only [dotProduct, mulVec, Finset.mul_sum]
    exact Finset.sum_congr rfl fun i _ => Finset.sum_congr rfl fun l _ => by ring
  choose S hS using hB
  have key : ∀ j, ∑ i, ∑ l, S j i l * (∑ v, M.wV v * (a.2.1 v i * a.1 v l j + a.2.1 v l * a.1 v i j))
      = ∑ i, ∑ l, S j i l * ∑ x, M.wB x * (a.2.2 x i * a.2.2 x l * M.normal x j) := fun j =>
    Finset.sum_congr rfl fun i _ => Finset.sum_congr rfl fun l _ => by
      rw [hR.parts a ha a ha i l j]
  have swap : ∀ {I : Type} [Fintype I] (j : Fin n) (W : I → ℝ) (f : I → Fin (n + 2) → Fin (n + 2) → ℝ),
      ∑ i, ∑ l, S j i l * (∑ v, W v * f v i l) = ∑ v, W v * ∑ i, ∑ l, S j i l * f v i l := by
    intro I _ j W f
    simp only [Finset.mul_sum]
    rw [Finset.sum_congr rfl fun i _ => Finset.sum_comm, Finset.sum_comm]
    exact Finset.sum_congr rfl fun v _ => Finset.sum_congr rfl fun i _ =>
      Finset.sum_congr rfl fun l _ => by ring
  have e1 : ∀ j, ∑ i, ∑ l, S j i l * (∑ v, M.wV v * (a.2.1 v i * a.1 v l j + a.2.1 v l * a.1 v i j))
      = ∑ v, M.wV v * (2 * E (fluxJac γ (Pi.single j 1) w (a.2.1 v)) (fun l => a.1 v l j)) := by
    intro j
    rw [swap j M.wV fun v i l => a.2.1 v i * a.1 v l j + a.2.1 v l * a.1 v i j]
    refine Finset.sum_congr rfl fun v _ => ?_
    congr 1
    rw [two_mul]
    nth_rewrite 2 [hE.flux]
    rw [hE.comm (a.2.1 v), hS, hS, ← Finset.sum_add_distrib]
    refine Finset.sum_congr rfl fun i _ => ?_
    rw [← Finset.sum_add_distrib]
    exact Finset.sum_congr rfl fun l _ => by ring
  have e2 : ∀ j, ∑ i, ∑ l, S j i l * ∑ x, M.wB x * (a.2.2 x i * a.2.2 x l * M.normal x j)
      = ∑ x, M.wB x * (M.normal x j * E (fluxJac γ (Pi.single j 1) w (a.2.2 x)) (a.2.2 x)) := by
    intro j
    rw [swap j M.wB fun x i l => a.2.2 x i * a.2.2 x l * M.normal x j]
    refine Finset.sum_congr rfl fun v _ => ?_
    congr 1
    rw [hS, Finset.mul_sum]
    refine Finset.sum_congr rfl fun i _ => ?_
    rw [Finset.mul_sum]
    exact Finset.sum_congr rfl fun l _ => by ring
  have e3 : ∑ j, ∑ v, M.wV v * (2 * E (fluxJac γ (Pi.single j 1) w (a.2.1 v)) (fun l => a.1 v l j))
      = ∑ j, ∑ x, M.wB x * (M.normal x j * E (fluxJac γ (Pi.single j 1) w (a.2.2 x)) (a.2.2 x)) :=
    Finset.sum_congr rfl fun j _ => by rw [← e1, key, e2]
  rw [Finset.sum_comm, Finset.sum_comm (s := Finset.univ (α := Fin n))] at e3
  calc _ = ∑ v, ∑ j, M.wV v * (2 * E (fluxJac γ (Pi.single j 1) w (a.2.1 v)) (fun l => a.1 v l j)) := by
        rw [Finset.mul_sum]
        refine Finset.sum_congr rfl fun v _ => ?_
        rw [Finset.mul_sum, Finset.mul_sum]
        exact Finset.sum_congr rfl fun j _ => by ring
    _ = _ := e3
    _ = _ := by
        refine Finset.sum_congr rfl fun x _ => ?_
        rw [hE.sum (M.normal x), map_sum, LinearMap.sum_apply, Finset.mul_sum]
        exact Finset.sum_congr rfl fun j _ => by
          rw [map_smul, LinearMap.smul_apply, smul_eq_mul]

/-- The energy decreases at least as fast as the sponge layers damp. -/
theorem energy_rate {P : HdgSpaces n (n + 2) V B} {M : HdgMesh n V B} {mask : B → ℝ}
    (hP : P.Fits M mask) {cond : B → FacetCond n} (hR : P.Rich M mask cond) {w : Fin (n + 2) → ℝ}
    (h0 : w 0 ≠ 0) {τ : B → (Fin (n + 2) → ℝ) →L[ℝ] (Fin (n + 2) → ℝ)}
    {E : (Fin (n + 2) → ℝ) →ₗ[ℝ] (Fin (n + 2) → ℝ) →ₗ[ℝ] ℝ} (hE : EnergyFits γ M mask cond w τ E)
    {σ : V → ℝ} {σ₀ : ℝ} (hσ : ∀ v, σ₀ ≤ σ v) {a a' : ElementFn n (n + 2) V B} (ha : a ∈ P.element)
    {ζ : B → Fin (n + 2) → ℝ} (hζ : ζ ∈ P.facet)
    (h1 : ∀ φ ∈ P.element, massForm M a' φ
      + spatialForm M mask (slopeData γ M mask cond σ w τ (a, ζ)) (φ, 0) = 0)
    (h2 : ∀ ψ ∈ P.facet, spatialForm M mask (slopeData γ M mask cond σ w τ (a, ζ)) (0, ψ) = 0) :
    ∑ v, M.wV v * E (a'.2.1 v) (a.2.1 v) ≤ -σ₀ * ∑ v, M.wV v * E (a.2.1 v) (a.2.1 v) := by
  obtain ⟨S, hS⟩ := exists_formMatrix E
  obtain ⟨D2, hD2⟩ : ∃ D2 : B → Fin (n + 2) → ℝ, ∀ b, D2 b
      = fluxJac γ (M.normal b) w (ζ b) + τ b (a.2.2 b - ζ b) := ⟨_, fun _ => rfl⟩
  have hmask : ∀ b, mask b * mask b = mask b := fun b => by
    rcases hP.mask01 b with h | h <;> simp [h]
  -- the equation of the elements
  have t1 := h1 _ (hR.combine S a ha)
  simp only [massForm, spatialForm, slopeData, LinearMap.mk₂_apply, Pi.zero_apply, dotProduct_zero,
    mul_zero, Finset.sum_const_zero, add_zero, ← hD2, ← hS, map_smul, LinearMap.smul_apply,
    smul_eq_mul] at t1
  have hvol : ∀ v, ∑ i, ∑ j, fderiv ℝ (pointFlux γ) w (a.2.1 v) i j * ∑ l, S i l * a.1 v l j
      = ∑ j, E (fluxJac γ (Pi.single j 1) w (a.2.1 v)) (fun l => a.1 v l j) := by
    intro v
    rw [Finset.sum_comm]
    refine Finset.sum_congr rfl fun j _ => ?_
    rw [hS]
    refine Finset.sum_congr rfl fun i _ => ?_
    rw [pointFlux_fderiv γ h0]
    rfl
  simp only [hvol, mul_neg, Finset.sum_neg_distrib] at t1
  have t2 := energy_parts hR hE ha
  -- the equation of the facets, inside
  have t3 : ∑ b, M.wB b * (mask b * E (D2 b) (ζ b)) = 0 := by
    have m := hR.straight (fun _ m => m • S) (fun _ _ => rfl) ζ hζ
    have := h2 _ m
    simp only [spatialForm, slopeData, LinearMap.mk₂_apply, ← hD2, Prod.fst_zero, Prod.snd_zero,
      Pi.zero_apply, dotProduct_zero, mul_zero, Finset.sum_const_zero, neg_zero, zero_add, add_zero,
      smul_mulVec, dotProduct_smul, smul_eq_mul, ← hS] at this
    rw [← Finset.sum_add_distrib] at this
    rw [← neg_eq_zero, ← Finset.sum_neg_distrib, ← this]
    refine Finset.sum_congr rfl fun b _ => ?_
    rcases hP.mask01 b with h | h
    · simp [h]
    · simp [h]
  have t4 : ∑ b, M.wB b * (mask b * E (fluxJac γ (M.normal b) w (ζ b)) (ζ b)) = 0 :=
    partner_sum hP (q := fun d v => E (fluxJac γ d w v) v)
      (fun d v => by rw [fluxJac_neg]; simp) hζ
  -- the equation of the facets, on the boundary
  have t5 : ∀ b, mask b = 0 →
      ζ b = fderiv ℝ (fun w => (cond b).value γ (M.normal b) w) w (a.2.2 b) := by
    have hG : ∀ (c : FacetCond n) (d : Fin n → ℝ), ∃ G : Matrix (Fin (n + 2)) (Fin (n + 2)) ℝ,
        ∀ v, fderiv ℝ (fun w => c.value γ d w) w v = G *ᵥ v := fun c d =>
      exists_mapMatrix (fderiv ℝ (fun w => c.value γ d w) w).toLinearMap
    choose G hG using hG
    have m1 := hR.straight (fun _ m => (1 - m) • (1 : Matrix (Fin (n + 2)) (Fin (n + 2)) ℝ))
      (fun _ _ => rfl) ζ hζ
    have m2 := hR.traces G a ha
    have := h2 _ (P.facet.sub_mem m1 m2)
    simp only [spatialForm, slopeData, LinearMap.mk₂_apply, ← hD2, Prod.fst_zero, Prod.snd_zero,
      Pi.zero_apply, dotProduct_zero, mul_zero, Finset.sum_const_zero, neg_zero, zero_add, add_zero,
      smul_mulVec, one_mulVec, ← hG, Pi.sub_apply, ← smul_sub, dotProduct_smul, smul_eq_mul] at this
    have e : ∑ b, M.wB b * ((1 - mask b) * ((ζ b - fderiv ℝ (fun w => (cond b).value γ (M.normal b) w)
        w (a.2.2 b)) ⬝ᵥ (ζ b - fderiv ℝ (fun w => (cond b).value γ (M.normal b) w) w (a.2.2 b)))) = 0 := by
      rw [← Finset.sum_add_distrib] at this
      rw [← this]
      refine Finset.sum_congr rfl fun b _ => ?_
      rcases hP.mask01 b with h | h
      · simp [h]
      · simp [h]
    have hdot : ∀ v : Fin (n + 2) → ℝ, 0 ≤ v ⬝ᵥ v := fun v =>
      Finset.sum_nonneg fun i _ => mul_self_nonneg _
    have hm : ∀ b, 0 ≤ 1 - mask b := fun b => by
      rcases hP.mask01 b with h | h <;> simp [h]
    intro b hb
    have := (Finset.sum_eq_zero_iff_of_nonneg fun b _ => mul_nonneg (hP.boundary b).le
      (mul_nonneg (hm b) (hdot _))).1 e b (Finset.mem_univ b)
    rw [hb, sub_zero, one_mul] at this
    exact sub_eq_zero.1 (dotProduct_self_eq_zero.1 ((mul_eq_zero.1 this).resolve_left
      (hP.boundary b).ne'))
  -- the sum
  have hb : ∀ b, E (fluxJac γ (M.normal b) w (a.2.2 b)) (a.2.2 b) - 2 * E (D2 b) (a.2.2 b)
      + 2 * (mask b * E (D2 b) (ζ b))
      - mask b * E (fluxJac γ (M.normal b) w (ζ b)) (ζ b) ≤ 0 := by
    intro b
    rcases hP.mask01 b with h | h
    · have := hE.outside b h (a.2.2 b) (ζ b) (t5 b h)
      rw [h, hD2, map_add, LinearMap.add_apply]
      linarith
    · obtain ⟨d, hd⟩ : ∃ d, d = a.2.2 b - ζ b := ⟨_, rfl⟩
      have ea : a.2.2 b = ζ b + d := by rw [hd]; abel
      have := hE.inside b h d
      have hc := hE.flux (M.normal b) d (ζ b)
      rw [hE.comm d] at hc
      rw [h, hD2, ← hd, ea]
      simp only [map_add, LinearMap.add_apply]
      linarith
  have hbs : ∑ b, M.wB b * (E (fluxJac γ (M.normal b) w (a.2.2 b)) (a.2.2 b)
      - 2 * E (D2 b) (a.2.2 b) + 2 * (mask b * E (D2 b) (ζ b))
      - mask b * E (fluxJac γ (M.normal b) w (ζ b)) (ζ b)) ≤ 0 :=
    Finset.sum_nonpos fun b _ => mul_nonpos_of_nonneg_of_nonpos (hP.boundary b).le (hb b)
  have hbe : ∑ b, M.wB b * (E (fluxJac γ (M.normal b) w (a.2.2 b)) (a.2.2 b)
      - 2 * E (D2 b) (a.2.2 b) + 2 * (mask b * E (D2 b) (ζ b))
      - mask b * E (fluxJac γ (M.normal b) w (ζ b)) (ζ b))
      = ∑ b, M.wB b * E (fluxJac γ (M.normal b) w (a.2.2 b)) (a.2.2 b)
        - 2 * ∑ b, M.wB b * E (D2 b) (a.2.2 b) + 2 * ∑ b, M.wB b * (mask b * E (D2 b) (ζ b))
        - ∑ b, M.wB b * (mask b * E (fluxJac γ (M.normal b) w (ζ b)) (ζ b)) := by
    rw [Finset.mul_sum, Finset.mul_sum, ← Finset.sum_sub_distrib, ← Finset.sum_add_distrib,
      ← Finset.sum_sub_distrib]
    exact Finset.sum_congr rfl fun b _ => by ring
  have hs : σ₀ * ∑ v, M.wV v * E (a.2.1 v) (a.2.1 v)
      ≤ ∑ v, M.wV v * (σ v * E (a.2.1 v) (a.2.1 v)) := by
    rw [Finset.mul_sum]
    refine Finset.sum_le_sum fun v _ => ?_
    have hn : 0 ≤ E (a.2.1 v) (a.2.1 v) := by
      by_cases hv : a.2.1 v = 0
      · simp [hv]
      · exact (hE.pos _ hv).le
    have := mul_le_mul_of_nonneg_right (hσ v) (mul_nonneg (hP.volume v).le hn)
    linarith
  rw [hbe, t3, t4] at hbs
  linarith

end Dream
