import Verif.Lemmas.FlowMatrix

/-!
# The matrix that differentiates the branches of the code
-/

noncomputable section

namespace Dream
open Matrix Set Filter Topology _root_.Spec

variable {n : ℕ} {γ : ℝ} {V B : Type} [Fintype V] [Fintype B] {ι κ : Type} [Fintype ι] [Fintype κ]
  {P : HdgSpaces n (n + 2) V B} {M : HdgMesh n V B} {mask : B → ℝ}

/-- One-sided derivatives of an absolute value. -/
theorem abs_right {f : ℝ → ℝ} {d : ℝ} (h : HasDerivAt f d 0) (h0 : f 0 = 0) :
    HasDerivWithinAt (fun τ => |f τ|) |d| (Ioi 0) 0 := by
  rw [hasDerivWithinAt_iff_tendsto_slope' (by simp)]
  have h1 : Tendsto (slope f 0) (𝓝[>] 0) (𝓝 d) :=
    (hasDerivAt_iff_tendsto_slope.1 h).mono_left (nhdsWithin_mono _ fun x hx => ne_of_gt hx)
  refine h1.abs.congr' ?_
  filter_upwards [self_mem_nhdsWithin] with τ hτ
  have hτ' : (0 : ℝ) < τ := hτ
  simp only [slope_def_field, h0, sub_zero, abs_div, abs_of_pos hτ', abs_zero]

theorem abs_left {f : ℝ → ℝ} {d : ℝ} (h : HasDerivAt f d 0) (h0 : f 0 = 0) :
    HasDerivWithinAt (fun τ => |f τ|) (-|d|) (Iio 0) 0 := by
  rw [hasDerivWithinAt_iff_tendsto_slope' (by simp)]
  have h1 : Tendsto (slope f 0) (𝓝[<] 0) (𝓝 d) :=
    (hasDerivAt_iff_tendsto_slope.1 h).mono_left (nhdsWithin_mono _ fun x hx => ne_of_lt hx)
  refine h1.abs.neg.congr' ?_
  filter_upwards [self_mem_nhdsWithin] with τ hτ
  have hτ' : τ < 0 := hτ
  simp only [slope_def_field, h0, sub_zero, abs_div, abs_of_neg hτ', abs_zero]
  rw [div_neg, neg_neg]

/-- `IfPos(f, f, -f)`, differentiated branch by branch. -/
theorem abs_branch {f : ℝ → ℝ} {d : ℝ} (h : HasDerivAt f d 0) :
    OneSided (fun τ => |f τ|) (if 0 < f 0 then d else -d) := by
  rcases lt_trichotomy 0 (f 0) with h0 | h0 | h0
  · rw [if_pos h0]
    refine (oneSided_of_deriv h).congr ?_
    filter_upwards [h.continuousAt.eventually (lt_mem_nhds h0)] with τ hτ
    exact (abs_of_pos hτ).symm
  · rw [if_neg (by rw [← h0]; exact lt_irrefl _)]
    rcases le_total 0 d with hd | hd
    · refine Or.inr ?_
      have := abs_left h h0.symm
      rwa [abs_of_nonneg hd] at this
    · refine Or.inl ?_
      have := abs_right h h0.symm
      rwa [abs_of_nonpos hd] at this
  · rw [if_neg (not_lt.2 h0.le)]
    refine (oneSided_of_deriv h.neg).congr ?_
    filter_upwards [h.continuousAt.eventually (gt_mem_nhds h0)] with τ hτ
    exact (abs_of_neg hτ).symm

theorem OneSided.add_deriv {f g : ℝ → ℝ} {d e : ℝ} (h : OneSided f d) (hg : HasDerivAt g e 0) :
    OneSided (fun τ => f τ + g τ) (d + e) := by
  rcases h with h | h
  · exact Or.inl (h.add hg.hasDerivWithinAt)
  · exact Or.inr (h.add hg.hasDerivWithinAt)

theorem OneSided.mul_deriv {f g : ℝ → ℝ} {d e : ℝ} (h : OneSided f d) (hg : HasDerivAt g e 0) :
    OneSided (fun τ => f τ * g τ) (d * g 0 + f 0 * e) := by
  rcases h with h | h
  · exact Or.inl (h.mul hg.hasDerivWithinAt)
  · exact Or.inr (h.mul hg.hasDerivWithinAt)

/-- `IfPos(f, f, 0)`, differentiated branch by branch. -/
theorem max_branch {f : ℝ → ℝ} {d : ℝ} (h : HasDerivAt f d 0) :
    OneSided (fun τ => max (f τ) 0) (if 0 < f 0 then d else 0) := by
  have h1 := ((abs_branch h).add_deriv h).mul_deriv (hasDerivAt_const (0 : ℝ) (1 / 2 : ℝ))
  have e : (if 0 < f 0 then d else 0) = ((if 0 < f 0 then d else -d) + d) * (1 / 2)
      + (|f 0| + f 0) * 0 := by
    split <;> ring
  rw [e]
  refine h1.congr (Eventually.of_forall fun τ => ?_)
  rcases le_total 0 (f τ) with h0 | h0
  · simp only [abs_of_nonneg h0, max_eq_left h0]
    ring
  · simp only [abs_of_nonpos h0, max_eq_right h0]
    ring

open Classical in
/-- The derivative of the signal speed, branch by branch: `bla.abs` is `IfPos(x, x, -x)` and
`bla.max` is `IfPos(x - y, x, y)` (dream/bla.py:19-35). -/
def speedBranch (rs : Riemann) (un c : ℝ) : ℝ × ℝ :=
  match rs with
  | .hll => if 0 < un + c then (1, 1) else (0, 0)
  | _ => (if 0 < un then 1 else -1, 1)

theorem speed_branch (rs : Riemann) {f g : ℝ → ℝ} {d e : ℝ} (hf : HasDerivAt f d 0)
    (hg : HasDerivAt g e 0) : OneSided (fun τ => rs.speed (f τ) (g τ))
      ((speedBranch rs (f 0) (g 0)).1 * d + (speedBranch rs (f 0) (g 0)).2 * e) := by
  have lf : OneSided (fun τ => |f τ| + g τ) ((if 0 < f 0 then (1 : ℝ) else -1) * d + 1 * e) := by
    have := (abs_branch hf).add_deriv hg
    have e1 : (if 0 < f 0 then (1 : ℝ) else -1) * d + 1 * e = (if 0 < f 0 then d else -d) + e := by
      split <;> ring
    rwa [e1]
  cases rs with
  | hll =>
    have h1 := max_branch (hf.add hg)
    simp only [Riemann.speed, speedBranch]
    have e1 : (if 0 < f 0 + g 0 then ((1, 1) : ℝ × ℝ) else (0, 0)).1 * d
        + (if 0 < f 0 + g 0 then ((1, 1) : ℝ × ℝ) else (0, 0)).2 * e
        = if 0 < f 0 + g 0 then d + e else 0 := by
      split <;> simp
    rw [e1]
    exact h1
  | _ => exact lf

/-- The derivative of the numerical flux at a point. -/
def numericalL (γ : ℝ) (rs : Riemann) (d : Fin n → ℝ) (p : (Fin (n + 2) → ℝ) × (Fin (n + 2) → ℝ)) :
    (Fin (n + 2) → ℝ) × (Fin (n + 2) → ℝ) →L[ℝ] Fin (n + 2) → ℝ :=
  let s := speedBranch rs (normalOf d p.2) (soundOf γ p.2)
  (fluxJac γ d p.2).comp (ContinuousLinearMap.snd ℝ _ _)
    + ((s.1 • fderiv ℝ (normalOf d) p.2 + s.2 • fderiv ℝ (soundOf γ) p.2).comp
        (ContinuousLinearMap.snd ℝ _ _)).smulRight (p.1 - p.2)
    + rs.speed (normalOf d p.2) (soundOf γ p.2) •
      (ContinuousLinearMap.fst ℝ _ _ - ContinuousLinearMap.snd ℝ _ _)

theorem numerical_branch (hγ : 1 < γ) (rs : Riemann) (d : Fin n → ℝ)
    {p : (Fin (n + 2) → ℝ) × (Fin (n + 2) → ℝ)} (hp : GasVec p.2)
    (q : (Fin (n + 2) → ℝ) × (Fin (n + 2) → ℝ)) (i : Fin (n + 2)) :
    OneSided (fun τ : ℝ => pointNumerical γ rs d (p + τ • q) i) (numericalL γ rs d p q i) := by
  have h1 := along_line (((flux_contDiffAt γ d hp.1.ne').differentiableAt one_ne_zero).hasFDerivAt) q.2
  have h2 := along_line (((normalOf_contDiffAt d hp.1.ne').differentiableAt one_ne_zero).hasFDerivAt) q.2
  have h3 := along_line (((soundOf_contDiffAt hγ hp).differentiableAt one_ne_zero).hasFDerivAt) q.2
  have h4 := (hasDerivAt_pi.1 (line_deriv p.1 q.1) i).sub (hasDerivAt_pi.1 (line_deriv p.2 q.2) i)
  have h5 := ((speed_branch rs h2 h3).mul_deriv h4).add_deriv (hasDerivAt_pi.1 h1 i)
  simp only [zero_smul, add_zero, Pi.sub_apply] at h5
  have e : numericalL γ rs d p q i = ((speedBranch rs (normalOf d p.2) (soundOf γ p.2)).1
        * fderiv ℝ (normalOf d) p.2 q.2
      + (speedBranch rs (normalOf d p.2) (soundOf γ p.2)).2 * fderiv ℝ (soundOf γ) p.2 q.2)
        * (p.1 i - p.2 i)
      + rs.speed (normalOf d p.2) (soundOf γ p.2) * (q.1 i - q.2 i)
      + fderiv ℝ (eulerFluxOf γ d) p.2 q.2 i := by
    simp only [numericalL, fluxJac, ContinuousLinearMap.add_apply, ContinuousLinearMap.comp_apply,
      ContinuousLinearMap.smulRight_apply, ContinuousLinearMap.smul_apply, ContinuousLinearMap.sub_apply,
      ContinuousLinearMap.coe_fst', ContinuousLinearMap.coe_snd', Pi.add_apply, Pi.smul_apply,
      Pi.sub_apply, smul_eq_mul]
    ring
  rw [e]
  refine h5.congr (Eventually.of_forall fun τ => ?_)
  simp only [pointNumerical, Prod.fst_add, Prod.snd_add, Prod.smul_fst, Prod.smul_snd, Pi.add_apply,
    Pi.smul_apply, Pi.sub_apply, smul_eq_mul]
  ring

open Classical in
/-- The derivative of the data, where `A` are the derivatives of the numerical fluxes. -/
def slopeL (γ : ℝ) (A : B → (Fin (n + 2) → ℝ) × (Fin (n + 2) → ℝ) → (Fin (n + 2) → ℝ) ×
      (Fin (n + 2) → ℝ) →L[ℝ] Fin (n + 2) → ℝ) (M : HdgMesh n V B) (mask : B → ℝ)
    (cond : B → FacetCond n) (σ : V → ℝ) (z : ElementFn n (n + 2) V B × (B → Fin (n + 2) → ℝ)) :
    (ElementFn n (n + 2) V B × (B → Fin (n + 2) → ℝ)) →ₗ[ℝ] FluxData n V B where
  toFun := fun z' => (fun v => fderiv ℝ (pointFlux γ) (z.1.2.1 v) (z'.1.2.1 v),
    fun b => A b (z.1.2.2 b, z.2 b) (z'.1.2.2 b, z'.2 b),
    fun b => if mask b = 1 then 0 else z'.2 b -
      fderiv ℝ (fun w => (cond b).value γ (M.normal b) w) (z.1.2.2 b) (z'.1.2.2 b),
    fun v => σ v • z'.1.2.1 v)
  map_add' := by
    intro x y
    refine Prod.ext (funext fun v => ?_) (Prod.ext (funext fun b => ?_) (Prod.ext (funext fun b => ?_)
      (funext fun v => ?_)))
    · exact map_add _ _ _
    · exact map_add (A b (z.1.2.2 b, z.2 b)) (x.1.2.2 b, x.2 b)
        (y.1.2.2 b, y.2 b)
    · by_cases hb : mask b = 1
      · simp [hb]
      · simp only [Prod.fst_add, Prod.snd_add, Pi.add_apply, map_add, hb, if_false]
        abel
    · exact smul_add _ _ _
  map_smul' := by
    intro c x
    refine Prod.ext (funext fun v => ?_) (Prod.ext (funext fun b => ?_) (Prod.ext (funext fun b => ?_)
      (funext fun v => ?_)))
    · exact map_smul (fderiv ℝ (pointFlux γ) (z.1.2.1 v)) c (x.1.2.1 v)
    · exact map_smul (A b (z.1.2.2 b, z.2 b)) c (x.1.2.2 b, x.2 b)
    · by_cases hb : mask b = 1
      · simp [hb]
      · simp only [Prod.smul_fst, Prod.smul_snd, Pi.smul_apply, map_smul, smul_sub, hb, if_false,
          RingHom.id_apply]
    · exact smul_comm (σ v) c (x.1.2.1 v)

section
open Classical

variable {A : B → (Fin (n + 2) → ℝ) × (Fin (n + 2) → ℝ) → (Fin (n + 2) → ℝ) ×
      (Fin (n + 2) → ℝ) →L[ℝ] Fin (n + 2) → ℝ}
  {N : B → (Fin (n + 2) → ℝ) × (Fin (n + 2) → ℝ) → Fin (n + 2) → ℝ} {rs : Riemann} {cond : B → FacetCond n} {S : GasState n} {σ : V → ℝ}

theorem branch_slope (hA : ∀ b p q i, GasVec p.2 →
      OneSided (fun τ : ℝ => N b (p + τ • q) i) (A b p q i)) (w : Fin (n + 2) → ℝ)
    {z : ElementFn n (n + 2) V B × (B → Fin (n + 2) → ℝ)} (hz : GasData z)
    (z' : ElementFn n (n + 2) V B × (B → Fin (n + 2) → ℝ)) :
    IsSlope γ N M mask cond σ w z z' (slopeL γ A M mask cond σ z z') where
  flux := fun v i j => by
    have h1 := along_line (((pointFlux_contDiffAt γ (hz.1 v).1.ne').differentiableAt
      one_ne_zero).hasFDerivAt) (z'.1.2.1 v)
    exact hasDerivAt_pi.1 (hasDerivAt_pi.1 h1 i) j
  numerical := fun b i => hA b (z.1.2.2 b, z.2 b) (z'.1.2.2 b, z'.2 b) i (hz.2.2 b)
  residual := fun b i => by
    by_cases hb : mask b = 1
    · simp only [fluxDataN, slopeL, LinearMap.coe_mk, AddHom.coe_mk, hb, if_true]
      exact hasDerivAt_const _ _
    · simp only [fluxDataN, slopeL, LinearMap.coe_mk, AddHom.coe_mk, hb, if_false]
      have h1 := along_line (((value_contDiffAt (cond b) γ (M.normal b) (hz.2.1 b).1.ne').differentiableAt
        one_ne_zero).hasFDerivAt) (z'.1.2.2 b)
      exact (hasDerivAt_pi.1 (line_deriv (z.2 b) (z'.2 b)) i).sub (hasDerivAt_pi.1 h1 i)
  source := fun v i =>
    ((hasDerivAt_pi.1 (line_deriv (z.1.2.1 v) (z'.1.2.1 v)) i).sub_const (w i)).const_mul (σ v)

/-- The matrix that differentiates branch by branch. -/
def branchMatrix (γ : ℝ) (A : B → (Fin (n + 2) → ℝ) × (Fin (n + 2) → ℝ) → (Fin (n + 2) → ℝ) ×
      (Fin (n + 2) → ℝ) →L[ℝ] Fin (n + 2) → ℝ) (M : HdgMesh n V B) (mask : B → ℝ)
    (cond : B → FacetCond n) (σ : V → ℝ) (bX : ι → P.element) (bZ : κ → P.facet) (x : Coeffs ι κ) :
    Coeffs ι κ →L[ℝ] Coeffs ι κ :=
  LinearMap.toContinuousLinearMap ((formL M mask bX bZ).toLinearMap ∘ₗ
    (slopeL γ A M mask cond σ (inclL bX bZ x)) ∘ₗ (inclL bX bZ).toLinearMap)

theorem branchMatrix_isFlowMatrix (hS : IdealGas γ S)
    (hN : ∀ b (u : Fin (n + 2) → ℝ) {uHat : Fin (n + 2) → ℝ}, GasVec uHat →
      convectiveNumericalFlux γ rs u uHat (conservativeDict (gasOf γ uHat)) (M.normal b)
        = .ok (N b (u, uHat)))
    (hA : ∀ b p q i, GasVec p.2 → OneSided (fun τ : ℝ => N b (p + τ • q) i) (A b p q i))
    (hm : ∀ b, mask b = 0 ∨ mask b = 1) (hc : ∀ b, mask b = 0 → (cond b).Admits S (M.normal b))
    (bX : ι → P.element) (bZ : κ → P.facet) :
    IsFlowMatrix γ rs M mask cond σ (conservativeDict S) bX bZ
      (branchMatrix γ A M mask cond σ bX bZ) := by
  intro x hx v
  have hz := (areGas_iff hS.gamma bX bZ x).1 hx
  obtain ⟨z, hze⟩ : ∃ z, z = inclL bX bZ x := ⟨_, rfl⟩
  obtain ⟨z', hze'⟩ : ∃ z', z' = inclL bX bZ v := ⟨_, rfl⟩
  rw [← hze] at hz
  have hs := branch_slope (γ := γ) (M := M) (mask := mask) (cond := cond) (σ := σ) hA
    (consVec S.rho S.rho_u S.rho_E) hz z'
  refine ⟨dataState 0 (slopeL γ A M mask cond σ z z'),
    ⟨fun τ => dataState (z + τ • z').1 (fluxDataN γ N M mask cond σ (consVec S.rho S.rho_u S.rho_E)
      (z + τ • z')), ?_, rfl, rfl, hs.flux, hs.numerical, hs.residual, hs.source⟩, ?_⟩
  · filter_upwards [(line_cont z z').eventually (gasData_nhds hz)] with τ e2
    have := (isFlowN_iff hS.gamma hN hm hc σ (a := (z + τ • z').1) (ζ := (z + τ • z').2) e2.1 e2.2.1
      e2.2.2 _).2 rfl
    have h1 : elementOf bX x.1 + τ • elementOf bX v.1 = (z + τ • z').1 := by rw [hze, hze']; rfl
    have h2 : facetOf bZ x.2 + τ • facetOf bZ v.2 = (z + τ • z').2 := by rw [hze, hze']; rfl
    rw [h1, h2]
    exact this
  · rw [flowVec_eq bX bZ rfl rfl, hze, hze']
    rfl

end

end Dream
