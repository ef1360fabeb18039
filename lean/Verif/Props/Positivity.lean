import Verif.Spec.Positivity
import Verif.Props.Dimensions

/-!
# C89: density stays positive
-/

noncomputable section

namespace Dream
open Matrix

variable {n k : ℕ} {V B E Fc : Type} [Fintype V] [Fintype B] [DecidableEq E] [DecidableEq Fc]

/-- The heart of the matter: a system of balances on elements and facets, in which every flux grows
with the value in the element and falls with the value on the facet. -/
theorem balances_positive [Fintype E] [Fintype Fc] (K : Cells V B E Fc) (wV : V → ℝ) (wB : B → ℝ)
    (hV : ∀ v, 0 < wV v) (hB : ∀ b, 0 ≤ wB b) (mask : B → ℝ) (hmask : ∀ b, mask b = 0 ∨ mask b = 1)
    (hmf : ∀ b b', K.facet b = K.facet b' → mask b = mask b')
    (dt : ℝ) (hdt : 0 < dt) (ρ old src : V → ℝ) (tr hat fl : B → ℝ)
    (hρ : ∀ v v', K.el v = K.el v' → ρ v = ρ v') (htr : ∀ v b, K.el v = K.elB b → tr b = ρ v)
    (hin : ∀ b, ∃ v, K.el v = K.elB b)
    (hhat : ∀ b b', K.facet b = K.facet b' → hat b = hat b')
    (hold : ∀ v, 0 < old v) (hsrc : ∀ v, ρ v ≤ 0 → src v ≤ 0)
    (hfl : ∀ b, mask b = 1 → ∃ a g : ℝ, 0 ≤ a ∧ 0 ≤ g ∧ fl b = a * tr b - g * hat b)
    (hbd : ∀ b, mask b = 0 → tr b ≤ 0 → fl b ≤ 0)
    (hel : ∀ e, (∑ v, if K.el v = e then wV v * ((ρ v - old v) / dt + src v) else 0)
      + (∑ b, if K.elB b = e then wB b * fl b else 0) = 0)
    (hfc : ∀ f, (∀ b, K.facet b = f → mask b = 1) →
      (∑ b, if K.facet b = f then wB b * fl b else 0) = 0) (v : V) : 0 < ρ v := by
  classical
  by_contra hneg
  push Not at hneg
  -- the elements and facets with nonpositive values
  let NE : Finset E := Finset.univ.filter fun e => ∃ v, K.el v = e ∧ ρ v ≤ 0
  let NF : Finset Fc := Finset.univ.filter fun f => ∃ b, K.facet b = f ∧ mask b = 1 ∧ hat b ≤ 0
  have s1 := Finset.sum_eq_zero (s := NE) fun e _ => hel e
  have s2 : (∑ f ∈ NF, ∑ b, if K.facet b = f then wB b * fl b else 0) = 0 := by
    refine Finset.sum_eq_zero fun f hf => hfc f fun b hb => ?_
    obtain ⟨b', hb', hm, -⟩ := (Finset.mem_filter.1 hf).2
    rw [hmf b b' (hb.trans hb'.symm), hm]
  rw [Finset.sum_add_distrib, Finset.sum_comm, Finset.sum_comm (s := NE) (t := Finset.univ)
    (f := fun e b => if K.elB b = e then wB b * fl b else 0)] at s1
  rw [Finset.sum_comm] at s2
  simp only [Finset.sum_ite_eq] at s1 s2
  have h1 : ∀ v, (if K.el v ∈ NE then wV v * ((ρ v - old v) / dt + src v) else 0) ≤ 0 := by
    intro v
    split_ifs with h
    · obtain ⟨v', hv', hn⟩ := (Finset.mem_filter.1 h).2
      rw [hρ v' v hv'] at hn
      have h2 : (ρ v - old v) / dt < 0 := div_neg_of_neg_of_pos (by linarith [hold v]) hdt
      have := hsrc v hn
      nlinarith [hV v]
    · exact le_refl _
  have h2 : (if K.el v ∈ NE then wV v * ((ρ v - old v) / dt + src v) else 0) < 0 := by
    rw [if_pos (Finset.mem_filter.2 ⟨Finset.mem_univ _, v, rfl, hneg⟩)]
    have h2 : (ρ v - old v) / dt < 0 := div_neg_of_neg_of_pos (by linarith [hold v]) hdt
    have := hsrc v hneg
    nlinarith [hV v]
  have h3 : (∑ v, if K.el v ∈ NE then wV v * ((ρ v - old v) / dt + src v) else 0) < 0 :=
    Finset.sum_neg' (fun v _ => h1 v) ⟨v, Finset.mem_univ _, h2⟩
  have h4 : (∑ b, if K.elB b ∈ NE then wB b * fl b else 0)
      - (∑ b, if K.facet b ∈ NF then wB b * fl b else 0) ≤ 0 := by
    rw [← Finset.sum_sub_distrib]
    refine Finset.sum_nonpos fun b _ => ?_
    have hE : K.elB b ∈ NE → tr b ≤ 0 := by
      intro h
      obtain ⟨v', hv', hn⟩ := (Finset.mem_filter.1 h).2
      rw [htr v' b hv']; exact hn
    have hF : K.facet b ∈ NF → mask b = 1 ∧ hat b ≤ 0 := by
      intro h
      obtain ⟨b', hb', hm, hn⟩ := (Finset.mem_filter.1 h).2
      exact ⟨by rw [hmf b b' hb'.symm, hm], by rw [hhat b b' hb'.symm]; exact hn⟩
    rcases hmask b with hm | hm
    · have hnF : K.facet b ∉ NF := fun h => by have := (hF h).1; rw [hm] at this; norm_num at this
      rw [if_neg hnF, sub_zero]
      split_ifs with h
      · exact mul_nonpos_of_nonneg_of_nonpos (hB b) (hbd b hm (hE h))
      · exact le_refl _
    · obtain ⟨a, g, ha, hg, e⟩ := hfl b hm
      by_cases h1 : K.elB b ∈ NE <;> by_cases h2 : K.facet b ∈ NF
      · simp [h1, h2]
      · rw [if_pos h1, if_neg h2, sub_zero]
        have h5 : 0 < hat b := by
          by_contra hc
          exact h2 (Finset.mem_filter.2 ⟨Finset.mem_univ _, b, rfl, hm, not_lt.1 hc⟩)
        refine mul_nonpos_of_nonneg_of_nonpos (hB b) ?_
        rw [e]
        nlinarith [hE h1]
      · rw [if_neg h1, if_pos h2, zero_sub, Left.neg_nonpos_iff]
        refine mul_nonneg (hB b) ?_
        rw [e]
        obtain ⟨v', hv'⟩ := hin b
        have h5 : 0 < tr b := by
          rw [htr v' b hv']
          by_contra hc
          exact h1 (Finset.mem_filter.2 ⟨Finset.mem_univ _, v', hv', not_lt.1 hc⟩)
        nlinarith [(hF h2).2, mul_nonneg ha h5.le]
      · simp [h1, h2]
  linarith

/-! ### The fluxes of mass -/

theorem of_bind_ok {α β : Type} {x : Except PyErr α} {g : α → Except PyErr β} {b : β}
    (h : (x >>= g) = .ok b) : ∃ a, x = .ok a ∧ g a = .ok b := by
  cases x with
  | error e => cases h
  | ok a => exact ⟨a, rfl, h⟩

theorem conservative_parts {γ : ℝ} {w : Fin (n + 2) → ℝ} {U : Flow n}
    (hU : conservativeFields γ w = .ok U) : U.rho = some (w 0) ∧ U.rho_u = some (mom w) ∧
      U.u = some ((w 0)⁻¹ • mom w) ∧ ∃ c : ℝ, 0 ≤ c ∧ U.c = some c := by
  simp [conservativeFields, getConservativeFields, velocity, kineticEnergy, innerEnergy, pressure,
    temperature, speedOfSound, equation, equationE, bind, Except.bind, EOS.pressure,
    EOS.temperature, EOS.speedOfSound] at hU
  rw [← hU]
  exact ⟨rfl, rfl, rfl, _, Real.sqrt_nonneg _, rfl⟩

/-- The numerical flux of mass with Lax–Friedrichs or HLL, whatever the facet values are. -/
theorem mass_flux_eq {γ : ℝ} {rs : Riemann} (hrs : rs.AnyDim) (w wHat : Fin (n + 2) → ℝ)
    (UHat : Flow n) (hU : conservativeFields γ wHat = .ok UHat) (d : Fin n → ℝ)
    (f : Fin (n + 2) → ℝ) (hf : convectiveNumericalFlux γ rs w wHat UHat d = .ok f) :
    ∃ l : ℝ, 0 ≤ l ∧ (wHat 0)⁻¹ * (mom wHat ⬝ᵥ d) ≤ l ∧
      f 0 = mom wHat ⬝ᵥ d + l * (w 0 - wHat 0) := by
  obtain ⟨hr, hm, hu, c, hc, hcc⟩ := conservative_parts hU
  obtain ⟨t1, t2⟩ := C28_lax_friedrich_hll (U := UHat) (u := (wHat 0)⁻¹ • mom wHat) (c := c)
    (γ := γ) d (by simp [velocity, hu, equation, equationE])
    (by simp [speedOfSound, EOS.speedOfSound, hcc, equation, equationE])
  have hflux : ∀ F, convectiveFlux γ UHat = .ok F → (F *ᵥ d) 0 = mom wHat ⬝ᵥ d := by
    intro F hF
    unfold convectiveFlux at hF
    obtain ⟨_, -, hF⟩ := of_bind_ok hF
    obtain ⟨m, hm', hF⟩ := of_bind_ok hF
    obtain ⟨_, -, hF⟩ := of_bind_ok hF
    obtain ⟨_, -, hF⟩ := of_bind_ok hF
    obtain ⟨_, -, hF⟩ := of_bind_ok hF
    have e : mom wHat = m := by simpa [momentum, hm, equation, equationE] using hm'
    rw [← Except.ok.inj hF, e]
    rfl
  have key : ∀ l : ℝ, 0 ≤ l → (wHat 0)⁻¹ * (mom wHat ⬝ᵥ d) ≤ l → rs.tau γ UHat d = .ok (l • 1) →
      ∃ l : ℝ, 0 ≤ l ∧ (wHat 0)⁻¹ * (mom wHat ⬝ᵥ d) ≤ l ∧
      f 0 = mom wHat ⬝ᵥ d + l * (w 0 - wHat 0) := by
    intro l hl hle ht
    unfold convectiveNumericalFlux at hf
    rw [ht] at hf
    obtain ⟨_, h1, hf⟩ := of_bind_ok hf
    obtain ⟨F, hF, hf⟩ := of_bind_ok hf
    rw [← Except.ok.inj h1] at hf
    refine ⟨l, hl, hle, ?_⟩
    rw [← Except.ok.inj hf, Pi.add_apply, hflux F hF, smul_mulVec, one_mulVec]
    simp only [Pi.smul_apply, Pi.sub_apply, smul_eq_mul]
  rw [smul_dotProduct, smul_eq_mul] at t1 t2
  rcases hrs with rfl | rfl
  · exact key _ (by positivity) (by linarith [le_abs_self ((wHat 0)⁻¹ * (mom wHat ⬝ᵥ d))]) t1
  · exact key _ (le_max_right _ _) (le_max_of_le_left (by linarith)) t2

/-- The flux of mass grows with the density in the element and falls with the density on the
facet, as long as the latter is not zero. -/
theorem mass_flux {γ : ℝ} {rs : Riemann} (hrs : rs.AnyDim) (w wHat : Fin (n + 2) → ℝ)
    (h0 : wHat 0 ≠ 0) (UHat : Flow n) (hU : conservativeFields γ wHat = .ok UHat) (d : Fin n → ℝ)
    (f : Fin (n + 2) → ℝ) (hf : convectiveNumericalFlux γ rs w wHat UHat d = .ok f) :
    ∃ a g : ℝ, 0 ≤ a ∧ 0 ≤ g ∧ f 0 = a * w 0 - g * wHat 0 := by
  obtain ⟨l, hl, hle, e⟩ := mass_flux_eq hrs w wHat UHat hU d f hf
  refine ⟨l, l - (wHat 0)⁻¹ * (mom wHat ⬝ᵥ d), hl, by linarith, ?_⟩
  rw [e]
  field_simp
  ring

/-- The flux of mass of viscous flow vanishes. -/
theorem viscous_mass_flux (cfg : FlowCfg) (w wHat : Fin (n + 2) → ℝ) (UHat : Flow n) (Q : Grads n)
    (d : Fin n → ℝ) (f : Fin (n + 2) → ℝ) (hf : diffusiveNumericalFlux cfg w wHat UHat Q d = .ok f) :
    f 0 = 0 := by
  unfold diffusiveNumericalFlux at hf
  obtain ⟨τ, hτ, hf⟩ := of_bind_ok hf
  obtain ⟨G, hG, hf⟩ := of_bind_ok hf
  unfold diffusiveStabilisation at hτ
  obtain ⟨_, -, hτ⟩ := of_bind_ok hτ
  obtain ⟨_, -, hτ⟩ := of_bind_ok hτ
  obtain ⟨_, -, hτ⟩ := of_bind_ok hτ
  unfold diffusiveFlux at hG
  obtain ⟨_, -, hG⟩ := of_bind_ok hG
  obtain ⟨_, -, hG⟩ := of_bind_ok hG
  obtain ⟨_, -, hG⟩ := of_bind_ok hG
  rw [← Except.ok.inj hf, ← Except.ok.inj hτ, ← Except.ok.inj hG, Bla.diagonalM_eq]
  rw [Pi.sub_apply, smul_mulVec, Pi.smul_apply, mulVec_diagonal]
  simp [mulVec, dotProduct, lamVec]

/-! ### Conditions on the boundary -/

/-- The residuals of an inviscid wall or a symmetry plane. -/
theorem inviscid_wall_parts {γ : ℝ} {d : Fin n → ℝ} {w wHat R : Fin (n + 2) → ℝ} {U : Flow n}
    (hU : conservativeFields γ w = .ok U) (h : inviscidWallResidual γ d U wHat = .ok R) :
    R 0 = wHat 0 - w 0 ∧ mom R = mom wHat - (mom w - (mom w ⬝ᵥ d) • d) := by
  obtain ⟨hr, hm, -⟩ := conservative_parts hU
  unfold inviscidWallResidual at h
  obtain ⟨ρ, h1, h⟩ := of_bind_ok h
  obtain ⟨m, h2, h⟩ := of_bind_ok h
  obtain ⟨_, -, h⟩ := of_bind_ok h
  have e1 : w 0 = ρ := by simpa [density, EOS.density, hr, equation, equationE] using h1
  have e2 : mom w = m := by simpa [momentum, hm, equation, equationE] using h2
  rw [← Except.ok.inj h, ← e1, ← e2]
  refine ⟨by simp, ?_⟩
  funext i
  simp [mom]

/-- The residuals of an isothermal wall. -/
theorem isothermal_wall_parts {γ : ℝ} {w wHat R : Fin (n + 2) → ℝ} {bc U : Flow n}
    (hU : conservativeFields γ w = .ok U) (h : isothermalWallResidual γ bc U wHat = .ok R) :
    R 0 = wHat 0 - w 0 ∧ mom R = mom wHat := by
  obtain ⟨hr, hm, -⟩ := conservative_parts hU
  unfold isothermalWallResidual at h
  obtain ⟨ρ, h1, h⟩ := of_bind_ok h
  obtain ⟨T, -, h⟩ := of_bind_ok h
  obtain ⟨ρ', h2, h⟩ := of_bind_ok h
  obtain ⟨m, h3, h⟩ := of_bind_ok h
  obtain ⟨_, -, h⟩ := of_bind_ok h
  have e1 : w 0 = ρ := by simpa [given, hr] using h1
  have e2 : ρ = ρ' := by simpa [density, EOS.density, equation, equationE] using h2
  have e3 : (fun _ => 0) = m := by simpa [momentum, equation, equationE] using h3
  rw [← Except.ok.inj h, ← e2, ← e1, ← e3]
  refine ⟨by simp, ?_⟩
  funext i
  simp [mom]

/-- The residuals of an outflow. -/
theorem outflow_parts {γ : ℝ} {w wHat R : Fin (n + 2) → ℝ} {bc U : Flow n}
    (hU : conservativeFields γ w = .ok U) (h : outflowResidual γ bc U wHat = .ok R) :
    R 0 = wHat 0 - w 0 := by
  obtain ⟨hr, hm, -⟩ := conservative_parts hU
  unfold outflowResidual at h
  obtain ⟨s, h1, h⟩ := of_bind_ok h
  unfold outflowState at h1
  obtain ⟨ρ, h2, h1⟩ := of_bind_ok h1
  obtain ⟨_, -, h1⟩ := of_bind_ok h1
  obtain ⟨_, -, h1⟩ := of_bind_ok h1
  obtain ⟨_, -, h1⟩ := of_bind_ok h1
  unfold stateVec at h1
  obtain ⟨ρ', h3, h1⟩ := of_bind_ok h1
  obtain ⟨_, -, h1⟩ := of_bind_ok h1
  obtain ⟨_, -, h1⟩ := of_bind_ok h1
  have e1 : w 0 = ρ := by simpa [given, hr] using h2
  have e2 : ρ = ρ' := by simpa [density, EOS.density, equation, equationE] using h3
  rw [← Except.ok.inj h, ← Except.ok.inj h1, ← e2, ← e1]
  simp

/-! ### Steps and runs -/

/-- The conditions on the boundary covered here: `R` is what the code tests with the facet
functions. -/
inductive BoundaryKind
  | wall | isothermal | outflow | dense

/-- What a condition of each kind means in a point of the boundary with normal `d`, trace `w` and
facet value `wHat`. -/
def BoundaryKind.Holds (γ : ℝ) (d : Fin n → ℝ) (w wHat R : Fin (n + 2) → ℝ) : BoundaryKind → Prop
  /- inviscid walls and symmetry planes -/
  | .wall => ∃ U, conservativeFields γ w = .ok U ∧ inviscidWallResidual γ d U wHat = .ok R
  | .isothermal => ∃ bc U, conservativeFields γ w = .ok U ∧ isothermalWallResidual γ bc U wHat = .ok R
  /- the gas does not come back in at an outflow -/
  | .outflow => (∃ bc U, conservativeFields γ w = .ok U ∧ outflowResidual γ bc U wHat = .ok R) ∧
      0 ≤ (wHat 0)⁻¹ * (mom wHat ⬝ᵥ d)
  /- any other condition whose facet values are a gas, such as a supersonic inflow -/
  | .dense => 0 < wHat 0

/-- What is assumed of a state in a run with piecewise constants: `tr` and `hat` are the traces and
facet values. -/
structure LowestOrder (γ : ℝ) (rs : Riemann) (M : HdgMesh n V B) (mask : B → ℝ) (K : Cells V B E Fc)
    (x : HdgState n (n + 2) V B) (tr hat : B → Fin (n + 2) → ℝ) (kind : Fc → BoundaryKind) :
    Prop where
  /-- Elements and facets carry constants. -/
  constant : K.Constant x.U tr hat
  /-- Facet densities are not zero, so that the velocity is defined. -/
  defined : ∀ b, hat b 0 ≠ 0
  /-- The convective flux is that of the code. -/
  flux : ∀ b, ∃ UHat, conservativeFields γ (hat b) = .ok UHat ∧
    convectiveNumericalFlux γ rs (tr b) (hat b) UHat (M.normal b) = .ok (x.Fn b)
  /-- So is the viscous flux, if there is one. -/
  viscous : ∀ b, x.Gn b = 0 ∨ ∃ cfg UHat Q,
    diffusiveNumericalFlux cfg (tr b) (hat b) UHat Q (M.normal b) = .ok (x.Gn b)
  /-- Sponge layers relax the density to one that is not negative. -/
  sponge : ∀ v, x.source v = 0 ∨ ∃ σ target ρ, 0 ≤ σ ∧ density γ target = .ok ρ ∧ 0 ≤ ρ ∧
    spongeResidual γ σ target (x.U v) = .ok (x.source v)
  /-- Conditions act only where they are. -/
  inside : ∀ b, mask b = 1 → x.R b = 0
  /-- There they are those of the code. -/
  conditions : ∀ b, mask b = 0 → (kind (K.facet b)).Holds γ (M.normal b) (tr b) (hat b) (x.R b)

theorem LowestOrder.viscous_zero {γ : ℝ} {rs : Riemann} {M : HdgMesh n V B} {mask : B → ℝ}
    {K : Cells V B E Fc} {x : HdgState n (n + 2) V B} {tr hat : B → Fin (n + 2) → ℝ}
    {kind : Fc → BoundaryKind} (h : LowestOrder γ rs M mask K x tr hat kind) (b : B) :
    x.Gn b 0 = 0 := by
  rcases h.viscous b with e | ⟨cfg, UHat, Q, e⟩
  · rw [e]; rfl
  · exact viscous_mass_flux cfg _ _ UHat Q _ _ e

/-- Tested with one on a facet of the boundary, a step says that the residuals of the condition
vanish. -/
theorem facet_residual {M : HdgMesh n V B} {mask : B → ℝ} {K : Cells V B E Fc}
    (hK : K.Fits M mask) {T : Set (HdgTest n k V B)} (hT : K.HasIndicators T)
    {q : ℝ → ℝ → ℝ → ℝ} {t : ℚ} {x cur prev : HdgState n k V B} (h : hdgStep M mask T q t x cur prev)
    (b : B) (hb : mask b = 0) (i : Fin k) (hc : ∀ b', K.facet b' = K.facet b → x.R b' i = x.R b i) :
    x.R b i = 0 := by
  have := h _ (hT.2 (K.facet b) i)
  simp only [timeForm, convectionForm, diffusionForm, boundaryForm, Cells.facetTest, frobenius] at this
  have hm : ∀ (f : B → Fin k → ℝ) b', mask b' * (f b' ⬝ᵥ
      if K.facet b' = K.facet b then (Pi.single i 1 : Fin k → ℝ) else 0) = 0 := by
    intro f b'
    split_ifs with hb'
    · rw [hK.maskFacet b' b hb', hb, zero_mul]
    · simp
  simp only [neg_mul, hm, Matrix.zero_apply, mul_zero, Finset.sum_const_zero, neg_zero,
    dotProduct_zero, add_zero, zero_add, sub_zero] at this
  have e : ∀ b', M.wB b' * (x.R b' ⬝ᵥ if K.facet b' = K.facet b then (Pi.single i 1 : Fin k → ℝ)
      else 0) = (if K.facet b' = K.facet b then M.wB b' else 0) * x.R b i := by
    intro b'
    split_ifs with hb'
    · simp [hc b' hb']
    · simp
  simp only [e, ← Finset.sum_mul] at this
  refine (mul_eq_zero.1 this).resolve_left (ne_of_gt ?_)
  refine Finset.sum_pos' (fun b' _ => ?_) ⟨b, Finset.mem_univ _, ?_⟩
  · split_ifs
    · exact (hK.boundary b').le
    · exact le_refl _
  · rw [if_pos rfl]; exact hK.boundary b

/-- No mass enters through a facet of the boundary into an element without any; none at all passes
through walls. -/
theorem boundary_mass_flux {γ : ℝ} {rs : Riemann} (hrs : rs.AnyDim) {M : HdgMesh n V B}
    {mask : B → ℝ} {K : Cells V B E Fc} (hK : K.Fits M mask) {T : Set (HdgTest n (n + 2) V B)}
    (hT : K.HasIndicators T) {q : ℝ → ℝ → ℝ → ℝ} {t : ℚ} {x cur prev : HdgState n (n + 2) V B}
    {tr hat : B → Fin (n + 2) → ℝ} {kind : Fc → BoundaryKind}
    (hx : LowestOrder γ rs M mask K x tr hat kind) (h : hdgStep M mask T q t x cur prev) (b : B)
    (hb : mask b = 0) :
    (tr b 0 ≤ 0 → x.Fn b 0 ≤ 0) ∧
    (kind (K.facet b) = .wall ∨ kind (K.facet b) = .isothermal → x.Fn b 0 = 0) := by
  obtain ⟨UHat, hU, hf⟩ := hx.flux b
  obtain ⟨l, hl, hle, e⟩ := mass_flux_eq hrs (tr b) (hat b) UHat hU _ _ hf
  have hm0 : ∀ b', K.facet b' = K.facet b → mask b' = 0 := fun b' h' => by
    rw [hK.maskFacet b' b h', hb]
  have htr : ∀ b', K.facet b' = K.facet b → tr b' = tr b := by
    intro b' h'
    obtain ⟨v, hv⟩ := hK.points b
    rw [hx.constant.trace v b hv, hx.constant.trace v b' (hv.trans (hK.outer b b' hb h').1.symm)]
  have hhat : ∀ b', K.facet b' = K.facet b → hat b' = hat b := fun b' h' =>
    hx.constant.facets b' b h'
  have hcond : ∀ b', K.facet b' = K.facet b → (kind (K.facet b)).Holds γ (M.normal b) (tr b)
      (hat b) (x.R b') := by
    intro b' h'
    have := hx.conditions b' (hm0 b' h')
    rwa [h', htr b' h', hhat b' h', (hK.outer b b' hb h').2] at this
  have closed : (∀ b', K.facet b' = K.facet b → x.R b' 0 = hat b 0 - tr b 0) → hat b 0 = tr b 0 := by
    intro hc
    have := facet_residual hK hT h b hb 0 fun b' h' => by rw [hc b' h', hc b rfl]
    rw [hc b rfl] at this
    linarith
  have mclosed : ∀ m : Fin n → ℝ, (∀ b', K.facet b' = K.facet b → mom (x.R b') = mom (hat b) - m) →
      mom (hat b) = m := by
    intro m hc
    funext i
    have := facet_residual hK hT h b hb i.castSucc.succ fun b' h' =>
      (congrFun (hc b' h') i).trans (congrFun (hc b rfl) i).symm
    have e2 : mom (x.R b) i = 0 := this
    rw [hc b rfl, Pi.sub_apply] at e2
    linarith
  cases hk : kind (K.facet b) with
  | wall =>
    rw [hk] at hcond
    have h0 : hat b 0 = tr b 0 := closed fun b' h' => by
      obtain ⟨U, hU, hR⟩ := hcond b' h'
      exact (inviscid_wall_parts hU hR).1
    have h1 : mom (hat b) = mom (tr b) - (mom (tr b) ⬝ᵥ M.normal b) • M.normal b :=
      mclosed _ fun b' h' => by
        obtain ⟨U, hU, hR⟩ := hcond b' h'
        exact (inviscid_wall_parts hU hR).2
    have : x.Fn b 0 = 0 := by
      rw [e, h0, h1, sub_dotProduct, smul_dotProduct, hK.unit b, smul_eq_mul]
      ring
    exact ⟨fun _ => this.le, fun _ => this⟩
  | isothermal =>
    rw [hk] at hcond
    have h0 : hat b 0 = tr b 0 := closed fun b' h' => by
      obtain ⟨bc, U, hU, hR⟩ := hcond b' h'
      exact (isothermal_wall_parts hU hR).1
    have h1 : mom (hat b) = 0 := mclosed _ fun b' h' => by
      obtain ⟨bc, U, hU, hR⟩ := hcond b' h'
      rw [sub_zero]
      exact (isothermal_wall_parts hU hR).2
    have : x.Fn b 0 = 0 := by
      rw [e, h0, h1, zero_dotProduct]
      ring
    exact ⟨fun _ => this.le, fun _ => this⟩
  | outflow =>
    rw [hk] at hcond
    have h0 : hat b 0 = tr b 0 := closed fun b' h' => by
      obtain ⟨⟨bc, U, hU, hR⟩, -⟩ := hcond b' h'
      exact outflow_parts hU hR
    refine ⟨fun hn => ?_, by simp⟩
    have h1 := (hcond b rfl).2
    have h2 : mom (hat b) ⬝ᵥ M.normal b = hat b 0 * ((hat b 0)⁻¹ * (mom (hat b) ⬝ᵥ M.normal b)) := by
      field_simp [hx.defined b]
    rw [e, h2, h0, sub_self, mul_zero, add_zero]
    rw [h0] at h1
    exact mul_nonpos_of_nonpos_of_nonneg hn h1
  | dense =>
    rw [hk] at hcond
    have h0 : 0 < hat b 0 := hcond b rfl
    refine ⟨fun hn => ?_, by simp⟩
    obtain ⟨a, g, ha, hg, e⟩ := mass_flux hrs (tr b) (hat b) (hx.defined b) UHat hU _ _ hf
    rw [e]
    nlinarith [mul_nonneg hg h0.le, mul_nonneg ha (neg_nonneg.2 hn)]

/-- **C89** One step of the implicit Euler method with piecewise constants, Lax–Friedrichs or HLL, in
any dimension, with or without viscosity, with sponge layers, walls, outflows and inflows: if the
density is positive before the step it is positive after it, however long the step is. -/
theorem C89_step [Fintype E] [Fintype Fc] {γ : ℝ} {rs : Riemann} (hrs : rs.AnyDim)
    (M : HdgMesh n V B) (mask : B → ℝ) (K : Cells V B E Fc) (hK : K.Fits M mask)
    (T : Set (HdgTest n (n + 2) V B)) (hT : K.HasIndicators T) (dt : ℝ) (hdt : 0 < dt) (t : ℚ)
    (x cur prev : HdgState n (n + 2) V B) (tr hat : B → Fin (n + 2) → ℝ) (kind : Fc → BoundaryKind)
    (hx : LowestOrder γ rs M mask K x tr hat kind)
    (h : hdgStep M mask T (Scheme.implicitEuler.quotient dt) t x cur prev)
    (hcur : ∀ v, 0 < cur.U v 0) : ∀ v, 0 < x.U v 0 := by
  have hc := hx.constant
  refine balances_positive K M.wV M.wB hK.volume (fun b => (hK.boundary b).le) mask hK.mask01
    hK.maskFacet dt hdt (fun v => x.U v 0)
    (fun v => cur.U v 0) (fun v => x.source v 0) (fun b => tr b 0) (fun b => hat b 0)
    (fun b => x.Fn b 0) (fun v v' e => by rw [hc.volume v v' e]) (fun v b e => by rw [hc.trace v b e])
    hK.points (fun b b' e => by rw [hc.facets b b' e]) hcur ?_ ?_ ?_ ?_ ?_
  · intro v hv
    rcases hx.sponge v with e | ⟨σ, target, ρ, hσ, hd, hρ, e⟩
    · rw [e]; exact le_refl _
    · unfold spongeResidual stateVec at e
      obtain ⟨s, hs, e⟩ := of_bind_ok e
      obtain ⟨ρ', h1, hs⟩ := of_bind_ok hs
      obtain ⟨_, -, hs⟩ := of_bind_ok hs
      obtain ⟨_, -, hs⟩ := of_bind_ok hs
      rw [hd] at h1
      show x.source v 0 ≤ 0
      rw [← Except.ok.inj e, ← Except.ok.inj hs, ← Except.ok.inj h1]
      simp only [Pi.smul_apply, Pi.sub_apply, consVec_zero, smul_eq_mul]
      exact mul_nonpos_of_nonneg_of_nonpos hσ (by linarith)
  · intro b _
    obtain ⟨UHat, hU, hf⟩ := hx.flux b
    exact mass_flux hrs (tr b) (hat b) (hx.defined b) UHat hU _ _ hf
  · intro b hb htr
    exact (boundary_mass_flux hrs hK hT hx h b hb).1 htr
  · intro e
    have := h _ (hT.1 e 0)
    simp only [timeForm, convectionForm, diffusionForm, boundaryForm, Cells.elementTest, frobenius,
      Scheme.quotient, _root_.Spec.backwardEuler] at this
    have hG : ∀ b, (x.Gn b ⬝ᵥ if K.elB b = e then (Pi.single 0 1 : Fin (n + 2) → ℝ) else 0) = 0 := by
      intro b
      split_ifs <;> simp [hx.viscous_zero b]
    simp only [hG, Matrix.zero_apply, mul_zero, Finset.sum_const_zero, neg_zero, dotProduct_zero,
      add_zero, zero_add, sub_zero] at this
    rw [add_right_comm, ← Finset.sum_add_distrib] at this
    refine Eq.trans ?_ this
    congr 1
    · refine Finset.sum_congr rfl fun v _ => ?_
      split_ifs <;> simp
      ring
    · refine Finset.sum_congr rfl fun b _ => ?_
      split_ifs <;> simp
  · intro f hf
    have := h _ (hT.2 f 0)
    simp only [timeForm, convectionForm, diffusionForm, boundaryForm, Cells.facetTest, frobenius,
      Scheme.quotient, _root_.Spec.backwardEuler] at this
    have hG : ∀ b, (x.Gn b ⬝ᵥ if K.facet b = f then (Pi.single 0 1 : Fin (n + 2) → ℝ) else 0) = 0 := by
      intro b
      split_ifs <;> simp [hx.viscous_zero b]
    have hR : ∀ b, (x.R b ⬝ᵥ if K.facet b = f then (Pi.single 0 1 : Fin (n + 2) → ℝ) else 0) = 0 := by
      intro b
      split_ifs with hb
      · simp [hx.inside b (hf b hb)]
      · simp
    simp only [hG, hR, Matrix.zero_apply, mul_zero, Finset.sum_const_zero, neg_zero, dotProduct_zero,
      add_zero, zero_add, sub_zero] at this
    rw [← neg_eq_zero, ← Finset.sum_neg_distrib]
    refine Eq.trans ?_ this
    refine Finset.sum_congr rfl fun b _ => ?_
    split_ifs with hb
    · simp [hf b hb]
    · simp

/-- **C89** A whole run: the density is positive in every element after every step. -/
theorem C89_run [Fintype E] [Fintype Fc] {γ : ℝ} {rs : Riemann} (hrs : rs.AnyDim)
    (M : HdgMesh n V B) (mask : B → ℝ) (K : Cells V B E Fc) (hK : K.Fits M mask)
    (T : Set (HdgTest n (n + 2) V B)) (hT : K.HasIndicators T) (dt : ℝ) (hdt : 0 < dt)
    (ts : List ℚ) (x0 : HdgState n (n + 2) V B) (xs : List (HdgState n (n + 2) V B))
    (hx : ∀ x ∈ xs, ∃ tr hat kind, LowestOrder γ rs M mask K x tr hat kind)
    (h : _root_.Spec.Satisfies (hdgStep M mask T (Scheme.implicitEuler.quotient dt)) x0 x0 ts xs)
    (h0 : ∀ v, 0 < x0.U v 0) : ∀ x ∈ xs, ∀ v, 0 < x.U v 0 := by
  suffices key : ∀ p x0 : HdgState n (n + 2) V B, (∀ v, 0 < x0.U v 0) →
      _root_.Spec.Satisfies (hdgStep M mask T (Scheme.implicitEuler.quotient dt)) p x0 ts xs →
      ∀ x ∈ xs, ∀ v, 0 < x.U v 0 from key x0 x0 h0 h
  clear h h0 x0
  induction ts generalizing xs with
  | nil => intro p x0 _ h; cases xs <;> simp_all [_root_.Spec.Satisfies]
  | cons t ts ih =>
    intro p x0 h0 h
    cases xs with
    | nil => simp
    | cons y ys =>
      obtain ⟨h1, h2⟩ := h
      obtain ⟨tr, hat, kind, hy⟩ := hx y (by simp)
      have hp := C89_step hrs M mask K hK T hT dt hdt t y x0 p tr hat kind hy h1 h0
      intro x hxm
      rcases List.mem_cons.1 hxm with rfl | hm
      · exact hp
      · exact ih ys (fun z hz => hx z (List.mem_cons_of_mem _ hz)) x0 y hp h2 x hm

/-- **C89** In a container the density is bounded by the total mass as well: no element ever holds
more than all of the gas there was at the start. -/
theorem C89_container [Fintype E] [Fintype Fc] {γ : ℝ} {rs : Riemann} (hrs : rs.AnyDim)
    (M : HdgMesh n V B) (mask : B → ℝ) (K : Cells V B E Fc) (hK : K.Fits M mask)
    (T : Set (HdgTest n (n + 2) V B)) (hT : K.HasIndicators T) (hC : HasConstants mask T) (dt : ℝ)
    (hdt : 0 < dt) (ts : List ℚ) (x0 : HdgState n (n + 2) V B) (xs : List (HdgState n (n + 2) V B))
    (hx : ∀ x ∈ xs, ∃ tr hat kind, LowestOrder γ rs M mask K x tr hat kind ∧
      ∀ f, kind f = .wall ∨ kind f = .isothermal)
    (hsrc : ∀ x ∈ xs, ∀ v, x.source v = 0)
    (h : _root_.Spec.Satisfies (hdgStep M mask T (Scheme.implicitEuler.quotient dt)) x0 x0 ts xs)
    (h0 : ∀ v, 0 < x0.U v 0) :
    ∀ x ∈ xs, ∀ v, 0 < x.U v 0 ∧ M.wV v * x.U v 0 ≤ x0.total M 0 := by
  have hpos := C89_run hrs M mask K hK T hT dt hdt ts x0 xs
    (fun x hm => by obtain ⟨tr, hat, kind, hl, -⟩ := hx x hm; exact ⟨tr, hat, kind, hl⟩) h h0
  have hstep : ∀ (p x0 : HdgState n (n + 2) V B) (ts : List ℚ) (xs : List (HdgState n (n + 2) V B)),
      _root_.Spec.Satisfies (hdgStep M mask T (Scheme.implicitEuler.quotient dt)) p x0 ts xs →
      ∀ x ∈ xs, ∃ t c p, hdgStep M mask T (Scheme.implicitEuler.quotient dt) t x c p := by
    intro p x0 ts xs h
    induction ts generalizing p x0 xs with
    | nil => cases xs <;> simp_all [_root_.Spec.Satisfies]
    | cons t ts ih =>
      cases xs with
      | nil => simp
      | cons y ys =>
        intro x hm
        rcases List.mem_cons.1 hm with rfl | hm
        · exact ⟨t, x0, p, h.1⟩
        · exact ih _ _ _ h.2 x hm
  have hloss : ∀ x ∈ xs, x.loss M mask 0 = 0 := by
    intro x hm
    obtain ⟨tr, hat, kind, hl, hk⟩ := hx x hm
    obtain ⟨t, c, p, hs⟩ := hstep _ _ _ _ h x hm
    rw [HdgState.loss, Finset.sum_eq_zero, Finset.sum_eq_zero, add_zero]
    · intro v _; rw [hsrc x hm v]; simp
    · intro b _
      split_ifs with hb
      · rw [(boundary_mass_flux hrs hK hT hl hs b hb).2 (hk _), hl.viscous_zero b]; simp
      · rfl
  have htot := C66_closed M mask hK.mask01 T hC .implicitEuler dt hdt.ne' ts x0 xs
    (fun x hm b hb => by obtain ⟨tr, hat, kind, hl, -⟩ := hx x hm; exact hl.inside b hb) h 0 hloss
  intro x hm v
  refine ⟨hpos x hm v, ?_⟩
  rw [← htot x hm]
  exact Finset.single_le_sum (f := fun v => M.wV v * x.U v 0)
    (fun v _ => (mul_pos (hK.volume v) (hpos x hm v)).le) (Finset.mem_univ v)

end Dream
