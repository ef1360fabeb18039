import Verif.Props.Freestream

/-!
# C69: uniform flow is preserved, with viscosity
-/

noncomputable section

namespace Dream
open Matrix Spec

variable {V B : Type} [Fintype V] [Fintype B]

/-- What the quadrature must satisfy for the mixed space: the divergence theorem for every test
function. -/
def GaussMixed (M : HdgMesh 2 V B) (T : Set (MixedTest V B)) : Prop :=
  ∀ P ∈ T, ∀ i j, ∑ v, M.wV v * P.grad v i j = ∑ b, M.wB b * (P.trace b i * M.normal b j)

/-- The mixed form for a uniform velocity and temperature is the inner product of the mixed
variables and the test function. -/
theorem mixedForm_uniform {M : HdgMesh 2 V B} {T : Set (MixedTest V B)} (hG : GaussMixed M T)
    (Q : V → Fin 5 → ℝ) (u : Fin 2 → ℝ) (θ : ℝ) {P : MixedTest V B} (hP : P ∈ T) :
    mixedForm M Q (fun _ => u) (fun _ => θ) (fun _ => u) (fun _ => θ) P
      = ∑ v, M.wV v * (Q v 0 * P.val v 0 + 2 * (Q v 1 * P.val v 1) + Q v 2 * P.val v 2
          + Q v 3 * P.val v 3 + Q v 4 * P.val v 4) := by
  have h := hG P hP
  have e1 : ∀ v, M.wV v * (mixedStrainVolume (Q v) (P.val v) (P.grad v) u
        + mixedHeatVolume (Q v) (P.val v) (P.grad v) θ)
      = M.wV v * (Q v 0 * P.val v 0 + 2 * (Q v 1 * P.val v 1) + Q v 2 * P.val v 2
          + Q v 3 * P.val v 3 + Q v 4 * P.val v 4)
        + (u 0 * (M.wV v * P.grad v 0 0) + u 0 * (M.wV v * P.grad v 1 1)
          - u 0 / 3 * (M.wV v * P.grad v 0 0) - u 0 / 3 * (M.wV v * P.grad v 2 0)
          + u 1 * (M.wV v * P.grad v 1 0) + u 1 * (M.wV v * P.grad v 2 1)
          - u 1 / 3 * (M.wV v * P.grad v 0 1) - u 1 / 3 * (M.wV v * P.grad v 2 1)
          + θ * (M.wV v * P.grad v 3 0) + θ * (M.wV v * P.grad v 4 1)) := by
    intro v
    simp [mixedStrainVolume, mixedHeatVolume, mixedEps, mixedGradT, divDevZeta, divXi,
      Fin.sum_univ_two, dotProduct]
    ring
  have e2 : ∀ b, M.wB b * (mixedStrainFacet (P.trace b) u (M.normal b)
        + mixedHeatFacet (P.trace b) θ (M.normal b))
      = u 0 * (M.wB b * (P.trace b 0 * M.normal b 0)) + u 0 * (M.wB b * (P.trace b 1 * M.normal b 1))
          - u 0 / 3 * (M.wB b * (P.trace b 0 * M.normal b 0))
          - u 0 / 3 * (M.wB b * (P.trace b 2 * M.normal b 0))
          + u 1 * (M.wB b * (P.trace b 1 * M.normal b 0))
          + u 1 * (M.wB b * (P.trace b 2 * M.normal b 1))
          - u 1 / 3 * (M.wB b * (P.trace b 0 * M.normal b 1))
          - u 1 / 3 * (M.wB b * (P.trace b 2 * M.normal b 1))
          + θ * (M.wB b * (P.trace b 3 * M.normal b 0))
          + θ * (M.wB b * (P.trace b 4 * M.normal b 1)) := by
    intro b
    simp [mixedStrainFacet, mixedHeatFacet, devZeta, mixedEps, mixedGradT, Matrix.trace,
      Fin.sum_univ_two, dotProduct, mulVec]
    ring
  rw [mixedForm, Finset.sum_congr rfl fun v _ => e1 v, Finset.sum_congr rfl fun b _ => e2 b]
  simp only [Finset.sum_add_distrib, Finset.sum_sub_distrib, ← Finset.mul_sum, h]
  ring

/-- **C69** In a uniform flow the strain rate and the temperature gradient computed by the mixed
method are exactly zero: the zero field solves the mixed equations, and every solution of the
mixed space vanishes at every quadrature point. -/
theorem C69_gradients {M : HdgMesh 2 V B} (hw : ∀ v, 0 < M.wV v) {T : Set (MixedTest V B)}
    (hG : GaussMixed M T) (u : Fin 2 → ℝ) (θ : ℝ) (Q : MixedTest V B) (hQ : Q ∈ T) :
    (∀ P ∈ T, mixedForm M Q.val (fun _ => u) (fun _ => θ) (fun _ => u) (fun _ => θ) P = 0) ↔
      ∀ v, Q.val v = 0 := by
  constructor
  · intro h
    have h1 := h Q hQ
    rw [mixedForm_uniform hG _ _ _ hQ, Finset.sum_eq_zero_iff_of_nonneg] at h1
    · intro v
      have h2 := (mul_eq_zero.1 (h1 v (Finset.mem_univ v))).resolve_left (hw v).ne'
      have k : Q.val v 0 = 0 ∧ Q.val v 1 = 0 ∧ Q.val v 2 = 0 ∧ Q.val v 3 = 0 ∧ Q.val v 4 = 0 := by
        refine ⟨?_, ?_, ?_, ?_, ?_⟩ <;>
          nlinarith [mul_self_nonneg (Q.val v 0), mul_self_nonneg (Q.val v 1),
            mul_self_nonneg (Q.val v 2), mul_self_nonneg (Q.val v 3), mul_self_nonneg (Q.val v 4)]
      funext i
      fin_cases i
      · exact k.1
      · exact k.2.1
      · exact k.2.2.1
      · exact k.2.2.2.1
      · exact k.2.2.2.2
    · intro v _
      have := hw v
      have := mul_self_nonneg (Q.val v 0)
      have := mul_self_nonneg (Q.val v 1)
      have := mul_self_nonneg (Q.val v 2)
      have := mul_self_nonneg (Q.val v 3)
      have := mul_self_nonneg (Q.val v 4)
      positivity
  · intro h P hP
    rw [mixedForm_uniform hG _ _ _ hP]
    exact Finset.sum_eq_zero fun v _ => by simp [h v]

/-- C69, concrete instance: affine mixed functions on the unit square. -/
example : GaussMixed unitSquare {P | ∃ (a : Fin 5 → ℝ) (g : Matrix (Fin 5) (Fin 2) ℝ),
    P.grad = (fun _ => g) ∧ P.val = (fun _ => a + g *ᵥ ![1 / 2, 1 / 2]) ∧ P.trace = fun b =>
      a + g *ᵥ (![![1, 1 / 2], ![0, 1 / 2], ![1 / 2, 1], ![1 / 2, 0]] : Fin 4 → Fin 2 → ℝ) b} := by
  rintro P ⟨a, g, h1, -, h2⟩ i j
  rw [h1, h2]
  fin_cases j <;>
    simp [unitSquare, Fin.sum_univ_four, mulVec, dotProduct, Fin.sum_univ_two] <;> ring

/-- A matching condition, or a characteristic condition with viscous terms. -/
inductive MatchingViscous (cfg : FlowCfg) (S : GasState 2) (d : Fin 2 → ℝ) : (Fin 4 → ℝ) → Prop
  | inviscid {R} (h : Matching cfg.γ S d R) : MatchingViscous cfg S d R
  | cbc {R} (hl : ∀ i, lams S.c S.u d i ≠ 0) (t : CbcTarget) (D : Matrix (Fin 4) (Fin 4) ℝ)
      (β dt : ℝ) (tng : Fin 2 → ℝ)
      (h : cbcResidualViscous cfg t (conservativeDict S) (conservativeDict S) (conservativeDict S)
        0 D β dt d tng (gasVec S) (gasVec S) (gasVec S) 0 0 0 = .ok R) : MatchingViscous cfg S d R

theorem MatchingViscous.zero {cfg : FlowCfg} (ha : cfg.Accepted) (hv : cfg.visc ≠ .inviscid)
    (hM : 0 < cfg.Ma) {S : GasState 2} (hS : IdealGas cfg.γ S) {d : Fin 2 → ℝ}
    (hd : d 0 ^ 2 + d 1 ^ 2 = 1) {R : Fin 4 → ℝ} (h : MatchingViscous cfg S d R) : R = 0 := by
  cases h with
  | inviscid h => exact h.zero hS hd
  | cbc hl t D β dt tng h =>
    unfold cbcResidualViscous at h
    rw [C33_cbc_partial hS hd hl, C58_uniform_partial ha hv hM hS] at h
    cases hq : conservativeConvectiveIdentity cfg.γ (conservativeDict S) d (some "incoming") with
    | error e => rw [hq] at h; cases h
    | ok Qin =>
      rw [hq] at h
      simp only [bind, Except.bind, mulVec_zero, smul_zero, sub_zero, Except.ok.injEq] at h
      exact h.symm

/-- The viscous flux vanishes when the mixed variables do. -/
theorem diffusive_zero {cfg : FlowCfg} (ha : cfg.Accepted) (hv : cfg.visc ≠ .inviscid)
    (hM : 0 < cfg.Ma) {S : GasState 2} (hS : IdealGas cfg.γ S) {F : Matrix (Fin 4) (Fin 2) ℝ}
    (h : diffusiveFlux cfg (conservativeDict S) (strainHeatFields 0) = .ok F) : F = 0 := by
  ext i j
  obtain ⟨F', μ, r, h1, -, -, h2⟩ := C55_strain_heat_partial ha hv hM hS 0 (Pi.single j 1)
  rw [h] at h1
  cases h1
  have h3 : F *ᵥ Pi.single j 1 = 0 := by
    rw [h2]
    have z : !![(0 : Fin 5 → ℝ) 0, (0 : Fin 5 → ℝ) 1; (0 : Fin 5 → ℝ) 1, (0 : Fin 5 → ℝ) 2]
        = (0 : Matrix (Fin 2) (Fin 2) ℝ) := by
      ext a b; fin_cases a <;> fin_cases b <;> rfl
    have z' : ![(0 : Fin 5 → ℝ) 3, (0 : Fin 5 → ℝ) 4] = (0 : Fin 2 → ℝ) := by
      funext a; fin_cases a <;> rfl
    rw [z, z', smul_zero]
    funext a
    fin_cases a <;> simp [viscousFlux] <;> rfl
  have := congrFun h3 i
  simpa using this

/-- **C69** Uniform viscous flow: if the state is the same gas state everywhere, every boundary
has a condition that matches it and the sponge layers have it as target, then it solves the
discrete Navier-Stokes equations of every step exactly, together with zero gradients, for every
viscosity law, Riemann solver, mesh, order, scheme and time step. -/
theorem C69_viscous {cfg : FlowCfg} (ha : cfg.Accepted) (hv : cfg.visc ≠ .inviscid)
    (hM : 0 < cfg.Ma) {S : GasState 2} (hS : IdealGas cfg.γ S) (rs : Riemann) (M : HdgMesh 2 V B)
    (hn : ∀ b, M.normal b 0 ^ 2 + M.normal b 1 ^ 2 = 1) (mask : B → ℝ)
    (T : Set (HdgTest 2 4 V B)) (hG : Gauss M mask T) (T' : Set (MixedTest V B))
    (hG' : GaussMixed M T') (s : Scheme) (dt : ℝ) (t : ℚ)
    (x : HdgState 2 4 V B) (hU : ∀ v, x.U v = gasVec S)
    (hx : x.IsNavierStokes cfg rs M (fun _ => gasVec S) (fun _ => gasVec S) 0 0)
    (hR : ∀ b, MatchingViscous cfg S (M.normal b) (x.R b))
    (σ : V → ℝ) (hσ : ∀ v, spongeResidual cfg.γ (σ v) (conservativeDict S) (x.U v)
      = .ok (x.source v)) :
    hdgStep M mask T (s.quotient dt) t x x x ∧
      ∀ P ∈ T', mixedForm M 0 (fun _ => S.u) (fun _ => S.T) (fun _ => S.u) (fun _ => S.T) P = 0 := by
  refine ⟨?_, fun P hP => ?_⟩
  · have hGz : x.G = 0 := by
      funext v
      obtain ⟨Uf, h1, -, h2⟩ := hx.flux v
      rw [hU v, fields_vec hS] at h1
      cases h1
      exact diffusive_zero ha hv hM hS h2
    have hGnz : x.Gn = 0 := by
      funext b
      obtain ⟨Uf, h0, -, h1⟩ := hx.numerical b
      rw [fields_vec hS] at h0
      cases h0
      obtain ⟨F, hF, h2⟩ := C56_consistent ha hv hM hS (0 : Fin 5 → ℝ) (gasVec S) (M.normal b)
      have h3 : x.Gn b = F *ᵥ M.normal b := (Except.ok.inj (h2.symm.trans h1)).symm
      rw [h3, diffusive_zero ha hv hM hS hF, zero_mulVec]
      rfl
    refine uniform_core hS rs M hn mask T hG s dt t x hU ⟨?_, ?_, hGz, hGnz⟩
      (fun b => (hR b).zero ha hv hM hS (hn b)) σ hσ
    · intro v
      obtain ⟨Uf, h1, h2, -⟩ := hx.flux v
      exact ⟨Uf, h1, h2⟩
    · intro b
      obtain ⟨Uf, h1, h2, -⟩ := hx.numerical b
      exact ⟨Uf, h1, h2⟩
  · rw [mixedForm_uniform hG' _ _ _ hP]
    exact Finset.sum_eq_zero fun v _ => by simp

end Dream
