import Verif.Props.Conservation
import Verif.Props.Boundary
import Verif.Props.Riemann
import Verif.Props.Mixed

/-!
# C69: uniform flow is preserved
-/

noncomputable section

namespace Dream
open Matrix Spec

variable {V B : Type} [Fintype V] [Fintype B] {γ : ℝ}

/-- The conservative variables of a gas state. -/
abbrev gasVec (S : GasState 2) : Fin 4 → ℝ := consVec S.rho S.rho_u S.rho_E

/-- `R` is the residual, at the uniform state `S`, of a boundary condition that prescribes this
state: a farfield with target `S`, an outflow at the pressure of `S`, a wall or symmetry plane
along which the gas flows, an isothermal wall of the right temperature with the gas at rest, or a
characteristic condition with target `S`; or there is no term. The farfield with the identity
instead of the Jacobian, and characteristic conditions, need nonzero characteristic velocities. -/
inductive Matching (γ : ℝ) (S : GasState 2) (d : Fin 2 → ℝ) : (Fin 4 → ℝ) → Prop
  | nothing : Matching γ S d 0
  | farfield {R} (h : farfieldResidual γ false (conservativeDict S) d (gasVec S) (gasVec S)
      (conservativeDict S) = .ok R) : Matching γ S d R
  | farfieldIdentity {R} (hl : ∀ i, lams S.c S.u d i ≠ 0)
      (h : farfieldResidual γ true (conservativeDict S) d (gasVec S) (gasVec S) (conservativeDict S) = .ok R) :
      Matching γ S d R
  | outflow {R} {bc : Flow 2} (hp : bc.p = some S.p)
      (h : outflowResidual γ bc (conservativeDict S) (gasVec S) = .ok R) : Matching γ S d R
  | wall {R} (hu : S.u ⬝ᵥ d = 0)
      (h : inviscidWallResidual γ d (conservativeDict S) (gasVec S) = .ok R) : Matching γ S d R
  | isothermal {R} {bc : Flow 2} (hu : S.u = 0) (hT : bc.T = some S.T)
      (h : isothermalWallResidual γ bc (conservativeDict S) (gasVec S) = .ok R) : Matching γ S d R
  | cbc {R} (hl : ∀ i, lams S.c S.u d i ≠ 0) (t : CbcTarget) (D : Matrix (Fin 4) (Fin 4) ℝ)
      (β dt : ℝ) (tng : Fin 2 → ℝ)
      (h : cbcResidual γ t (conservativeDict S) (conservativeDict S) (conservativeDict S) D β dt d
        tng (gasVec S) (gasVec S) (gasVec S) 0 = .ok R) : Matching γ S d R

/-- A condition that matches the uniform state has no residual. -/
theorem Matching.zero {S : GasState 2} (hS : IdealGas γ S) {d : Fin 2 → ℝ}
    (hd : d 0 ^ 2 + d 1 ^ 2 = 1) {R : Fin 4 → ℝ} (h : Matching γ S d R) : R = 0 := by
  cases h with
  | nothing => rfl
  | farfield h =>
    obtain ⟨R', -, -, h1, -, -, -, h2⟩ := C33_farfield_jacobian (U := conservativeDict S)
      hS.gamma rfl rfl rfl hS.rho_pos hS.sound_pos hd (stateVec_dict γ S) (gasVec S) (gasVec S)
    rw [h1] at h
    cases h
    exact h2 rfl rfl
  | farfieldIdentity hl h =>
    rw [C33_farfield_identity_partial (U := conservativeDict S) hS.gamma rfl rfl rfl hS.rho_pos
      hS.sound_pos hd hl (stateVec_dict γ S)] at h
    cases h
    rfl
  | outflow hp h =>
    obtain ⟨R', h1, h2⟩ := C33_outflow hS hp hS.p_pos S.rho S.rho_E S.rho_u
    rw [h1] at h
    cases h
    exact h2.2 ⟨S, hS, rfl, rfl, rfl, rfl, rfl, rfl⟩
  | wall hu h =>
    have hn : d ⬝ᵥ d = 1 := by
      simp only [dotProduct, Fin.sum_univ_two]
      linear_combination hd
    obtain ⟨R', h1, h2⟩ := C33_inviscid_wall (γ := γ) (S := S) hn S.rho S.rho_E S.rho_u
    rw [h1] at h
    cases h
    refine h2.2 ⟨rfl, rfl, ?_, fun _ _ => rfl⟩
    rw [hS.momentum, smul_dotProduct, hu, smul_zero]
  | isothermal hu hT h =>
    obtain ⟨R', h1, h2⟩ := C33_isothermal_wall hS hT hS.T_pos S.rho S.rho_E S.rho_u
    rw [h1] at h
    cases h
    exact h2.2 ⟨S, hS, rfl, rfl, rfl, rfl, hu, rfl⟩
  | cbc hl t D β dt tng h =>
    rw [C33_cbc_partial hS hd hl] at h
    cases h
    rfl

/-- What the quadrature must satisfy: the divergence theorem for every test function, element by
element summed up, and cancellation of the normals on all facets without a condition (a facet
value is the same from both sides). It holds for exact integration if every boundary has a
condition. -/
structure Gauss {n k : ℕ} (M : HdgMesh n V B) (mask : B → ℝ) (T : Set (HdgTest n k V B)) : Prop where
  divergence : ∀ φ ∈ T, ∀ i j, ∑ v, M.wV v * φ.grad v i j = ∑ b, M.wB b * (φ.trace b i * M.normal b j)
  cancel : ∀ φ ∈ T, ∀ i j, ∑ b, M.wB b * (mask b * (φ.hat b i * M.normal b j)) = 0

theorem sum_swap {n k : ℕ} {ι : Type} [Fintype ι] (w : ι → ℝ) (A : Matrix (Fin k) (Fin n) ℝ)
    (g : ι → Fin k → Fin n → ℝ) :
    ∑ v, w v * ∑ i, ∑ j, A i j * g v i j = ∑ i, ∑ j, A i j * ∑ v, w v * g v i j := by
  simp only [Finset.mul_sum]
  rw [Finset.sum_comm]
  refine Finset.sum_congr rfl fun i _ => ?_
  rw [Finset.sum_comm]
  exact Finset.sum_congr rfl fun j _ => Finset.sum_congr rfl fun v _ => by ring

theorem flux_dot {n k : ℕ} (A : Matrix (Fin k) (Fin n) ℝ) (d : Fin n → ℝ) (x : Fin k → ℝ) :
    (A *ᵥ d) ⬝ᵥ x = ∑ i, ∑ j, A i j * (x i * d j) := by
  simp only [dotProduct, mulVec, Finset.sum_mul]
  exact Finset.sum_congr rfl fun i _ => Finset.sum_congr rfl fun j _ => by ring

/-- The convective terms vanish for a constant flux. -/
theorem convection_uniform {n k : ℕ} {M : HdgMesh n V B} {mask : B → ℝ} {T : Set (HdgTest n k V B)}
    (hG : Gauss M mask T) (A : Matrix (Fin k) (Fin n) ℝ) {φ : HdgTest n k V B} (hφ : φ ∈ T) :
    convectionForm M mask (fun _ => A) (fun b => A *ᵥ M.normal b) φ = 0 := by
  have e1 : ∑ v, M.wV v * -frobenius A (φ.grad v)
      = -∑ i, ∑ j, A i j * ∑ v, M.wV v * φ.grad v i j := by
    rw [← sum_swap M.wV A (fun v i j => φ.grad v i j), ← Finset.sum_neg_distrib]
    exact Finset.sum_congr rfl fun v _ => by rw [frobenius]; ring
  have e2 : ∑ b, M.wB b * ((A *ᵥ M.normal b) ⬝ᵥ φ.trace b)
      = ∑ i, ∑ j, A i j * ∑ b, M.wB b * (φ.trace b i * M.normal b j) := by
    rw [← sum_swap M.wB A (fun b i j => φ.trace b i * M.normal b j)]
    exact Finset.sum_congr rfl fun b _ => by rw [flux_dot]
  have e3 : ∑ b, M.wB b * (-mask b * ((A *ᵥ M.normal b) ⬝ᵥ φ.hat b))
      = -∑ i, ∑ j, A i j * ∑ b, M.wB b * (mask b * (φ.hat b i * M.normal b j)) := by
    rw [← sum_swap M.wB A (fun b i j => mask b * (φ.hat b i * M.normal b j)),
      ← Finset.sum_neg_distrib]
    refine Finset.sum_congr rfl fun b _ => ?_
    rw [flux_dot]
    simp only [Finset.mul_sum]
    rw [← Finset.sum_neg_distrib]
    refine Finset.sum_congr rfl fun i _ => ?_
    rw [← Finset.sum_neg_distrib]
    exact Finset.sum_congr rfl fun j _ => by ring
  rw [convectionForm, e1, e2, e3]
  simp only [hG.divergence φ hφ, hG.cancel φ hφ, mul_zero, Finset.sum_const_zero]
  ring

theorem fields_vec {S : GasState 2} (hS : IdealGas γ S) :
    getConservativeFields γ (gasVec S 0) ![gasVec S 1, gasVec S 2] (gasVec S 3)
      = .ok (conservativeDict S) := by
  have e : ![gasVec S 1, gasVec S 2] = S.rho_u := by
    funext i; fin_cases i <;> rfl
  rw [e]
  exact C24_fields hS

/-- The core of C69: the residuals of the boundary conditions vanish. -/
theorem uniform_core {S : GasState 2} (hS : IdealGas γ S) (rs : Riemann) (M : HdgMesh 2 V B)
    (hn : ∀ b, M.normal b 0 ^ 2 + M.normal b 1 ^ 2 = 1) (mask : B → ℝ)
    (T : Set (HdgTest 2 4 V B)) (hG : Gauss M mask T) (s : Scheme) (dt : ℝ) (t : ℚ)
    (x : HdgState 2 4 V B) (hU : ∀ v, x.U v = gasVec S)
    (hx : x.IsEuler γ rs M (fun _ => gasVec S) (fun _ => gasVec S))
    (hR : ∀ b, x.R b = 0)
    (σ : V → ℝ) (hσ : ∀ v, spongeResidual γ (σ v) (conservativeDict S) (x.U v)
      = .ok (x.source v)) :
    hdgStep M mask T (s.quotient dt) t x x x := by
  obtain ⟨A, hA⟩ : ∃ A, convectiveFlux γ (conservativeDict S) = .ok A :=
    (C26_flux_conservative hS 0).imp fun _ h => h.1
  have hF' : x.F = fun _ => A := by
    funext v
    obtain ⟨Uf, h1, h2⟩ := hx.flux v
    rw [hU v, fields_vec hS] at h1
    cases h1
    rw [hA] at h2
    exact (Except.ok.inj h2).symm
  have hFn' : x.Fn = fun b => A *ᵥ M.normal b := by
    funext b
    obtain ⟨Uf, h0, h1⟩ := hx.numerical b
    rw [fields_vec hS] at h0
    cases h0
    rw [C28_consistent rs hS (hn b)] at h1
    obtain ⟨A', hA', h2⟩ := C26_flux_conservative hS (M.normal b)
    rw [hA] at hA'
    cases hA'
    rw [h2]
    exact (Except.ok.inj h1).symm
  have hR' : x.R = 0 := by
    funext b
    exact hR b
  have hs : x.source = 0 := by
    funext v
    have := hσ v
    rw [spongeResidual, stateVec_dict, hU v] at this
    simp only [bind, Except.bind, sub_self, smul_zero, Except.ok.injEq] at this
    exact this.symm
  have hq : ∀ a : ℝ, s.quotient dt a a a = 0 := by
    intro a
    cases s <;> simp [Scheme.quotient, backwardEuler, backward2] <;> ring_nf <;> simp
  intro φ hφ
  rw [hF', hFn', hR', hs, hx.inviscid.1, hx.inviscid.2, convection_uniform hG A hφ]
  simp [timeForm, diffusionForm, boundaryForm, frobenius, hq]

/-- **C69** Uniform flow: if the state is the same gas state everywhere (in the elements and on
the facets), every boundary has a condition that matches it and the sponge layers have it as
target, then it solves the discrete equations of every step exactly, for every Riemann solver,
mesh, order, scheme and time step. -/
theorem C69_uniform {S : GasState 2} (hS : IdealGas γ S) (rs : Riemann) (M : HdgMesh 2 V B)
    (hn : ∀ b, M.normal b 0 ^ 2 + M.normal b 1 ^ 2 = 1) (mask : B → ℝ)
    (T : Set (HdgTest 2 4 V B)) (hG : Gauss M mask T) (s : Scheme) (dt : ℝ) (t : ℚ)
    (x : HdgState 2 4 V B) (hU : ∀ v, x.U v = gasVec S)
    (hx : x.IsEuler γ rs M (fun _ => gasVec S) (fun _ => gasVec S))
    (hR : ∀ b, Matching γ S (M.normal b) (x.R b))
    (σ : V → ℝ) (hσ : ∀ v, spongeResidual γ (σ v) (conservativeDict S) (x.U v)
      = .ok (x.source v)) :
    hdgStep M mask T (s.quotient dt) t x x x :=
  uniform_core hS rs M hn mask T hG s dt t x hU hx (fun b => (hR b).zero hS (hn b)) σ hσ

/-- **C69** Whole runs: the sequence that never leaves the uniform flow satisfies the discrete
equations at every step. -/
theorem C69_run {S : GasState 2} (hS : IdealGas γ S) (rs : Riemann) (M : HdgMesh 2 V B)
    (hn : ∀ b, M.normal b 0 ^ 2 + M.normal b 1 ^ 2 = 1) (mask : B → ℝ)
    (T : Set (HdgTest 2 4 V B)) (hG : Gauss M mask T) (s : Scheme) (dt : ℝ) (ts : List ℚ)
    (x : HdgState 2 4 V B) (hU : ∀ v, x.U v = gasVec S)
    (hx : x.IsEuler γ rs M (fun _ => gasVec S) (fun _ => gasVec S))
    (hR : ∀ b, Matching γ S (M.normal b) (x.R b))
    (σ : V → ℝ) (hσ : ∀ v, spongeResidual γ (σ v) (conservativeDict S) (x.U v)
      = .ok (x.source v)) :
    Satisfies (hdgStep M mask T (s.quotient dt)) x x ts (List.replicate ts.length x) := by
  induction ts with
  | nil => trivial
  | cons t ts ih =>
    exact ⟨C69_uniform hS rs M hn mask T hG s dt t x hU hx hR σ hσ, ih⟩

/-- **C69** A boundary for which the user gave no condition is not free: whatever uniform gas flows
there, the discrete equations are not satisfied (the transmission condition remains in force and
demands that the numerical flux vanishes). `b₀` is a boundary point without condition; `T` contains
the facet functions of this point. -/
theorem C69_missing {S : GasState 2} (hS : IdealGas γ S) (rs : Riemann) (M : HdgMesh 2 V B)
    [DecidableEq B] (hn : ∀ b, M.normal b 0 ^ 2 + M.normal b 1 ^ 2 = 1) (bcs : Conditions)
    (hC : bcs.regions.Nodup) (b₀ : B) (hw : M.wB b₀ ≠ 0) (r : Name) (hr : M.region b₀ = some r)
    (hm : bcs.data.get? r = some [])
    (T : Set (HdgTest 2 4 V B)) (hT : ∀ i, ⟨0, 0, 0, Pi.single b₀ (Pi.single i 1)⟩ ∈ T)
    (s : Scheme) (dt : ℝ) (t : ℚ) (x : HdgState 2 4 V B) (hR : x.R b₀ = 0)
    (hx : x.IsEuler γ rs M (fun _ => gasVec S) (fun _ => gasVec S)) (cur prev : HdgState 2 4 V B) :
    ¬hdgStep M (M.mask bcs) T (s.quotient dt) t x cur prev := by
  intro h
  have hmask : M.mask bcs b₀ = 1 := by
    obtain ⟨h1, h2⟩ := C68_mask M bcs hC b₀
    refine h1.resolve_left fun h0 => ?_
    obtain ⟨r', l, c, e1, e2, hc, -⟩ := h2.1 h0
    rw [hr] at e1
    cases e1
    rw [hm] at e2
    cases e2
    simp at hc
  have hF : x.Fn b₀ = eulerFlux γ (M.normal b₀) S.rho S.rho_u S.rho_E := by
    obtain ⟨Uf, h0, h1⟩ := hx.numerical b₀
    rw [fields_vec hS] at h0
    cases h0
    rw [C28_consistent rs hS (hn b₀)] at h1
    exact (Except.ok.inj h1).symm
  have h0 : ∀ i, x.Fn b₀ i = 0 := by
    intro i
    have h1 := h _ (hT i)
    have e : ∀ g : B → Fin 4 → ℝ, ∑ b, M.wB b * (g b ⬝ᵥ (Pi.single b₀ (Pi.single i 1) : B → Fin 4 → ℝ) b)
        = M.wB b₀ * g b₀ i := by
      intro g
      rw [Finset.sum_eq_single b₀]
      · simp
      · intro b _ hb
        simp [Pi.single_eq_of_ne hb]
      · simp
    have e' := e fun b => -M.mask bcs b • x.Fn b
    simp only [smul_dotProduct, smul_eq_mul, Pi.smul_apply] at e'
    simp [timeForm, convectionForm, diffusionForm, boundaryForm, frobenius, hx.inviscid.1,
      hx.inviscid.2, e, hR] at h1
    simp only [neg_mul, mul_neg, Finset.sum_neg_distrib, hmask, one_mul, neg_inj] at e'
    rw [e'] at h1
    exact (mul_eq_zero.1 h1).resolve_left hw
  have hp : (γ - 1) * (S.rho_E - (S.rho_u ⬝ᵥ S.rho_u) / (2 * S.rho)) = S.p := by
    rw [hS.gas_law, hS.caloric, hS.rho_E, hS.total, hS.kinetic, hS.momentum]
    have := hS.rho_pos
    have hg := hS.gamma
    simp only [smul_dotProduct, dotProduct_smul, smul_eq_mul]
    field_simp
    ring
  have h1 := h0 1
  have h2 := h0 2
  rw [hF, eulerFlux] at h1 h2
  simp only [hp] at h1 h2
  have p0 := hS.p_pos
  have r0 := hS.rho_pos
  have hd := hn b₀
  set d := M.normal b₀
  have k1 : S.rho_u 0 * (S.rho_u ⬝ᵥ d) / S.rho + S.p * d 0 = 0 := h1
  have k2 : S.rho_u 1 * (S.rho_u ⬝ᵥ d) / S.rho + S.p * d 1 = 0 := h2
  have k3 : (S.rho_u ⬝ᵥ d) ^ 2 / S.rho + S.p = 0 := by
    have e : S.rho_u ⬝ᵥ d = S.rho_u 0 * d 0 + S.rho_u 1 * d 1 := by
      simp [dotProduct, Fin.sum_univ_two]
    rw [e] at k1 k2 ⊢
    linear_combination d 0 * k1 + d 1 * k2 - S.p * hd
  have : 0 ≤ (S.rho_u ⬝ᵥ d) ^ 2 / S.rho := by positivity
  linarith

/-- The unit square as one element, with one quadrature point in the middle and one on each
side. -/
def unitSquare : HdgMesh 2 Unit (Fin 4) where
  wV := fun _ => 1
  wB := fun _ => 1
  normal := ![![1, 0], ![-1, 0], ![0, 1], ![0, -1]]
  region := fun _ => some ['w']

/-- C69, concrete instance: affine functions on the unit square, with a condition on all sides. -/
example : Gauss unitSquare (fun _ => 0) {φ | ∃ (a : Fin 4 → ℝ) (g : Matrix (Fin 4) (Fin 2) ℝ),
    φ.grad = (fun _ => g) ∧ φ.val = (fun _ => a + g *ᵥ ![1 / 2, 1 / 2]) ∧ φ.trace = fun b =>
      a + g *ᵥ (![![1, 1 / 2], ![0, 1 / 2], ![1 / 2, 1], ![1 / 2, 0]] : Fin 4 → Fin 2 → ℝ) b} := by
  constructor
  · rintro φ ⟨a, g, h1, -, h2⟩ i j
    rw [h1, h2]
    fin_cases j <;>
      simp [unitSquare, Fin.sum_univ_four, mulVec, dotProduct, Fin.sum_univ_two] <;> ring
  · simp

end Dream
