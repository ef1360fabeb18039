import Verif.Spec.Mirror
import Verif.Props.Rotation
import Verif.Props.Walls
import Verif.Props.Conservation

/-!
# C93: a symmetry plane stands for the mirror image of the domain
-/

set_option linter.unusedSectionVars false

noncomputable section

namespace Dream
open Matrix Spec

variable {γ : ℝ} {V B : Type} [Fintype V] [Fintype B] {d : Fin 2 → ℝ}

/-! ### The reflection -/

theorem mirror_mulVec (d x : Fin 2 → ℝ) : mirror d *ᵥ x = x - (2 * (x ⬝ᵥ d)) • d := by
  funext i
  fin_cases i <;>
    simp [mirror, sub_mulVec, vecMulVec, mulVec, dotProduct, Fin.sum_univ_two] <;> ring

theorem mirror_orthogonal (hd : d 0 ^ 2 + d 1 ^ 2 = 1) : Orthogonal (mirror d) := by
  unfold Orthogonal
  ext i j
  fin_cases i <;> fin_cases j <;>
    simp [mirror, vecMulVec, Matrix.mul_apply, Fin.sum_univ_two]
  · linear_combination (4 * d 0 ^ 2) * hd
  · linear_combination (4 * d 0 * d 1) * hd
  · linear_combination (4 * d 0 * d 1) * hd
  · linear_combination (4 * d 1 ^ 2) * hd

theorem mirror_mirror (hd : d 0 ^ 2 + d 1 ^ 2 = 1) : mirror d * mirror d = 1 := by
  have h := mirror_orthogonal hd
  have e : (mirror d)ᵀ = mirror d := by
    ext i j
    fin_cases i <;> fin_cases j <;> simp [mirror, vecMulVec] <;> ring
  rwa [Orthogonal, e] at h

theorem mirror_normal (hd : d 0 ^ 2 + d 1 ^ 2 = 1) : mirror d *ᵥ d = -d := by
  rw [mirror_mulVec]
  have : d ⬝ᵥ d = 1 := by simp only [dotProduct, Fin.sum_univ_two]; linarith
  rw [this]
  funext i
  simp
  ring

theorem rotM_mirror (hd : d 0 ^ 2 + d 1 ^ 2 = 1) : rotM (mirror d) * rotM (mirror d) = 1 := by
  have h := rotM_orthogonal (mirror_orthogonal hd)
  have e : (mirror d)ᵀ = mirror d := by
    ext i j
    fin_cases i <;> fin_cases j <;> simp [mirror, vecMulVec] <;> ring
  rwa [← rotM_transpose, e] at h

theorem rotVec_mirror (hd : d 0 ^ 2 + d 1 ^ 2 = 1) (w : Fin 4 → ℝ) :
    rotVec (mirror d) (rotVec (mirror d) w) = w := by
  rw [rotVec_eq, rotVec_eq, mulVec_mulVec, rotM_mirror hd, one_mulVec]

theorem rotFlux_mirror (hd : d 0 ^ 2 + d 1 ^ 2 = 1) (F : Matrix (Fin 4) (Fin 2) ℝ) :
    rotFlux (mirror d) (rotFlux (mirror d) F) = F := by
  have e : (mirror d)ᵀ = mirror d := by
    ext i j
    fin_cases i <;> fin_cases j <;> simp [mirror, vecMulVec] <;> ring
  rw [rotFlux_eq, rotFlux_eq, e]
  calc rotM (mirror d) * (rotM (mirror d) * F * mirror d) * mirror d
      = rotM (mirror d) * rotM (mirror d) * F * (mirror d * mirror d) := by
        simp only [Matrix.mul_assoc]
    _ = F := by rw [rotM_mirror hd, mirror_mirror hd, Matrix.one_mul, Matrix.mul_one]

theorem rotTest_mirror (hd : d 0 ^ 2 + d 1 ^ 2 = 1) (φ : HdgTest 2 4 V B) :
    rotTest (mirror d) (rotTest (mirror d) φ) = φ := by
  cases φ
  simp only [rotTest, rotVec_mirror hd, rotFlux_mirror hd]

/-- Moving the reflection to the other factor. -/
theorem rotVec_mirror_dot (hd : d 0 ^ 2 + d 1 ^ 2 = 1) (w w' : Fin 4 → ℝ) :
    w ⬝ᵥ rotVec (mirror d) w' = rotVec (mirror d) w ⬝ᵥ w' := by
  rw [← rotVec_dot (mirror_orthogonal hd) w, rotVec_mirror hd]

theorem rotVec_mirror_apply (d : Fin 2 → ℝ) (w : Fin 4 → ℝ) :
    rotVec (mirror d) w = w - (2 * (w 1 * d 0 + w 2 * d 1)) • ![0, d 0, d 1, 0] := by
  have e : w = consVec (w 0) ![w 1, w 2] (w 3) := by funext i; fin_cases i <;> rfl
  conv_lhs => rw [e]
  rw [rotVec_consVec, mirror_mulVec]
  funext i
  fin_cases i
  · change w 0 = w 0 - 2 * (w 1 * d 0 + w 2 * d 1) * 0
    ring
  · change w 1 - 2 * (![w 1, w 2] ⬝ᵥ d) * d 0 = w 1 - 2 * (w 1 * d 0 + w 2 * d 1) * d 0
    simp [dotProduct, Fin.sum_univ_two]
  · change w 2 - 2 * (![w 1, w 2] ⬝ᵥ d) * d 1 = w 2 - 2 * (w 1 * d 0 + w 2 * d 1) * d 1
    simp [dotProduct, Fin.sum_univ_two]
  · change w 3 = w 3 - 2 * (w 1 * d 0 + w 2 * d 1) * 0
    ring

/-- A vector with a normal component only is reversed by the reflection. -/
theorem rotVec_mirror_normal (hd : d 0 ^ 2 + d 1 ^ 2 = 1) (a : ℝ) :
    rotVec (mirror d) ![0, a * d 0, a * d 1, 0] = -![0, a * d 0, a * d 1, 0] := by
  rw [rotVec_mirror_apply]
  funext i
  fin_cases i <;> simp
  · linear_combination (-2 * a * d 0) * hd
  · linear_combination (-2 * a * d 1) * hd

/-! ### The equations on the doubled domain -/

/-- What the equations of a time step give for the test function `φ`. -/
def stepForm (M : HdgMesh 2 V B) (mask : B → ℝ) (q : ℝ → ℝ → ℝ → ℝ)
    (x cur prev : HdgState 2 4 V B) (φ : HdgTest 2 4 V B) : ℝ :=
  timeForm M (fun v i => q (x.U v i) (cur.U v i) (prev.U v i)) φ
    + convectionForm M mask x.F x.Fn φ + diffusionForm M mask x.G x.Gn φ
    + boundaryForm M x.R φ + timeForm M x.source φ

theorem hdgStep_iff (M : HdgMesh 2 V B) (mask : B → ℝ) (T : Set (HdgTest 2 4 V B))
    (q : ℝ → ℝ → ℝ → ℝ) (t : ℚ) (x cur prev : HdgState 2 4 V B) :
    hdgStep M mask T q t x cur prev ↔ ∀ φ ∈ T, stepForm M mask q x cur prev φ = 0 := Iff.rfl

theorem quotient_rotate (Q : Matrix (Fin 2) (Fin 2) ℝ) (s : Scheme) (dt : ℝ)
    (x cur prev : HdgState 2 4 V B) :
    (fun v i => s.quotient dt (rotVec Q (x.U v) i) (rotVec Q (cur.U v) i) (rotVec Q (prev.U v) i))
      = fun v => rotVec Q fun i => s.quotient dt (x.U v i) (cur.U v i) (prev.U v i) := by
  funext v i
  simp only [rotVec_eq]
  cases s
  · simp only [Scheme.quotient, backwardEuler, mulVec, dotProduct, Fin.sum_univ_four]
    ring
  · simp only [Scheme.quotient, backward2, mulVec, dotProduct, Fin.sum_univ_four]
    ring

/-- The masks of the two meshes differ on the interface only. -/
theorem doubleMask (r : Name) (M : HdgMesh 2 V B) (bcs : Conditions) (d : Fin 2 → ℝ) (b : B) :
    (doubleMesh d r M).mask bcs (.inl b) = (if M.region b = some r then 1 else M.mask bcs b) ∧
    (doubleMesh d r M).mask bcs (.inr b) = (if M.region b = some r then 1 else M.mask bcs b) := by
  constructor <;>
  · by_cases h : M.region b = some r
    · simp [HdgMesh.mask, doubleMesh, h]
    · simp [HdgMesh.mask, doubleMesh, h]

theorem mask_plane {r : Name} {M : HdgMesh 2 V B} {bcs : Conditions}
    (hr : r ∈ bcs.getDomainBoundaries) {b : B} (hb : M.region b = some r) :
    M.mask bcs b = 0 := by
  simp [HdgMesh.mask, hb, hr]

/-- The equations of the doubled domain are those of the domain, tested from both sides, but for
the interface: there the fluxes of both sides take the place of the boundary condition. -/
theorem stepForm_double (hd : d 0 ^ 2 + d 1 ^ 2 = 1) {r : Name} (M : HdgMesh 2 V B)
    {bcs : Conditions} (hr : r ∈ bcs.getDomainBoundaries) (s : Scheme) (dt : ℝ)
    (x cur prev : HdgState 2 4 V B) (ψ : HdgTest 2 4 (V ⊕ V) (B ⊕ B)) :
    stepForm (doubleMesh d r M) ((doubleMesh d r M).mask bcs) (s.quotient dt)
        (doubleState d r M x) (doubleState d r M cur) (doubleState d r M prev) ψ
      = stepForm M (M.mask bcs) (s.quotient dt) x cur prev (leftTest ψ)
        + stepForm M (M.mask bcs) (s.quotient dt) x cur prev (rotTest (mirror d) (rightTest ψ))
        - ∑ b, if M.region b = some r then M.wB b * ((x.Fn b - x.Gn b + x.R b) ⬝ᵥ
          (ψ.hat (.inl b) + rotVec (mirror d) (ψ.hat (.inr b)))) else 0 := by
  have hQ := mirror_orthogonal hd
  have flux : ∀ A C : Matrix (Fin 4) (Fin 2) ℝ,
      frobenius (rotFlux (mirror d) A) C = frobenius A (rotFlux (mirror d) C) := fun A C => by
    rw [← frobenius_rotate hQ A, rotFlux_mirror hd]
  have vec : ∀ w w' : Fin 4 → ℝ,
      rotVec (mirror d) w ⬝ᵥ w' = w ⬝ᵥ rotVec (mirror d) w' := fun w w' =>
    (rotVec_mirror_dot hd w w').symm
  have hq := congrFun (quotient_rotate (mirror d) s dt x cur prev)
  have hq' : ∀ v, (fun i => s.quotient dt ((doubleState d r M x).U (.inr v) i)
      ((doubleState d r M cur).U (.inr v) i) ((doubleState d r M prev).U (.inr v) i))
      = rotVec (mirror d) fun i => s.quotient dt (x.U v i) (cur.U v i) (prev.U v i) := hq
  have hb : (∑ b, if M.region b = some r then M.wB b * ((x.Fn b - x.Gn b + x.R b) ⬝ᵥ
          (ψ.hat (.inl b) + rotVec (mirror d) (ψ.hat (.inr b)))) else 0)
      = (∑ b, if M.region b = some r then M.wB b * (x.Fn b ⬝ᵥ ψ.hat (.inl b)) else 0)
        + (∑ b, if M.region b = some r then
            M.wB b * (x.Fn b ⬝ᵥ rotVec (mirror d) (ψ.hat (.inr b))) else 0)
        - (∑ b, if M.region b = some r then M.wB b * (x.Gn b ⬝ᵥ ψ.hat (.inl b)) else 0)
        - (∑ b, if M.region b = some r then
            M.wB b * (x.Gn b ⬝ᵥ rotVec (mirror d) (ψ.hat (.inr b))) else 0)
        + (∑ b, if M.region b = some r then M.wB b * (x.R b ⬝ᵥ ψ.hat (.inl b)) else 0)
        + (∑ b, if M.region b = some r then
            M.wB b * (x.R b ⬝ᵥ rotVec (mirror d) (ψ.hat (.inr b))) else 0) := by
    simp only [← Finset.sum_add_distrib, ← Finset.sum_sub_distrib]
    refine Finset.sum_congr rfl fun b _ => ?_
    split_ifs
    · simp only [dotProduct_add, add_dotProduct, sub_dotProduct]
      ring
    · ring
  have hF : ∀ (F h : B → Fin 4 → ℝ), (∑ b, M.wB b *
        (-(if M.region b = some r then 1 else M.mask bcs b) * (F b ⬝ᵥ h b)))
      = (∑ b, M.wB b * (-M.mask bcs b * (F b ⬝ᵥ h b)))
        - ∑ b, if M.region b = some r then M.wB b * (F b ⬝ᵥ h b) else 0 := by
    intro F h
    rw [← Finset.sum_sub_distrib]
    refine Finset.sum_congr rfl fun b _ => ?_
    split_ifs with hb
    · rw [mask_plane hr hb]; ring
    · ring
  have hG : ∀ (F h : B → Fin 4 → ℝ), (∑ b, M.wB b *
        ((if M.region b = some r then 1 else M.mask bcs b) * (F b ⬝ᵥ h b)))
      = (∑ b, M.wB b * (M.mask bcs b * (F b ⬝ᵥ h b)))
        + ∑ b, if M.region b = some r then M.wB b * (F b ⬝ᵥ h b) else 0 := by
    intro F h
    rw [← Finset.sum_add_distrib]
    refine Finset.sum_congr rfl fun b _ => ?_
    split_ifs with hb
    · rw [mask_plane hr hb]; ring
    · ring
  have hR : ∀ (F h : B → Fin 4 → ℝ), (∑ b, M.wB b * ((if M.region b = some r then 0 else F b) ⬝ᵥ h b))
      = (∑ b, M.wB b * (F b ⬝ᵥ h b))
        - ∑ b, if M.region b = some r then M.wB b * (F b ⬝ᵥ h b) else 0 := by
    intro F h
    rw [← Finset.sum_sub_distrib]
    refine Finset.sum_congr rfl fun b _ => ?_
    split_ifs with hb <;> simp
  have R1 : ∀ b, (doubleState d r M x).R (.inl b) = if M.region b = some r then 0 else x.R b := by
    intro b
    by_cases h : M.region b = some r <;> simp [doubleState, doubleVec, h]
  have R2 : ∀ b, (doubleState d r M x).R (.inr b)
      = rotVec (mirror d) (if M.region b = some r then 0 else x.R b) := by
    intro b
    have z : (0 : Fin 4 → ℝ) = rotVec (mirror d) 0 := by simp [rotVec_eq]
    by_cases h : M.region b = some r
    · simp only [doubleState, Sum.elim_inr, h, if_true]
      exact z
    · simp [doubleState, doubleVec, h]
  have w1 : ∀ v, (doubleMesh d r M).wV (.inl v) = M.wV v := fun _ => rfl
  have w2 : ∀ v, (doubleMesh d r M).wV (.inr v) = M.wV v := fun _ => rfl
  have w3 : ∀ b, (doubleMesh d r M).wB (.inl b) = M.wB b := fun _ => rfl
  have w4 : ∀ b, (doubleMesh d r M).wB (.inr b) = M.wB b := fun _ => rfl
  rw [hb]
  simp only [stepForm, timeForm, convectionForm, diffusionForm, boundaryForm, Fintype.sum_sum_type,
    hq', R1, R2, vec, hR]
  simp only [doubleMask, doubleState, w1, w2, w3, w4, doubleVec, Sum.elim_inl, Sum.elim_inr, leftTest,
    rightTest, rotTest, flux, vec, hF, hG, hR]
  ring

/-- `r` is a plane boundary with unit normal `d` and a boundary condition. -/
structure PlaneBoundary (d : Fin 2 → ℝ) (r : Name) (M : HdgMesh 2 V B) (bcs : Conditions) :
    Prop where
  unit : d 0 ^ 2 + d 1 ^ 2 = 1
  condition : r ∈ bcs.getDomainBoundaries
  plane : ∀ b, M.region b = some r → M.normal b = d
  weights : ∀ b, M.region b = some r → 0 < M.wB b

/-- On `r` the residual is that of the condition `Symmetry` for the traces `tr` and the facet
values `hat`. The facet test functions include the residual: on a plane boundary it is a
polynomial of the order of the facet unknowns, since the condition is linear in the conservative
variables. -/
structure AtSymmetry (γ : ℝ) (r : Name) (M : HdgMesh 2 V B) (T : Set (HdgTest 2 4 V B))
    (x : HdgState 2 4 V B) (tr hat : B → Fin 4 → ℝ) : Prop where
  residual : ∀ b, M.region b = some r → ∃ S, IdealGas γ S ∧ tr b = gasVec S ∧
    inviscidWallResidual γ (M.normal b) (conservativeDict S) (hat b) = .ok (x.R b)
  tested : facetTest r M x.R ∈ T

theorem stepForm_facet {r : Name} (M : HdgMesh 2 V B) {bcs : Conditions}
    (hr : r ∈ bcs.getDomainBoundaries) (q : ℝ → ℝ → ℝ → ℝ) (x cur prev : HdgState 2 4 V B)
    (h : B → Fin 4 → ℝ) :
    stepForm M (M.mask bcs) q x cur prev (facetTest r M h)
      = ∑ b, if M.region b = some r then M.wB b * (x.R b ⬝ᵥ h b) else 0 := by
  have z : ∀ F : Matrix (Fin 4) (Fin 2) ℝ, frobenius F 0 = 0 := fun F => by simp [frobenius]
  have e1 : ∀ F : B → Fin 4 → ℝ, (∑ b, M.wB b * (M.mask bcs b *
      (F b ⬝ᵥ (if M.region b = some r then h b else 0)))) = 0 := by
    intro F
    refine Finset.sum_eq_zero fun b _ => ?_
    split_ifs with hb
    · rw [mask_plane hr hb]; ring
    · simp
  have e2 : ∀ F : B → Fin 4 → ℝ, (∑ b, M.wB b * (-M.mask bcs b *
      (F b ⬝ᵥ (if M.region b = some r then h b else 0)))) = 0 := by
    intro F
    refine Finset.sum_eq_zero fun b _ => ?_
    split_ifs with hb
    · rw [mask_plane hr hb]; ring
    · simp
  simp only [stepForm, timeForm, convectionForm, diffusionForm, boundaryForm, facetTest, z, e1, e2,
    dotProduct_zero, mul_zero, neg_zero, Finset.sum_const_zero, add_zero, sub_zero, zero_add]
  refine Finset.sum_congr rfl fun b _ => ?_
  split_ifs <;> simp

/-- If the equations hold on the domain, the condition holds at every point of `r`. -/
theorem plane_residual {r : Name} {M : HdgMesh 2 V B} {bcs : Conditions}
    (hP : PlaneBoundary d r M bcs) {q : ℝ → ℝ → ℝ → ℝ} {x cur prev : HdgState 2 4 V B}
    (h : (∑ b, if M.region b = some r then M.wB b * (x.R b ⬝ᵥ x.R b) else 0) = 0) {b : B}
    (hb : M.region b = some r) : x.R b = 0 := by
  have h0 : ∀ w : Fin 4 → ℝ, 0 ≤ w ⬝ᵥ w := fun w =>
    Finset.sum_nonneg fun i _ => mul_self_nonneg _
  have h1 := (Finset.sum_eq_zero_iff_of_nonneg (fun b _ => by
    split_ifs with hb
    · exact mul_nonneg (hP.weights b hb).le (h0 _)
    · exact le_rfl)).1 h b (Finset.mem_univ b)
  rw [if_pos hb] at h1
  have h2 := (mul_eq_zero.1 h1).resolve_left (hP.weights b hb).ne'
  exact dotProduct_self_eq_zero.1 h2

/-- The numerical flux at a symmetry plane has a normal momentum component only. -/
theorem plane_flux {rs : Riemann} (hrs : rs ≠ .upwind) {r : Name} {M : HdgMesh 2 V B}
    {bcs : Conditions} (hP : PlaneBoundary d r M bcs) {T : Set (HdgTest 2 4 V B)}
    {x : HdgState 2 4 V B} {tr hat : B → Fin 4 → ℝ} (hx : x.IsEuler γ rs M tr hat)
    (hs : AtSymmetry γ r M T x tr hat) {b : B} (hb : M.region b = some r) (hR : x.R b = 0) :
    ∃ a : ℝ, x.Fn b = ![0, a * d 0, a * d 1, 0] := by
  obtain ⟨S, hS, h1, h2⟩ := hs.residual b hb
  rw [hR, hP.plane b hb] at h2
  obtain ⟨UHat, h3, h4⟩ := hx.numerical b
  rw [h1, hP.plane b hb] at h4
  obtain ⟨UHat', f, h5, h6, W, -, -, -, -, e⟩ := C67_wall_partial rs hrs hS hP.unit h2
  rw [h3] at h5
  cases h5
  have h7 : (Except.ok (x.Fn b) : Except PyErr (Fin 4 → ℝ)) = .ok f := h4.symm.trans h6
  cases h7
  exact ⟨_, e⟩

/-- **C93** Inviscid flow, any Riemann solver but Upwind, either scheme: if the equations of a time
step hold on a domain with the condition `Symmetry` on a plane boundary, the state together with
its mirror image satisfies the equations on the doubled domain, where that boundary is an interior
interface. -/
theorem C93_step_partial {rs : Riemann} (hrs : rs ≠ .upwind) {r : Name} {M : HdgMesh 2 V B}
    {bcs : Conditions} (hP : PlaneBoundary d r M bcs) (T : Set (HdgTest 2 4 V B)) (s : Scheme)
    (dt : ℝ) (t : ℚ) {x cur prev : HdgState 2 4 V B} {tr hat : B → Fin 4 → ℝ}
    (hx : x.IsEuler γ rs M tr hat) (hs : AtSymmetry γ r M T x tr hat)
    (h : hdgStep M (M.mask bcs) T (s.quotient dt) t x cur prev) :
    hdgStep (doubleMesh d r M) ((doubleMesh d r M).mask bcs) (doubleTests d r M T)
      (s.quotient dt) t (doubleState d r M x) (doubleState d r M cur) (doubleState d r M prev) := by
  rw [hdgStep_iff] at h ⊢
  have hR : ∀ b, M.region b = some r → x.R b = 0 := by
    have := h _ hs.tested
    rw [stepForm_facet M hP.condition] at this
    exact fun b hb => plane_residual (q := s.quotient dt) (cur := cur) (prev := prev) hP this hb
  rintro ψ ⟨h1, h2, h3⟩
  rw [stepForm_double hP.unit M hP.condition, h _ h1, h _ h2, add_zero, zero_sub, neg_eq_zero]
  refine Finset.sum_eq_zero fun b _ => ?_
  split_ifs with hb
  · obtain ⟨a, ha⟩ := plane_flux hrs hP hx hs hb (hR b hb)
    have e : x.Fn b - x.Gn b + x.R b = ![0, a * d 0, a * d 1, 0] := by
      rw [hR b hb, hx.inviscid.2, ha]
      simp
    rw [e, ← h3 b hb, dotProduct_add]
    rw [rotVec_mirror_dot hP.unit, rotVec_mirror_normal hP.unit, neg_dotProduct]
    ring
  · rfl

/-- **C93** The fluxes of the state and its mirror image are those of the equations on the doubled
domain; the traces and facet values of the mirror image are reflected. -/
theorem C93_fluxes (rs : Riemann) {r : Name} {M : HdgMesh 2 V B}
    (hd : d 0 ^ 2 + d 1 ^ 2 = 1) (hn : ∀ b, M.normal b 0 ^ 2 + M.normal b 1 ^ 2 = 1)
    {x : HdgState 2 4 V B} {tr hat : B → Fin 4 → ℝ}
    {S : V → GasState 2} {SHat : B → GasState 2}
    (hS : ∀ v, IdealGas γ (S v)) (hSHat : ∀ b, IdealGas γ (SHat b))
    (hU : ∀ v, x.U v = gasVec (S v)) (hHat : ∀ b, hat b = gasVec (SHat b))
    (h : x.IsEuler γ rs M tr hat) :
    (doubleState d r M x).IsEuler γ rs (doubleMesh d r M) (doubleVec d tr) (doubleVec d hat) := by
  have h' := C76_euler (mirror_orthogonal hd) rs hn hS hSHat hU hHat h
  refine ⟨?_, ?_, ?_⟩
  · rintro (v | v)
    · exact h.flux v
    · exact h'.flux v
  · rintro (b | b)
    · exact h.numerical b
    · exact h'.numerical b
  · refine ⟨funext ?_, funext ?_⟩
    · rintro (v | v)
      · exact congrFun h.inviscid.1 v
      · exact congrFun h'.inviscid.1 v
    · rintro (v | v)
      · exact congrFun h.inviscid.2 v
      · exact congrFun h'.inviscid.2 v

/-- **C93** A whole run: the mirrored states satisfy all equations of the run on the doubled
domain. -/
theorem C93_run_partial {rs : Riemann} (hrs : rs ≠ .upwind) {r : Name} {M : HdgMesh 2 V B}
    {bcs : Conditions} (hP : PlaneBoundary d r M bcs) (T : Set (HdgTest 2 4 V B)) (s : Scheme)
    (dt : ℝ) (ts : List ℚ) (xs : List (HdgState 2 4 V B)) (prev cur : HdgState 2 4 V B)
    (hx : ∀ x ∈ xs, ∃ tr hat, x.IsEuler γ rs M tr hat ∧ AtSymmetry γ r M T x tr hat)
    (h : Satisfies (hdgStep M (M.mask bcs) T (s.quotient dt)) prev cur ts xs) :
    Satisfies (hdgStep (doubleMesh d r M) ((doubleMesh d r M).mask bcs) (doubleTests d r M T)
      (s.quotient dt)) (doubleState d r M prev) (doubleState d r M cur) ts
      (xs.map (doubleState d r M)) := by
  induction ts generalizing xs prev cur with
  | nil => cases xs with
    | nil => trivial
    | cons x xs => exact h.elim
  | cons t ts ih => cases xs with
    | nil => exact h.elim
    | cons x xs =>
      obtain ⟨tr, hat, h1, h2⟩ := hx x (by simp)
      exact ⟨C93_step_partial hrs hP T s dt t h1 h2 h.1,
        ih xs cur x (fun y hy => hx y (by simp [hy])) h.2⟩

/-- A test function on the domain and one on the mirror image. -/
def joinTest (d : Fin 2 → ℝ) (φ φ' : HdgTest 2 4 V B) : HdgTest 2 4 (V ⊕ V) (B ⊕ B) where
  grad := Sum.elim φ.grad (rotTest (mirror d) φ').grad
  val := Sum.elim φ.val (rotTest (mirror d) φ').val
  trace := Sum.elim φ.trace (rotTest (mirror d) φ').trace
  hat := Sum.elim φ.hat (rotTest (mirror d) φ').hat

theorem leftTest_join (φ φ' : HdgTest 2 4 V B) : leftTest (joinTest d φ φ') = φ := rfl

theorem rightTest_join (hd : d 0 ^ 2 + d 1 ^ 2 = 1) (φ φ' : HdgTest 2 4 V B) :
    rotTest (mirror d) (rightTest (joinTest d φ φ')) = φ' :=
  rotTest_mirror hd φ'

/-- The stabilisation of the Lax-Friedrichs and HLL solvers is a positive number at states without
normal velocity. -/
theorem plane_stabilisation {rs : Riemann} (hrs : rs = .laxFriedrich ∨ rs = .hll)
    {S : GasState 2} (hS : IdealGas γ S) (hu : S.u ⬝ᵥ d = 0) :
    rs.tau γ (conservativeDict S) d = .ok (S.c • 1) := by
  rcases hrs with rfl | rfl
  · have := tauLF_eq (γ := γ) (d := d) (U := conservativeDict S) rfl rfl
    rw [Riemann.tau, this, hu]
    simp
  · have := tauHLL_eq (γ := γ) (d := d) (U := conservativeDict S) rfl rfl
    rw [Riemann.tau, this, hu, zero_add, max_eq_left hS.sound_pos.le]

theorem eulerFlux_plane {S : GasState 2} (hS : IdealGas γ S) (hu : S.u ⬝ᵥ d = 0) :
    eulerFlux γ d S.rho S.rho_u S.rho_E = ![0, S.p * d 0, S.p * d 1, 0] := by
  have hm : S.rho_u ⬝ᵥ d = 0 := by rw [hS.momentum, smul_dotProduct, hu, smul_zero]
  have hp : (γ - 1) * (S.rho_E - (S.rho_u ⬝ᵥ S.rho_u) / (2 * S.rho)) = S.p := by
    rw [hS.gas_law, hS.caloric, hS.rho_E, hS.total, hS.kinetic, hS.momentum]
    have := hS.rho_pos
    have hg := hS.gamma
    simp only [smul_dotProduct, dotProduct_smul, smul_eq_mul]
    field_simp
    ring
  unfold eulerFlux
  simp only [hp, hm]
  funext i
  fin_cases i
  · rfl
  · show S.rho_u 0 * 0 / S.rho + S.p * d 0 = _
    simp
  · show S.rho_u 1 * 0 / S.rho + S.p * d 1 = _
    simp
  · show (S.rho_E + S.p) * 0 / S.rho = _
    simp

/-- The facet state is the same from both sides, so it has no normal velocity. -/
theorem plane_velocity (hd : d 0 ^ 2 + d 1 ^ 2 = 1) {S : GasState 2} (hS : IdealGas γ S)
    (h : gasVec S = rotVec (mirror d) (gasVec S)) : S.u ⬝ᵥ d = 0 := by
  rw [rotVec_mirror_apply] at h
  have h1 := congrFun h 1
  have h2 := congrFun h 2
  have e1 : gasVec S 1 = S.rho_u 0 := rfl
  have e2 : gasVec S 2 = S.rho_u 1 := rfl
  simp only [e1, e2, Pi.sub_apply, Pi.smul_apply, smul_eq_mul] at h1 h2
  have h1' : S.rho_u 0 = S.rho_u 0 - 2 * (S.rho_u 0 * d 0 + S.rho_u 1 * d 1) * d 0 := h1
  have h2' : S.rho_u 1 = S.rho_u 1 - 2 * (S.rho_u 0 * d 0 + S.rho_u 1 * d 1) * d 1 := h2
  have h3 : S.rho_u 0 * d 0 + S.rho_u 1 * d 1 = 0 := by
    linear_combination (d 0 / 2) * h1' + (d 1 / 2) * h2'
      - (S.rho_u 0 * d 0 + S.rho_u 1 * d 1) * hd
  have := hS.rho_pos
  rw [hS.momentum] at h3
  simp only [Pi.smul_apply, smul_eq_mul] at h3
  have h4 : S.rho * (S.u 0 * d 0 + S.u 1 * d 1) = 0 := by linear_combination h3
  simpa [dotProduct, Fin.sum_univ_two] using (mul_eq_zero.1 h4).resolve_left this.ne'

/-- **C93** The converse for the Lax-Friedrichs and HLL solvers: if the state together with its
mirror image satisfies the equations on the doubled domain, with one facet value on the interface,
the state satisfies the equations on the domain with the condition `Symmetry`. The space of facet
functions on `r` is invariant under reflection. -/
theorem C93_restrict_partial {rs : Riemann} (hrs : rs = .laxFriedrich ∨ rs = .hll) {r : Name}
    {M : HdgMesh 2 V B} {bcs : Conditions} (hP : PlaneBoundary d r M bcs)
    (T : Set (HdgTest 2 4 V B))
    (hT : ∀ φ ∈ T, facetTest r M (fun b => rotVec (mirror d) (φ.hat b)) ∈ T)
    (s : Scheme) (dt : ℝ) (t : ℚ) {x cur prev : HdgState 2 4 V B} {tr hat : B → Fin 4 → ℝ}
    (hx : x.IsEuler γ rs M tr hat) (hs : AtSymmetry γ r M T x tr hat)
    (hHat : ∀ b, M.region b = some r → ∃ S, IdealGas γ S ∧ hat b = gasVec S)
    (hone : ∀ b, M.region b = some r → doubleVec d hat (.inl b) = doubleVec d hat (.inr b))
    (h : hdgStep (doubleMesh d r M) ((doubleMesh d r M).mask bcs) (doubleTests d r M T)
      (s.quotient dt) t (doubleState d r M x) (doubleState d r M cur) (doubleState d r M prev)) :
    hdgStep M (M.mask bcs) T (s.quotient dt) t x cur prev := by
  rw [hdgStep_iff] at h ⊢
  have hd := hP.unit
  -- the residual is even, and the flux against it is minus the sound speed times its square
  have key : ∀ b, M.region b = some r → rotVec (mirror d) (x.R b) = x.R b ∧
      ∃ a > 0, x.Fn b ⬝ᵥ x.R b = -(a * (x.R b ⬝ᵥ x.R b)) := by
    intro b hb
    obtain ⟨S, hS, h1, h2⟩ := hs.residual b hb
    obtain ⟨W, hW, h3⟩ := hHat b hb
    have h4 : gasVec W = rotVec (mirror d) (gasVec W) := by
      rw [← h3]
      exact hone b hb
    have hu := plane_velocity hd hW h4
    rw [hP.plane b hb] at h2
    obtain ⟨e1, e2, e3⟩ := dictState γ S
    simp only [inviscidWallResidual, e1, e2, e3, bind, Except.bind, Except.ok.injEq] at h2
    have e4 : consVec S.rho (S.rho_u - (S.rho_u ⬝ᵥ d) • d) S.rho_E
        = gasVec S - ![0, (S.rho_u ⬝ᵥ d) * d 0, (S.rho_u ⬝ᵥ d) * d 1, 0] := by
      funext i
      fin_cases i
      · show S.rho = S.rho - 0
        ring
      · show S.rho_u 0 - (S.rho_u ⬝ᵥ d) * d 0 = S.rho_u 0 - (S.rho_u ⬝ᵥ d) * d 0
        ring
      · show S.rho_u 1 - (S.rho_u ⬝ᵥ d) * d 1 = S.rho_u 1 - (S.rho_u ⬝ᵥ d) * d 1
        ring
      · show S.rho_E = S.rho_E - 0
        ring
    have e5 : rotVec (mirror d) (consVec S.rho (S.rho_u - (S.rho_u ⬝ᵥ d) • d) S.rho_E)
        = consVec S.rho (S.rho_u - (S.rho_u ⬝ᵥ d) • d) S.rho_E := by
      rw [rotVec_consVec, mirror_mulVec]
      have : (S.rho_u - (S.rho_u ⬝ᵥ d) • d) ⬝ᵥ d = 0 := by
        have hdd : d ⬝ᵥ d = 1 := by simp only [dotProduct, Fin.sum_univ_two]; linarith
        rw [sub_dotProduct, smul_dotProduct, hdd]
        simp
      rw [this]
      simp
    have heven : rotVec (mirror d) (x.R b) = x.R b := by
      rw [← h2, rotVec_sub, e5, h3, ← h4]
    refine ⟨heven, W.c, hW.sound_pos, ?_⟩
    obtain ⟨UHat, h5, h6⟩ := hx.numerical b
    rw [h3, fields_vec hW] at h5
    cases h5
    obtain ⟨τ, h7, h8⟩ := C28_flux rs hW hd (tr b) (hat b)
    rw [plane_stabilisation hrs hW hu] at h7
    cases h7
    rw [hP.plane b hb, h8, eulerFlux_plane hW hu] at h6
    have h9 := Except.ok.inj h6
    have odd : ∀ a : ℝ, ![0, a * d 0, a * d 1, 0] ⬝ᵥ x.R b = 0 := by
      intro a
      have := rotVec_mirror_dot hd ![0, a * d 0, a * d 1, 0] (x.R b)
      rw [heven, rotVec_mirror_normal hd, neg_dotProduct] at this
      linarith
    have e6 : tr b - hat b = ![0, (S.rho_u ⬝ᵥ d) * d 0, (S.rho_u ⬝ᵥ d) * d 1, 0] - x.R b := by
      rw [← h2, h1, e4]
      abel
    rw [← h9, add_dotProduct, odd, smul_mulVec, one_mulVec, smul_dotProduct, e6, sub_dotProduct,
      odd]
    simp
  have hR : ∀ b, M.region b = some r → x.R b = 0 := by
    have hm : joinTest d (facetTest r M x.R) (facetTest r M x.R) ∈ doubleTests d r M T := by
      refine ⟨hs.tested, ?_, fun b hb => ?_⟩
      · rw [rightTest_join hd]
        exact hs.tested
      · show (facetTest r M x.R).hat b = rotVec (mirror d) ((facetTest r M x.R).hat b)
        simp only [facetTest, hb, if_true]
        exact (key b hb).1.symm
    have := h _ hm
    rw [stepForm_double hd M hP.condition, leftTest_join, rightTest_join hd,
      stepForm_facet M hP.condition, ← Finset.sum_add_distrib, ← Finset.sum_sub_distrib] at this
    choose! a ha using fun b hb => (key b hb).2
    have e : (∑ b, if M.region b = some r then 2 * M.wB b * a b * (x.R b ⬝ᵥ x.R b) else 0) = 0 := by
      refine Eq.trans ?_ this
      refine Finset.sum_congr rfl fun b _ => ?_
      split_ifs with hb
      · have e1 : (joinTest d (facetTest r M x.R) (facetTest r M x.R)).hat (.inl b) = x.R b := by
          show (facetTest r M x.R).hat b = _
          simp only [facetTest, hb, if_true]
        have e2 : rotVec (mirror d)
            ((joinTest d (facetTest r M x.R) (facetTest r M x.R)).hat (.inr b)) = x.R b := by
          show rotVec (mirror d) (rotVec (mirror d) ((facetTest r M x.R).hat b)) = _
          rw [rotVec_mirror hd]
          simp only [facetTest, hb, if_true]
        rw [e1, e2, hx.inviscid.2]
        simp only [Pi.zero_apply, sub_zero, dotProduct_add, add_dotProduct, (ha b hb).2]
        ring
      · ring
    intro b hb
    have h0 : ∀ w : Fin 4 → ℝ, 0 ≤ w ⬝ᵥ w := fun w =>
      Finset.sum_nonneg fun i _ => mul_self_nonneg _
    have h1 := (Finset.sum_eq_zero_iff_of_nonneg (fun b _ => by
      split_ifs with hb
      · have := hP.weights b hb
        have := (ha b hb).1
        exact mul_nonneg (by positivity) (h0 _)
      · exact le_rfl)).1 e b (Finset.mem_univ b)
    rw [if_pos hb] at h1
    have w0 := hP.weights b hb
    have a0 := (ha b hb).1
    exact dotProduct_self_eq_zero.1 ((mul_eq_zero.1 h1).resolve_left (by positivity))
  intro φ hφ
  have hm : joinTest d φ (facetTest r M (fun b => rotVec (mirror d) (φ.hat b)))
      ∈ doubleTests d r M T := by
    refine ⟨hφ, ?_, fun b hb => ?_⟩
    · rw [rightTest_join hd]
      exact hT φ hφ
    · show φ.hat b = rotVec (mirror d) ((facetTest r M fun b => rotVec (mirror d) (φ.hat b)).hat b)
      simp only [facetTest, hb, if_true]
      exact (rotVec_mirror hd _).symm
  have h1 := h _ hm
  rw [stepForm_double hd M hP.condition, leftTest_join, rightTest_join hd,
    stepForm_facet M hP.condition] at h1
  have z1 : (∑ b, if M.region b = some r then
      M.wB b * (x.R b ⬝ᵥ rotVec (mirror d) (φ.hat b)) else 0) = 0 := by
    refine Finset.sum_eq_zero fun b _ => ?_
    split_ifs with hb
    · simp [hR b hb]
    · rfl
  have hrs' : rs ≠ .upwind := by rcases hrs with rfl | rfl <;> simp
  have z2 : (∑ b, if M.region b = some r then M.wB b * ((x.Fn b - x.Gn b + x.R b) ⬝ᵥ
      ((joinTest d φ (facetTest r M fun b => rotVec (mirror d) (φ.hat b))).hat (.inl b)
        + rotVec (mirror d)
          ((joinTest d φ (facetTest r M fun b => rotVec (mirror d) (φ.hat b))).hat (.inr b))))
      else 0) = 0 := by
    refine Finset.sum_eq_zero fun b _ => ?_
    split_ifs with hb
    · obtain ⟨a, ha⟩ := plane_flux hrs' hP hx hs hb (hR b hb)
      have e : x.Fn b - x.Gn b + x.R b = ![0, a * d 0, a * d 1, 0] := by
        rw [hR b hb, hx.inviscid.2, ha]
        simp
      rw [e, ← hm.2.2 b hb, dotProduct_add, rotVec_mirror_dot hd, rotVec_mirror_normal hd,
        neg_dotProduct]
      ring
    · rfl
  rw [z1, z2] at h1
  linarith

/-- **C93 fails for the Upwind solver**: if the gas moves towards the symmetry plane on average,
the mirrored state does not satisfy the equations on the doubled domain. -/
theorem C93_fails_upwind {r : Name} {M : HdgMesh 2 V B} {bcs : Conditions}
    (hP : PlaneBoundary d r M bcs) (T : Set (HdgTest 2 4 V B))
    (hT : facetTest r M (fun _ => ![1, 0, 0, 0]) ∈ T)
    (s : Scheme) (dt : ℝ) (t : ℚ) {x cur prev : HdgState 2 4 V B} {tr hat : B → Fin 4 → ℝ}
    (hx : x.IsEuler γ .upwind M tr hat) (hs : AtSymmetry γ r M T x tr hat)
    (h : hdgStep M (M.mask bcs) T (s.quotient dt) t x cur prev)
    (hne : (∑ b, if M.region b = some r then
      M.wB b * (tr b 1 * d 0 + tr b 2 * d 1) else 0) ≠ 0) :
    ¬ hdgStep (doubleMesh d r M) ((doubleMesh d r M).mask bcs) (doubleTests d r M T)
      (s.quotient dt) t (doubleState d r M x) (doubleState d r M cur) (doubleState d r M prev) := by
  intro h'
  rw [hdgStep_iff] at h h'
  have hd := hP.unit
  have hR : ∀ b, M.region b = some r → x.R b = 0 := by
    have := h _ hs.tested
    rw [stepForm_facet M hP.condition] at this
    exact fun b hb => plane_residual (q := s.quotient dt) (cur := cur) (prev := prev) hP this hb
  have even : rotVec (mirror d) ![1, 0, 0, 0] = ![1, 0, 0, 0] := by
    rw [rotVec_mirror_apply]
    funext i
    fin_cases i <;> simp
  have hm : joinTest d (facetTest r M fun _ => ![1, 0, 0, 0]) (facetTest r M fun _ => ![1, 0, 0, 0])
      ∈ doubleTests d r M T := by
    refine ⟨hT, ?_, fun b hb => ?_⟩
    · rw [rightTest_join hd]
      exact hT
    · show (facetTest r M fun _ => ![1, 0, 0, 0]).hat b
        = rotVec (mirror d) ((facetTest r M fun _ => ![1, 0, 0, 0]).hat b)
      simp only [facetTest, hb, if_true]
      exact even.symm
  have h1 := h' _ hm
  rw [stepForm_double hd M hP.condition, leftTest_join, rightTest_join hd, h _ hT, add_zero,
    zero_sub, neg_eq_zero] at h1
  refine hne (Eq.trans ?_ h1)
  refine Finset.sum_congr rfl fun b _ => ?_
  split_ifs with hb
  · obtain ⟨S, hS, h2, h3⟩ := hs.residual b hb
    rw [hR b hb, hP.plane b hb] at h3
    obtain ⟨UHat, h4, h5⟩ := hx.numerical b
    rw [h2, hP.plane b hb] at h5
    obtain ⟨UHat', f, h6, h7, e⟩ := C67_fails_upwind hS hd h3
    rw [h4] at h6
    cases h6
    have h8 : (Except.ok (x.Fn b) : Except PyErr (Fin 4 → ℝ)) = .ok f := h5.symm.trans h7
    cases h8
    have e1 : (joinTest d (facetTest r M fun _ => ![1, 0, 0, 0])
        (facetTest r M fun _ => ![1, 0, 0, 0])).hat (.inl b) = ![1, 0, 0, 0] := by
      show (facetTest r M fun _ => ![1, 0, 0, 0]).hat b = _
      simp only [facetTest, hb, if_true]
    rw [← hm.2.2 b hb, e1, hR b hb, hx.inviscid.2, even, h2]
    have e2 : gasVec S 1 = S.rho_u 0 := rfl
    have e3 : gasVec S 2 = S.rho_u 1 := rfl
    rw [e2, e3]
    simp only [Pi.zero_apply, sub_zero, add_zero]
    have e4 : x.Fn b ⬝ᵥ (![1, 0, 0, 0] + ![1, 0, 0, 0]) = 2 * x.Fn b 0 := by
      simp [dotProduct, Fin.sum_univ_four]
      ring
    rw [e4, e]
    simp only [dotProduct, Fin.sum_univ_two]
    ring
  · rfl

/-- The tangential part of the viscous numerical flux at a symmetry plane is the shear stress of
the mixed variables. -/
theorem C93_traction {cfg : FlowCfg} (ha : cfg.Accepted) (hv : cfg.visc ≠ .inviscid)
    (hM : 0 < cfg.Ma) (hd : d 0 ^ 2 + d 1 ^ 2 = 1) {S : GasState 2} (hS : IdealGas cfg.γ S)
    {wHat : Fin 4 → ℝ}
    (hw : inviscidWallResidual cfg.γ d (conservativeDict S) wHat = .ok 0) (Q : Fin 5 → ℝ) :
    ∃ UHat f μ Re, getConservativeFields cfg.γ (wHat 0) ![wHat 1, wHat 2] (wHat 3) = .ok UHat ∧
      diffusiveNumericalFlux cfg (gasVec S) wHat UHat (strainHeatFields Q) d = .ok f ∧
      0 < μ ∧ 0 < Re ∧ viscosity cfg UHat = .ok μ ∧ cfg.referenceReynolds = .ok Re ∧
      f 1 * -d 1 + f 2 * d 0
        = 2 * (μ / Re) * ((Q 0 * d 0 + Q 1 * d 1) * -d 1 + (Q 1 * d 0 + Q 2 * d 1) * d 0) := by
  obtain ⟨h1, -⟩ := wall_flux .roe hS hd hw
  have hW := wallState_ideal hS d
  obtain ⟨F, μ, r, h2, h3, h4, h5⟩ := C55_strain_heat_partial ha hv hM hW Q d
  obtain ⟨μ', hμ', μ0⟩ := visc_pos ha hv (U := conservativeDict (wallState cfg.γ S d)) rfl hW.T_pos
  obtain ⟨r', hr', r0⟩ := ref_pos ha hv hM
  rw [h3] at hμ'
  cases hμ'
  rw [h4] at hr'
  cases hr'
  refine ⟨_, F *ᵥ d - ((μ / r) • Bla.diagonalM (lamVec 2 0 1 (1 / cfg.Pr))) *ᵥ (gasVec S - wHat), μ,
    r, h1, ?_, μ0, r0, h3, h4, ?_⟩
  · simp [diffusiveNumericalFlux, diffusiveStabilisation, h2, h3, h4, prandtl_eq hv, bind,
      Except.bind]
  · obtain ⟨e1, e2, e3⟩ := dictState cfg.γ S
    simp only [inviscidWallResidual, e1, e2, e3, bind, Except.bind, Except.ok.injEq] at hw
    have hw' := sub_eq_zero.1 hw
    have j1 : gasVec S 1 - wHat 1 = (S.rho_u ⬝ᵥ d) * d 0 := by
      rw [hw']
      show S.rho_u 0 - (S.rho_u - (S.rho_u ⬝ᵥ d) • d) 0 = _
      simp
    have j2 : gasVec S 2 - wHat 2 = (S.rho_u ⬝ᵥ d) * d 1 := by
      rw [hw']
      show S.rho_u 1 - (S.rho_u - (S.rho_u ⬝ᵥ d) • d) 1 = _
      simp
    have k1 : (((μ / r) • Bla.diagonalM (lamVec 2 0 1 (1 / cfg.Pr))) *ᵥ (gasVec S - wHat)) 1
        = μ / r * ((S.rho_u ⬝ᵥ d) * d 0) := by
      rw [← j1]
      simp [Bla.diagonalM_eq, lamVec_two, smul_mulVec, mulVec_diagonal]
    have k2 : (((μ / r) • Bla.diagonalM (lamVec 2 0 1 (1 / cfg.Pr))) *ᵥ (gasVec S - wHat)) 2
        = μ / r * ((S.rho_u ⬝ᵥ d) * d 1) := by
      rw [← j2]
      simp [Bla.diagonalM_eq, lamVec_two, smul_mulVec, mulVec_diagonal]
    rw [h5, Pi.sub_apply, Pi.sub_apply, k1, k2]
    have v1 : viscousFlux ((2 * (μ / r)) • !![Q 0, Q 1; Q 1, Q 2]) (μ / (r * cfg.Pr))
        ![Q 3, Q 4] (wallState cfg.γ S d).u d 1 = 2 * (μ / r) * (Q 0 * d 0 + Q 1 * d 1) := by
      show (∑ j, ((2 * (μ / r)) • !![Q 0, Q 1; Q 1, Q 2]) 0 j * d j) = _
      simp [Fin.sum_univ_two]
      ring
    have v2 : viscousFlux ((2 * (μ / r)) • !![Q 0, Q 1; Q 1, Q 2]) (μ / (r * cfg.Pr))
        ![Q 3, Q 4] (wallState cfg.γ S d).u d 2 = 2 * (μ / r) * (Q 1 * d 0 + Q 2 * d 1) := by
      show (∑ j, ((2 * (μ / r)) • !![Q 0, Q 1; Q 1, Q 2]) 1 j * d j) = _
      simp [Fin.sum_univ_two]
      ring
    rw [v1, v2]
    ring

/-- **C93 fails for viscous flow**: the condition `Symmetry` prescribes the facet values but not
the viscous stress. If the shear stress on the plane does not vanish on average, the mirrored
state does not satisfy the equations on the doubled domain. -/
theorem C93_fails_viscous {cfg : FlowCfg} {rs : Riemann} (hrs : rs ≠ .upwind) {r : Name}
    {M : HdgMesh 2 V B} {bcs : Conditions} (hP : PlaneBoundary d r M bcs)
    (T : Set (HdgTest 2 4 V B)) (hT : facetTest r M (fun _ => ![0, -d 1, d 0, 0]) ∈ T)
    (s : Scheme) (dt : ℝ) (t : ℚ) {x cur prev : HdgState 2 4 V B} {tr hat : B → Fin 4 → ℝ}
    {Q : V → Fin 5 → ℝ} {Qtr : B → Fin 5 → ℝ}
    (hx : x.IsNavierStokes cfg rs M tr hat Q Qtr) (hs : AtSymmetry cfg.γ r M T x tr hat)
    (h : hdgStep M (M.mask bcs) T (s.quotient dt) t x cur prev)
    (hne : (∑ b, if M.region b = some r then
      M.wB b * (x.Gn b 1 * -d 1 + x.Gn b 2 * d 0) else 0) ≠ 0) :
    ¬ hdgStep (doubleMesh d r M) ((doubleMesh d r M).mask bcs) (doubleTests d r M T)
      (s.quotient dt) t (doubleState d r M x) (doubleState d r M cur) (doubleState d r M prev) := by
  intro h'
  rw [hdgStep_iff] at h h'
  have hd := hP.unit
  have hR : ∀ b, M.region b = some r → x.R b = 0 := by
    have := h _ hs.tested
    rw [stepForm_facet M hP.condition] at this
    exact fun b hb => plane_residual (q := s.quotient dt) (cur := cur) (prev := prev) hP this hb
  have even : rotVec (mirror d) ![0, -d 1, d 0, 0] = ![0, -d 1, d 0, 0] := by
    rw [rotVec_mirror_apply]
    funext i
    fin_cases i <;> simp
    all_goals left; ring
  have hm : joinTest d (facetTest r M fun _ => ![0, -d 1, d 0, 0])
      (facetTest r M fun _ => ![0, -d 1, d 0, 0]) ∈ doubleTests d r M T := by
    refine ⟨hT, ?_, fun b hb => ?_⟩
    · rw [rightTest_join hd]
      exact hT
    · show (facetTest r M fun _ => ![0, -d 1, d 0, 0]).hat b
        = rotVec (mirror d) ((facetTest r M fun _ => ![0, -d 1, d 0, 0]).hat b)
      simp only [facetTest, hb, if_true]
      exact even.symm
  have h1 := h' _ hm
  rw [stepForm_double hd M hP.condition, leftTest_join, rightTest_join hd, h _ hT, add_zero,
    zero_sub, neg_eq_zero] at h1
  refine hne ?_
  have h2 : (∑ b, if M.region b = some r then
      M.wB b * (x.Gn b 1 * -d 1 + x.Gn b 2 * d 0) else 0) * -2 = 0 := by
    refine Eq.trans ?_ h1
    rw [Finset.sum_mul]
    refine Finset.sum_congr rfl fun b _ => ?_
    split_ifs with hb
    · obtain ⟨S, hS, h2, h3⟩ := hs.residual b hb
      rw [hR b hb, hP.plane b hb] at h3
      obtain ⟨UHat, h4, h5, -⟩ := hx.numerical b
      rw [h2, hP.plane b hb] at h5
      obtain ⟨UHat', f, h6, h7, W, -, -, -, -, e⟩ := C67_wall_partial rs hrs hS hd h3
      rw [h4] at h6
      cases h6
      have h8 : (Except.ok (x.Fn b) : Except PyErr (Fin 4 → ℝ)) = .ok f := h5.symm.trans h7
      cases h8
      have e1 : (joinTest d (facetTest r M fun _ => ![0, -d 1, d 0, 0])
          (facetTest r M fun _ => ![0, -d 1, d 0, 0])).hat (.inl b) = ![0, -d 1, d 0, 0] := by
        show (facetTest r M fun _ => ![0, -d 1, d 0, 0]).hat b = _
        simp only [facetTest, hb, if_true]
      rw [← hm.2.2 b hb, e1, hR b hb, even, e]
      simp only [dotProduct, Fin.sum_univ_four, Pi.add_apply, Pi.sub_apply, Pi.zero_apply]
      simp
      ring
    · ring
  linarith

/-! ### A concrete case -/

/-- One square element; `s` is its right side, the other sides are walls. -/
def mirrorMesh : HdgMesh 2 Unit (Fin 4) where
  wV := 1
  wB := 1
  normal := ![![1, 0], ![-1, 0], ![0, 1], ![0, -1]]
  region := fun b => if b = 0 then some ['s'] else some ['w']

def mirrorBcs : Conditions := ⟨[(['s'], [⟨0, .symmetry⟩]), (['w'], [⟨1, .inviscidWall⟩])], [], 2⟩

/-- Piecewise constants in the elements and on the facets. -/
def constantTests : Set (HdgTest 2 4 Unit (Fin 4)) :=
  {φ | ∃ c, φ.grad = 0 ∧ φ.val = (fun _ => c) ∧ φ.trace = fun _ => c}

theorem mirror_plane : PlaneBoundary ![1, 0] ['s'] mirrorMesh mirrorBcs where
  unit := by norm_num
  condition := by decide
  plane := by
    intro b hb
    fin_cases b
    · rfl
    all_goals exact absurd hb (by simp [mirrorMesh])
  weights := fun b _ => by simp [mirrorMesh]

/-- For any fluxes there is a previous state from which the step leads to the given one. -/
theorem mirror_step (x : HdgState 2 4 Unit (Fin 4)) (hR : x.R = 0) : ∃ cur,
    hdgStep mirrorMesh (mirrorMesh.mask mirrorBcs) constantTests
      (Scheme.implicitEuler.quotient 1) 0 x cur cur := by
  refine ⟨{ x with U := fun v => x.U v + (∑ b, (x.Fn b - x.Gn b)) + x.source v }, ?_⟩
  rintro φ ⟨c, h1, h2, h3⟩
  have hD : mirrorBcs.getDomainBoundaries = [['s'], ['w']] := by decide
  have hm : ∀ b, mirrorMesh.mask mirrorBcs b = 0 := by
    intro b
    fin_cases b <;> simp [HdgMesh.mask, mirrorMesh, hD]
  have e : (fun i => Scheme.implicitEuler.quotient 1 (x.U () i)
      ((x.U () + (∑ b, (x.Fn b - x.Gn b)) + x.source ()) i)
      ((x.U () + (∑ b, (x.Fn b - x.Gn b)) + x.source ()) i))
      = -((∑ b, (x.Fn b - x.Gn b)) + x.source ()) := by
    funext i
    simp only [Scheme.quotient, backwardEuler, Pi.add_apply, Pi.neg_apply]
    ring
  simp only [timeForm, convectionForm, diffusionForm, boundaryForm, hm, h1, h2, h3, hR,
    Finset.univ_unique, Finset.sum_singleton, PUnit.default_eq_unit, e]
  simp [mirrorMesh, frobenius, neg_dotProduct, add_dotProduct, sub_dotProduct, sum_dotProduct,
    Finset.sum_sub_distrib]
  ring

/-- C93, concrete instance: gas that moves obliquely towards the symmetry plane; the step exists,
with any Riemann solver, viscous terms are arbitrary. -/
theorem mirror_instance {cfg : FlowCfg} (ha : cfg.Accepted) (hv : cfg.visc ≠ .inviscid)
    (hM : 0 < cfg.Ma) (rs : Riemann) (Q : Fin 5 → ℝ) :
    let S : GasState 2 := GasState.of cfg.γ 1 ![1, 2] 1
    (∃ x cur hat, x.IsEuler cfg.γ rs mirrorMesh (fun _ => gasVec S) hat ∧
      AtSymmetry cfg.γ ['s'] mirrorMesh constantTests x (fun _ => gasVec S) hat ∧
      (∀ b, ∃ W, IdealGas cfg.γ W ∧ hat b = gasVec W ∧ W.u ⬝ᵥ mirrorMesh.normal b = 0) ∧
      hdgStep mirrorMesh (mirrorMesh.mask mirrorBcs) constantTests
        (Scheme.implicitEuler.quotient 1) 0 x cur cur) ∧
    (∃ x cur hat, x.IsNavierStokes cfg rs mirrorMesh (fun _ => gasVec S) hat (fun _ => Q)
        (fun _ => Q) ∧
      AtSymmetry cfg.γ ['s'] mirrorMesh constantTests x (fun _ => gasVec S) hat ∧
      hdgStep mirrorMesh (mirrorMesh.mask mirrorBcs) constantTests
        (Scheme.implicitEuler.quotient 1) 0 x cur cur) := by
  intro S
  have hS : IdealGas cfg.γ S := IdealGas.of ha.gamma (by norm_num) (by norm_num)
  have hn : ∀ b, mirrorMesh.normal b 0 ^ 2 + mirrorMesh.normal b 1 ^ 2 = 1 := by
    intro b
    fin_cases b <;> simp [mirrorMesh]
  have hW : ∀ b, IdealGas cfg.γ (wallState cfg.γ S (mirrorMesh.normal b)) := fun b =>
    wallState_ideal hS _
  obtain ⟨e1, e2, e3⟩ := dictState cfg.γ S
  let hat : Fin 4 → Fin 4 → ℝ := fun b => consVec S.rho
    (S.rho_u - (S.rho_u ⬝ᵥ mirrorMesh.normal b) • mirrorMesh.normal b) S.rho_E
  have hw : ∀ b, inviscidWallResidual cfg.γ (mirrorMesh.normal b) (conservativeDict S) (hat b)
      = .ok 0 := by
    intro b
    simp [inviscidWallResidual, e1, e2, e3, bind, Except.bind, hat]
  have hhat : ∀ b, hat b = gasVec (wallState cfg.γ S (mirrorMesh.normal b)) := by
    intro b
    rw [wall_trace hS (hn b) (hw b)]
    funext i
    fin_cases i <;> rfl
  obtain ⟨F, -, hF, -⟩ := C76_convective (mirror_orthogonal mirror_plane.unit) hS 0
  have hf : ∀ b, ∃ fn, convectiveNumericalFlux cfg.γ rs (gasVec S) (hat b)
      (conservativeDict (wallState cfg.γ S (mirrorMesh.normal b))) (mirrorMesh.normal b)
      = .ok fn := fun b => by
    obtain ⟨τ, -, h⟩ := C28_flux rs (hW b) (hn b) (gasVec S) (hat b)
    exact ⟨_, h⟩
  choose fn hfn using hf
  obtain ⟨G, -, -, hG, -⟩ := C55_strain_heat_partial ha hv hM hS Q 0
  have hg : ∀ b, ∃ gn, diffusiveNumericalFlux cfg (gasVec S) (hat b)
      (conservativeDict (wallState cfg.γ S (mirrorMesh.normal b))) (strainHeatFields Q)
      (mirrorMesh.normal b) = .ok gn := fun b => by
    obtain ⟨-, gn, -, h, -⟩ := C56_damping ha hv hM (hW b) Q (gasVec S) (hat b)
      (mirrorMesh.normal b)
    exact ⟨_, h⟩
  choose gn hgn using hg
  have hfields : ∀ b, getConservativeFields cfg.γ (hat b 0) ![hat b 1, hat b 2] (hat b 3)
      = .ok (conservativeDict (wallState cfg.γ S (mirrorMesh.normal b))) := by
    intro b
    rw [hhat b]
    exact fields_vec (hW b)
  have htan : ∀ b, (wallState cfg.γ S (mirrorMesh.normal b)).u ⬝ᵥ mirrorMesh.normal b = 0 := by
    intro b
    have := wallState_tangential (γ := cfg.γ) (S := S) (hn b)
    simpa [dotProduct, Fin.sum_univ_two] using this
  have hone : facetTest ['s'] mirrorMesh (0 : Fin 4 → Fin 4 → ℝ) ∈ constantTests :=
    ⟨0, rfl, rfl, rfl⟩
  clear_value hat
  constructor
  · let x : HdgState 2 4 Unit (Fin 4) := ⟨fun _ => gasVec S, fun _ => F, 0, fn, 0, 0, 0⟩
    obtain ⟨cur, hcur⟩ := mirror_step x rfl
    exact ⟨x, cur, hat, ⟨fun v => ⟨_, fields_vec hS, hF⟩, fun b => ⟨_, hfields b, hfn b⟩, rfl, rfl⟩,
      ⟨fun b _ => ⟨S, hS, rfl, hw b⟩, hone⟩, fun b => ⟨_, hW b, hhat b, htan b⟩, hcur⟩
  · let x : HdgState 2 4 Unit (Fin 4) := ⟨fun _ => gasVec S, fun _ => F, fun _ => G, fn, gn, 0, 0⟩
    obtain ⟨cur, hcur⟩ := mirror_step x rfl
    exact ⟨x, cur, hat, ⟨fun v => ⟨_, fields_vec hS, hF, hG⟩,
      fun b => ⟨_, hfields b, hfn b, hgn b⟩⟩, ⟨fun b _ => ⟨S, hS, rfl, hw b⟩, hone⟩, hcur⟩

/-- C93, concrete instance for the step and its converse: with the Lax-Friedrichs solver there is a
step on the square, its mirror image is a step on the doubled square, and all hypotheses of the
converse hold. -/
example : ∃ x cur hat, AtSymmetry demoCfg.γ ['s'] mirrorMesh constantTests x
      (fun _ => gasVec (GasState.of demoCfg.γ 1 ![1, 2] 1 : GasState 2)) hat ∧
    x.IsEuler demoCfg.γ .laxFriedrich mirrorMesh
      (fun _ => gasVec (GasState.of demoCfg.γ 1 ![1, 2] 1 : GasState 2)) hat ∧
    (∀ b, mirrorMesh.region b = some ['s'] →
      doubleVec ![1, 0] hat (.inl b) = doubleVec ![1, 0] hat (.inr b)) ∧
    hdgStep mirrorMesh (mirrorMesh.mask mirrorBcs) constantTests
      (Scheme.implicitEuler.quotient 1) 0 x cur cur ∧
    hdgStep (doubleMesh ![1, 0] ['s'] mirrorMesh)
      ((doubleMesh ![1, 0] ['s'] mirrorMesh).mask mirrorBcs)
      (doubleTests ![1, 0] ['s'] mirrorMesh constantTests) (Scheme.implicitEuler.quotient 1) 0
      (doubleState ![1, 0] ['s'] mirrorMesh x) (doubleState ![1, 0] ['s'] mirrorMesh cur)
      (doubleState ![1, 0] ['s'] mirrorMesh cur) := by
  obtain ⟨⟨x, cur, hat, h1, h2, h3, h4⟩, -⟩ := mirror_instance demoCfg_accepted (by simp [demoCfg])
    (by simp [demoCfg]) .laxFriedrich 0
  refine ⟨x, cur, hat, h2, h1, fun b hb => ?_, h4,
    C93_step_partial (by simp) mirror_plane _ _ _ _ h1 h2 h4⟩
  obtain ⟨W, hW, e, ht⟩ := h3 b
  rw [mirror_plane.plane b hb] at ht
  show hat b = rotVec (mirror ![1, 0]) (hat b)
  rw [e, rotVec_consVec, mirror_mulVec, hW.momentum, smul_dotProduct, ht]
  simp
  rw [← hW.momentum]

example : ∀ φ ∈ constantTests,
    facetTest ['s'] mirrorMesh (fun b => rotVec (mirror ![1, 0]) (φ.hat b)) ∈ constantTests :=
  fun _ _ => ⟨0, rfl, rfl, rfl⟩

/-- C93, the Upwind solver: a step on the square whose mirror image is not a step on the doubled
square. -/
theorem C93_fails_upwind_instance : ∃ x cur,
    hdgStep mirrorMesh (mirrorMesh.mask mirrorBcs) constantTests
      (Scheme.implicitEuler.quotient 1) 0 x cur cur ∧
    ¬ hdgStep (doubleMesh ![1, 0] ['s'] mirrorMesh)
      ((doubleMesh ![1, 0] ['s'] mirrorMesh).mask mirrorBcs)
      (doubleTests ![1, 0] ['s'] mirrorMesh constantTests) (Scheme.implicitEuler.quotient 1) 0
      (doubleState ![1, 0] ['s'] mirrorMesh x) (doubleState ![1, 0] ['s'] mirrorMesh cur)
      (doubleState ![1, 0] ['s'] mirrorMesh cur) := by
  obtain ⟨⟨x, cur, hat, h1, h2, h3, h4⟩, -⟩ := mirror_instance demoCfg_accepted (by simp [demoCfg])
    (by simp [demoCfg]) .upwind 0
  refine ⟨x, cur, h4, C93_fails_upwind mirror_plane constantTests ⟨0, rfl, rfl, rfl⟩ _ _ _ h1 h2 h4
    ?_⟩
  have e1 : gasVec (GasState.of demoCfg.γ 1 ![1, 2] 1 : GasState 2) 1 = 1 := by
    show (GasState.of demoCfg.γ 1 ![1, 2] 1 : GasState 2).rho_u 0 = 1
    simp [GasState.of]
  rw [Fin.sum_univ_four, e1]
  simp [mirrorMesh]

/-- C93, viscous flow: a step on the square with shear stress on the symmetry plane whose mirror
image is not a step on the doubled square, with the Lax-Friedrichs solver. -/
theorem C93_fails_viscous_instance : ∃ x cur,
    hdgStep mirrorMesh (mirrorMesh.mask mirrorBcs) constantTests
      (Scheme.implicitEuler.quotient 1) 0 x cur cur ∧
    ¬ hdgStep (doubleMesh ![1, 0] ['s'] mirrorMesh)
      ((doubleMesh ![1, 0] ['s'] mirrorMesh).mask mirrorBcs)
      (doubleTests ![1, 0] ['s'] mirrorMesh constantTests) (Scheme.implicitEuler.quotient 1) 0
      (doubleState ![1, 0] ['s'] mirrorMesh x) (doubleState ![1, 0] ['s'] mirrorMesh cur)
      (doubleState ![1, 0] ['s'] mirrorMesh cur) := by
  obtain ⟨-, x, cur, hat, h1, h2, h4⟩ := mirror_instance demoCfg_accepted (by simp [demoCfg])
    (by simp [demoCfg]) .laxFriedrich ![0, 1, 0, 0, 0]
  refine ⟨x, cur, h4, C93_fails_viscous (by simp) mirror_plane constantTests ⟨0, rfl, rfl, rfl⟩ _ _ _
    h1 h2 h4 ?_⟩
  have hb : mirrorMesh.region 0 = some ['s'] := by simp [mirrorMesh]
  have hR : x.R 0 = 0 := by
    have := h4 _ h2.tested
    have := (stepForm_facet mirrorMesh mirror_plane.condition (Scheme.implicitEuler.quotient 1) x cur
      cur x.R).symm.trans this
    exact plane_residual (q := Scheme.implicitEuler.quotient 1) (cur := cur) (prev := cur)
      mirror_plane this hb
  obtain ⟨S, hS, e1, e2⟩ := h2.residual 0 hb
  rw [hR, mirror_plane.plane 0 hb] at e2
  obtain ⟨UHat, f, μ, Re, k1, k2, k3, k4, -, -, k5⟩ := C93_traction demoCfg_accepted
    (by simp [demoCfg]) (by simp [demoCfg]) mirror_plane.unit hS e2 ![0, 1, 0, 0, 0]
  obtain ⟨UHat', l1, -, l2⟩ := h1.numerical 0
  rw [k1] at l1
  cases l1
  have e3 : gasVec (GasState.of demoCfg.γ 1 ![1, 2] 1 : GasState 2) = gasVec S := e1
  rw [mirror_plane.plane 0 hb, e3] at l2
  have l3 : (Except.ok (x.Gn 0) : Except PyErr (Fin 4 → ℝ)) = .ok f := l2.symm.trans k2
  cases l3
  rw [Fin.sum_univ_four, k5]
  have : 0 < μ / Re := by positivity
  simp [mirrorMesh]
  exact ⟨k3.ne', k4.ne'⟩

end Dream
