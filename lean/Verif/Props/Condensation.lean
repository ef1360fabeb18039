import Verif.Model.Condensation
import Mathlib.LinearAlgebra.Matrix.SchurComplement
import Mathlib.Data.Matrix.Mul
import Mathlib.Tactic.NormNum
import Mathlib.Data.Fintype.Sum
import Mathlib.Tactic.NoncommRing

/-!
# C64: static condensation
-/

noncomputable section

namespace Dream

open Matrix

variable {I C : Type} [Fintype I] [Fintype C] [DecidableEq I] [DecidableEq C]

theorem schur_isUnit (A : Linearised I C) (hi : IsUnit A.ii.det) (hA : IsUnit A.full.det) :
    IsUnit A.schur.det := by
  have := A.ii.invertibleOfIsUnitDet hi
  have h := det_fromBlocks₁₁ A.ii A.ic A.ci A.cc
  rw [Linearised.full, h] at hA
  have := (IsUnit.mul_iff.1 hA).2
  rwa [invOf_eq_nonsing_inv] at this

/-- The result of the condensed step, block by block. -/
theorem updateStep_condensed (A : Linearised I C) (ri : I → ℝ) (rc : C → ℝ) :
    updateStep A true (Sum.elim ri rc) =
      (let rc' := rc - (A.ci * A.ii⁻¹) *ᵥ ri
       let uc := A.schur⁻¹ *ᵥ rc'
       (Sum.elim (A.ii⁻¹ *ᵥ ri - (A.ii⁻¹ * A.ic) *ᵥ uc) uc, Sum.elim ri rc')) := by
  have e : (Sum.elim ri rc + Sum.elim (0 : I → ℝ) (-((A.ci * A.ii⁻¹) *ᵥ ri)))
      = Sum.elim ri (rc - (A.ci * A.ii⁻¹) *ᵥ ri) := by
    funext k
    cases k <;> simp [sub_eq_add_neg]
  simp only [updateStep, Linearised.inv, if_true, Linearised.innerSolve,
    Linearised.harmonicExtension, Linearised.harmonicExtensionTrans, fromBlocks_mulVec,
    Sum.elim_comp_inl, Sum.elim_comp_inr, zero_mulVec, neg_mulVec, add_zero, zero_add, e]
  congr 1
  funext k
  cases k
  · simp
    ring
  · simp

/-- **C64** With static condensation the increment solves the full linear system. -/
theorem C64_increment (A : Linearised I C) (hi : IsUnit A.ii.det) (hA : IsUnit A.full.det)
    (r : I ⊕ C → ℝ) : A.full *ᵥ (updateStep A true r).1 = r := by
  have hs := schur_isUnit A hi hA
  obtain ⟨ri, rc, rfl⟩ : ∃ ri rc, r = Sum.elim ri rc := ⟨r ∘ Sum.inl, r ∘ Sum.inr, by simp⟩
  rw [updateStep_condensed]
  simp only [Linearised.full, fromBlocks_mulVec, Sum.elim_comp_inl, Sum.elim_comp_inr]
  set rc' := rc - (A.ci * A.ii⁻¹) *ᵥ ri with hrc'
  set uc := A.schur⁻¹ *ᵥ rc' with huc
  have h1 : A.ii *ᵥ (A.ii⁻¹ *ᵥ ri - (A.ii⁻¹ * A.ic) *ᵥ uc) = ri - A.ic *ᵥ uc := by
    rw [mulVec_sub, mulVec_mulVec, mulVec_mulVec, ← Matrix.mul_assoc, mul_nonsing_inv _ hi,
      one_mulVec, Matrix.one_mul]
  have h2 : A.schur *ᵥ uc = rc' := by
    rw [huc, mulVec_mulVec, mul_nonsing_inv _ hs, one_mulVec]
  have h3 : A.ci *ᵥ (A.ii⁻¹ *ᵥ ri - (A.ii⁻¹ * A.ic) *ᵥ uc) + A.cc *ᵥ uc = rc := by
    have : A.schur *ᵥ uc = A.cc *ᵥ uc - (A.ci * A.ii⁻¹ * A.ic) *ᵥ uc := by
      rw [Linearised.schur, sub_mulVec]
    rw [mulVec_sub, mulVec_mulVec, mulVec_mulVec, ← Matrix.mul_assoc]
    have h4 : A.cc *ᵥ uc = rc' + (A.ci * A.ii⁻¹ * A.ic) *ᵥ uc := by rw [← h2, this]; abel
    rw [h4, hrc']
    abel
  rw [h1, h3, sub_add_cancel]

/-- **C64** Static condensation does not change the increment: both variants compute the one
solution of the linear system. -/
theorem C64_same_increment_partial (A : Linearised I C) (hi : IsUnit A.ii.det) (hA : IsUnit A.full.det)
    (r : I ⊕ C → ℝ) :
    (updateStep A true r).1 = (updateStep A false r).1 ∧
    ∀ u, A.full *ᵥ u = r ↔ u = (updateStep A true r).1 := by
  have h1 := C64_increment A hi hA r
  have huniq : ∀ u, A.full *ᵥ u = r → u = A.full⁻¹ *ᵥ r := by
    intro u hu
    rw [← hu, mulVec_mulVec, nonsing_inv_mul _ hA, one_mulVec]
  have h2 : (updateStep A false r).1 = A.full⁻¹ *ᵥ r := by simp [updateStep, Linearised.inv]
  refine ⟨by rw [h2]; exact huniq _ h1, fun u => ⟨fun hu => ?_, fun hu => by rw [hu]; exact h1⟩⟩
  rw [huniq u hu, huniq _ h1]

/-- **C64** The error that is compared with the criterion is `|⟨du, r⟩|` without condensation,
but with condensation the part of the residual eliminated from the coupling unknowns is missing. -/
theorem C64_error (A : Linearised I C) (hi : IsUnit A.ii.det) (hA : IsUnit A.full.det)
    (ri : I → ℝ) (rc : C → ℝ) :
    let du := (updateStep A true (Sum.elim ri rc)).1
    iterationError (updateStep A false (Sum.elim ri rc)) = |du ⬝ᵥ Sum.elim ri rc| ∧
    iterationError (updateStep A true (Sum.elim ri rc))
      = |du ⬝ᵥ Sum.elim ri rc - (du ∘ Sum.inr) ⬝ᵥ ((A.ci * A.ii⁻¹) *ᵥ ri)| := by
  intro du
  constructor
  · have h := (C64_same_increment_partial A hi hA (Sum.elim ri rc)).1
    have h' : (updateStep A false (Sum.elim ri rc)).2 = Sum.elim ri rc := by simp [updateStep]
    rw [iterationError, ← h, h']
  · have h2 : (updateStep A true (Sum.elim ri rc)).2
        = Sum.elim ri (rc - (A.ci * A.ii⁻¹) *ᵥ ri) := by rw [updateStep_condensed]
    rw [iterationError, h2]
    obtain ⟨ui, uc, hu⟩ : ∃ ui uc, du = Sum.elim ui uc := ⟨du ∘ Sum.inl, du ∘ Sum.inr, by simp⟩
    show |du ⬝ᵥ _| = _
    rw [hu]
    simp only [sumElim_dotProduct_sumElim, Sum.elim_comp_inr, dotProduct_sub]
    congr 1
    ring

/-- A linearised problem with one inner and one coupling unknown. -/
def smallSystem : Linearised Unit Unit :=
  { ii := !![1].submatrix (fun _ => 0) (fun _ => 0), ic := 0,
    ci := !![2].submatrix (fun _ => 0) (fun _ => 0), cc := !![1].submatrix (fun _ => 0) (fun _ => 0) }

theorem smallSystem_unit :
    IsUnit smallSystem.ii.det ∧ IsUnit smallSystem.full.det := by
  constructor
  · simp [smallSystem]
  · have : smallSystem.full.det = 1 := by
      rw [Linearised.full]
      simp only [smallSystem]
      rw [det_fromBlocks_zero₁₂]
      simp
    rw [this]
    exact isUnit_one

/-- **C64 fails for the convergence test**: for the same system and residual the update step
reports error `0` without condensation and error `2` with condensation (the increment being
`(1,-1)` in both cases), so that for every criterion below `2` the former counts as converged and
the latter does not; a non-zero residual can have error zero. -/
theorem C64_fails_error :
    iterationError (updateStep smallSystem false (Sum.elim (fun _ => 1) fun _ => 1)) = 0 ∧
    iterationError (updateStep smallSystem true (Sum.elim (fun _ => 1) fun _ => 1)) = 2 ∧
    (updateStep smallSystem true (Sum.elim (fun _ => 1) fun _ => 1)).1
      = Sum.elim (fun _ => 1) fun _ => -1 := by
  have hii : smallSystem.ii = 1 := by ext; simp [smallSystem]
  have hcc : smallSystem.cc = 1 := by ext; simp [smallSystem]
  have hic : smallSystem.ic = 0 := rfl
  have hci : ∀ v : Unit → ℝ, smallSystem.ci *ᵥ v = fun _ => 2 * v () := by
    intro v; funext i; simp [smallSystem, mulVec, dotProduct]
  have hdu : (updateStep smallSystem true (Sum.elim (fun _ => 1) fun _ => 1)).1
      = Sum.elim (fun _ => 1) fun _ => -1 := by
    rw [updateStep_condensed]
    simp only [Linearised.schur, hii, hcc, hic, inv_one, Matrix.mul_one, Matrix.mul_zero, sub_zero,
      zero_mulVec, one_mulVec, hci]
    congr 1
    funext i
    norm_num
  have h := C64_error smallSystem smallSystem_unit.1 smallSystem_unit.2 (fun _ => 1) (fun _ => 1)
  simp only at h
  rw [hdu] at h
  refine ⟨h.1.trans ?_, h.2.trans ?_, hdu⟩
  · simp [dotProduct]
  · simp [dotProduct, hii, hci]

/-- C64, concrete instance. -/
example : smallSystem.full *ᵥ (updateStep smallSystem true (Sum.elim (fun _ => 3) fun _ => 4)).1
    = Sum.elim (fun _ => 3) fun _ => 4 :=
  C64_increment smallSystem smallSystem_unit.1 smallSystem_unit.2 _

end Dream
