import Verif.Model.PSponge
import Verif.Props.Layers
import Mathlib.LinearAlgebra.Matrix.DotProduct

/-!
# C40: chains of p-sponge layers
-/

noncomputable section

namespace Dream
open Matrix

/-- The layer with a pair of orders. -/
def layerOf (p : ℤ × ℤ) : PSponge := ⟨p.1, p.2⟩

/-- **C40** Of the layers made from the pairs exactly one, the last one, has equal orders. -/
theorem C40_one_target (highest lowest step : ℤ) (hl : lowest ≤ highest) (hs : 1 ≤ step) :
    (orderPairs highest lowest step).getLast? = some (lowest, lowest) ∧
    (orderPairs highest lowest step).filter (fun p => (layerOf p).isEqualOrder)
      = [(lowest, lowest)] := by
  obtain ⟨Q, h1, -, -, h4⟩ := C40_pairs highest lowest step hl hs
  rw [h1]
  refine ⟨by simp, ?_⟩
  rw [List.filter_append]
  have hQ : Q.filter (fun p => (layerOf p).isEqualOrder) = [] := by
    rw [List.filter_eq_nil_iff]
    intro p hp
    have := (h4 p hp).2.1
    have hne : ¬ p.1 = p.2 := this.ne'
    show ¬ (decide (p.1 = p.2) = true)
    rw [decide_eq_true_eq]
    exact hne
  rw [hQ]
  simp [layerOf, PSponge.isEqualOrder]

/-- **C40** The formulation of a layer of the chain, with a positive sponge function, is at rest exactly
when the unknowns are those of the lower order, in the last layer those of the target state; otherwise
it damps the difference: tested with it, it is positive. -/
theorem C40_layers {ι : Type} [Fintype ι] (highest lowest step : ℤ) (hl : lowest ≤ highest)
    (hs : 1 ≤ step) (p : ℤ × ℤ) (hp : p ∈ orderPairs highest lowest step) (f : ℝ) (hf : 0 < f)
    (U Ulow Utarget : ι → ℝ) :
    let aim := if p = (lowest, lowest) then Utarget else Ulow
    ((∀ V, pspongeTerm (layerOf p) f U Ulow Utarget V = 0) ↔ U = aim) ∧
    (U ≠ aim → 0 < pspongeTerm (layerOf p) f U Ulow Utarget (U - aim)) := by
  have heq : (layerOf p).isEqualOrder = true ↔ p = (lowest, lowest) := by
    have h := (C40_one_target highest lowest step hl hs).2
    constructor
    · intro he
      have : p ∈ (orderPairs highest lowest step).filter fun p => (layerOf p).isEqualOrder :=
        List.mem_filter.2 ⟨hp, he⟩
      rw [h] at this
      simpa using this
    · rintro rfl
      simp [layerOf, PSponge.isEqualOrder]
  intro aim
  have e : ∀ V, pspongeTerm (layerOf p) f U Ulow Utarget V = f * ((U - aim) ⬝ᵥ V) := by
    intro V
    simp only [pspongeTerm, heq, aim]
  simp only [e]
  have hpos : U ≠ aim → 0 < f * ((U - aim) ⬝ᵥ (U - aim)) := by
    intro h
    have h1 : (U - aim) ⬝ᵥ (U - aim) ≠ 0 := fun h0 =>
      h (sub_eq_zero.1 (dotProduct_self_eq_zero.1 h0))
    have h2 : 0 ≤ (U - aim) ⬝ᵥ (U - aim) :=
      Finset.sum_nonneg fun i _ => mul_self_nonneg _
    exact mul_pos hf (lt_of_le_of_ne h2 (Ne.symm h1))
  refine ⟨⟨fun h => ?_, fun h V => ?_⟩, hpos⟩
  · by_contra hne
    exact (hpos hne).ne' (h _)
  · rw [h]; simp

/-- **C41** The constant sponge function has its weight everywhere: it is the polynomial one of order
zero. -/
theorem C41_constant (weight x x0 xn : ℝ) :
    spongeConstant weight = weight ∧ spongeConstant weight = spongePolynomial weight x x0 xn 0 := by
  simp [spongeConstant, spongePolynomial]

/-- Orders 4 to 1 in steps of two. -/
example : orderPairs 4 1 2 = [(4, 2), (2, 1), (1, 1)] ∧
    (2, 1) ∈ orderPairs 4 1 2 ∧ (layerOf (2, 1)).isEqualOrder = false ∧
    (layerOf (1, 1)).isEqualOrder = true := by decide

end Dream
