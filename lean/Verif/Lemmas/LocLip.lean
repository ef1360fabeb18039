import Mathlib.Analysis.Calculus.ContDiff.Basic
import Mathlib.Analysis.Calculus.ContDiff.Operations
import Mathlib.Analysis.Calculus.ContDiff.RCLike

/-!
# Functions that are Lipschitz continuous near a point
-/

noncomputable section

namespace Dream

variable {E F G : Type} [NormedAddCommGroup E] [NormedSpace ℝ E] [NormedAddCommGroup F]
  [NormedSpace ℝ F] [NormedAddCommGroup G] [NormedSpace ℝ G]

/-- Lipschitz continuous near a point. -/
def LocLip (f : E → F) (p : E) : Prop := ∃ K : NNReal, ∃ s ∈ nhds p, LipschitzOnWith K f s

theorem LocLip.continuousAt {f : E → F} {p : E} (h : LocLip f p) : ContinuousAt f p := by
  obtain ⟨K, s, hs, hK⟩ := h
  exact hK.continuousOn.continuousAt hs

theorem LocLip.of_strict {f : E → F} {f' : E →L[ℝ] F} {p : E} (h : HasStrictFDerivAt f f' p) :
    LocLip f p := by
  obtain ⟨K, s, hs, hK⟩ := h.exists_lipschitzOnWith
  exact ⟨K, s, hs, hK⟩

theorem LocLip.of_contDiffAt {f : E → F} {p : E} (h : ContDiffAt ℝ 1 f p) : LocLip f p :=
  .of_strict (h.hasStrictFDerivAt one_ne_zero)

theorem LocLip.const (c : F) (p : E) : LocLip (fun _ : E => c) p := .of_contDiffAt contDiffAt_const

theorem LocLip.comp {f : E → F} {g : F → G} {p : E} (hg : LocLip g (f p)) (hf : LocLip f p) :
    LocLip (fun x => g (f x)) p := by
  have hc := hf.continuousAt
  obtain ⟨K, s, hs, hK⟩ := hf
  obtain ⟨K', t, ht, hK'⟩ := hg
  exact ⟨K' * K, s ∩ f ⁻¹' t, Filter.inter_mem hs (hc.preimage_mem_nhds ht),
    hK'.comp (hK.mono Set.inter_subset_left) fun _ hx => hx.2⟩

theorem LocLip.prodMk {f : E → F} {g : E → G} {p : E} (hf : LocLip f p) (hg : LocLip g p) :
    LocLip (fun x => (f x, g x)) p := by
  obtain ⟨K, s, hs, hK⟩ := hf
  obtain ⟨K', t, ht, hK'⟩ := hg
  exact ⟨max K K', s ∩ t, Filter.inter_mem hs ht,
    (hK.mono Set.inter_subset_left).prodMk (hK'.mono Set.inter_subset_right)⟩

theorem LocLip.add {f g : E → ℝ} {p : E} (hf : LocLip f p) (hg : LocLip g p) :
    LocLip (fun x => f x + g x) p :=
  LocLip.comp (g := fun q : ℝ × ℝ => q.1 + q.2) (.of_contDiffAt (by fun_prop)) (hf.prodMk hg)

theorem LocLip.sub {f g : E → ℝ} {p : E} (hf : LocLip f p) (hg : LocLip g p) :
    LocLip (fun x => f x - g x) p :=
  LocLip.comp (g := fun q : ℝ × ℝ => q.1 - q.2) (.of_contDiffAt (by fun_prop)) (hf.prodMk hg)

theorem LocLip.mul {f g : E → ℝ} {p : E} (hf : LocLip f p) (hg : LocLip g p) :
    LocLip (fun x => f x * g x) p :=
  LocLip.comp (g := fun q : ℝ × ℝ => q.1 * q.2) (.of_contDiffAt (by fun_prop)) (hf.prodMk hg)

theorem LocLip.div {f g : E → ℝ} {p : E} (hf : LocLip f p) (hg : LocLip g p) (h0 : g p ≠ 0) :
    LocLip (fun x => f x / g x) p :=
  LocLip.comp (g := fun q : ℝ × ℝ => q.1 / q.2)
    (.of_contDiffAt (contDiffAt_fst.div contDiffAt_snd h0)) (hf.prodMk hg)

theorem LocLip.abs {f : E → ℝ} {p : E} (hf : LocLip f p) : LocLip (fun x => |f x|) p :=
  LocLip.comp (g := fun q : ℝ => |q|) ⟨1, Set.univ, Filter.univ_mem,
    LipschitzOnWith.of_dist_le_mul fun x _ y _ => by
      rw [NNReal.coe_one, one_mul]
      exact abs_abs_sub_abs_le_abs_sub x y⟩ hf

theorem LocLip.max_const {f : E → ℝ} {p : E} (hf : LocLip f p) (c : ℝ) :
    LocLip (fun x => max (f x) c) p :=
  LocLip.comp (g := fun q : ℝ => max q c) ⟨1, Set.univ, Filter.univ_mem,
    LipschitzOnWith.of_dist_le_mul fun x _ y _ => by
      rw [NNReal.coe_one, one_mul]
      exact abs_max_sub_max_le_abs x y c⟩ hf

theorem LocLip.sum {ι : Type} (s : Finset ι) {f : ι → E → ℝ} {p : E} (hf : ∀ i, LocLip (f i) p) :
    LocLip (fun x => ∑ i ∈ s, f i x) p := by
  classical
  induction s using Finset.induction_on with
  | empty => simpa using LocLip.const (0 : ℝ) p
  | insert i s hi ih =>
    simp only [Finset.sum_insert hi]
    exact (hf i).add ih

end Dream
