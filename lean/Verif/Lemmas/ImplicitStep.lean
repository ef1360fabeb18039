import Verif.Props.NewtonStep
import Verif.Spec.Transient
import Mathlib.Analysis.Calculus.InverseFunctionTheorem.FDeriv
import Mathlib.Analysis.Calculus.FDeriv.Prod
import Mathlib.Analysis.SpecialFunctions.Exp
import Mathlib.Topology.MetricSpace.Contracting

/-!
# Implicit steps near a steady state

Equations with unknowns that are differentiated in time and others that are determined by them.
-/

noncomputable section

namespace Dream
open Metric

section Facets

variable {X Z Y : Type} [NormedAddCommGroup X] [NormedSpace ℝ X] [FiniteDimensional ℝ X]
  [NormedAddCommGroup Z] [NormedSpace ℝ Z] [FiniteDimensional ℝ Z]
  [NormedAddCommGroup Y] [NormedSpace ℝ Y] [FiniteDimensional ℝ Y]

/-- Near a solution the unknowns `ζ` are a Lipschitz function of `x`. -/
theorem facet_function {g : X × Z → Y} {g' : X × Z →L[ℝ] Y} {x0 : X} {ζ0 : Z}
    (hg : HasStrictFDerivAt g g' (x0, ζ0)) (h0 : g (x0, ζ0) = 0)
    (hinj : ∀ ζ, g' (0, ζ) = 0 → ζ = 0) (hdim : Module.finrank ℝ Y = Module.finrank ℝ Z)
    {ε : ℝ} (hε : 0 < ε) :
    ∃ r > 0, ∃ ρ > 0, ρ ≤ ε ∧ ∃ (K : NNReal) (h : X → Z), LipschitzOnWith K h (closedBall x0 r) ∧
      h x0 = ζ0 ∧ (∀ x ∈ closedBall x0 r, g (x, h x) = 0 ∧ ‖h x - ζ0‖ ≤ ρ ∧
        ∀ ζ, ‖ζ - ζ0‖ ≤ ρ → g (x, ζ) = 0 → ζ = h x) ∧
      ∃ h' : X →L[ℝ] Z, HasStrictFDerivAt h h' x0 ∧ ∀ a, g' (a, h' a) = 0 := by
  haveI : CompleteSpace X := FiniteDimensional.complete ℝ X
  haveI : CompleteSpace Z := FiniteDimensional.complete ℝ Z
  let Φ' : X × Z →L[ℝ] X × Y := (ContinuousLinearMap.fst ℝ X Z).prod g'
  have hi : Function.Injective Φ' := (injective_iff_map_eq_zero _).2 fun p hp => by
    have h1 : p.1 = 0 := congrArg Prod.fst hp
    have h2 : g' p = 0 := congrArg Prod.snd hp
    obtain ⟨a, b⟩ := p
    simp only at h1
    subst h1
    rw [hinj b h2]
    rfl
  have hd : Module.finrank ℝ (X × Z) = Module.finrank ℝ (X × Y) := by
    rw [Module.finrank_prod, Module.finrank_prod, hdim]
  let e : (X × Z) ≃L[ℝ] X × Y :=
    (LinearEquiv.ofInjectiveOfFinrankEq (Φ' : X × Z →ₗ[ℝ] X × Y) hi hd).toContinuousLinearEquiv
  have he : (e : X × Z →L[ℝ] X × Y) = Φ' := by
    ext p <;> rfl
  have hΦ : HasStrictFDerivAt (fun p : X × Z => (p.1, g p)) (e : X × Z →L[ℝ] X × Y) (x0, ζ0) := by
    rw [he]
    exact (ContinuousLinearMap.fst ℝ X Z).hasStrictFDerivAt.prodMk hg
  have hΦ0 : (((x0, ζ0) : X × Z).1, g (x0, ζ0)) = (x0, 0) := by simp [h0]
  let ψ := hΦ.localInverse (fun p : X × Z => (p.1, g p)) e (x0, ζ0)
  have hψ : HasStrictFDerivAt ψ (e.symm : X × Y →L[ℝ] X × Z) (x0, 0) := by
    have := hΦ.to_localInverse
    simp only [hΦ0] at this
    exact this
  have hψ0 : ψ (x0, 0) = (x0, ζ0) := by
    have := hΦ.localInverse_apply_image
    simp only [hΦ0] at this
    exact this
  have hl := hΦ.eventually_left_inverse
  have hr := hΦ.eventually_right_inverse
  simp only [hΦ0] at hr
  obtain ⟨K, s, hs, hK⟩ := hψ.exists_lipschitzOnWith
  obtain ⟨r1, r10, hl⟩ := Metric.eventually_nhds_iff_ball.1 hl
  obtain ⟨r2, r20, hr⟩ := Metric.eventually_nhds_iff_ball.1 hr
  obtain ⟨r3, r30, hs⟩ := Metric.mem_nhds_iff.1 hs
  let ρ := min ε (r1 / 2)
  have hρ : 0 < ρ := lt_min hε (half_pos r10)
  obtain ⟨r4, r40, hc⟩ := Metric.eventually_nhds_iff_ball.1
    (hψ.continuousAt.eventually (Metric.ball_mem_nhds (ψ (x0, 0)) hρ))
  let r := min (min (r1 / 2) (r2 / 2)) (min (r3 / 2) (r4 / 2))
  have hr0 : 0 < r := lt_min (lt_min (half_pos r10) (half_pos r20))
    (lt_min (half_pos r30) (half_pos r40))
  have hr1 : r < r1 := ((min_le_left _ _).trans (min_le_left _ _)).trans_lt (half_lt_self r10)
  have hr2 : r < r2 := ((min_le_left _ _).trans (min_le_right _ _)).trans_lt (half_lt_self r20)
  have hr3 : r < r3 := ((min_le_right _ _).trans (min_le_left _ _)).trans_lt (half_lt_self r30)
  have hr4 : r < r4 := ((min_le_right _ _).trans (min_le_right _ _)).trans_lt (half_lt_self r40)
  have hmem : ∀ x ∈ closedBall x0 r, ∀ R, r < R → ((x, 0) : X × Y) ∈ ball ((x0, 0) : X × Y) R := by
    intro x hx R hR
    rw [mem_ball, Prod.dist_eq, dist_self, max_eq_left dist_nonneg]
    exact (mem_closedBall.1 hx).trans_lt hR
  have hinv : ∀ x ∈ closedBall x0 r, (ψ (x, 0)).1 = x ∧ g (ψ (x, 0)) = 0 := by
    intro x hx
    have := hr (x, 0) (hmem x hx r2 hr2)
    exact ⟨congrArg Prod.fst this, congrArg Prod.snd this⟩
  refine ⟨r, hr0, ρ, hρ, min_le_left _ _, K, fun x => (ψ (x, 0)).2, ?_, ?_, ?_, ?_⟩
  · intro x hx y hy
    calc edist (ψ (x, 0)).2 (ψ (y, 0)).2 ≤ edist (ψ (x, 0)) (ψ (y, 0)) := by
          rw [Prod.edist_eq]
          exact le_max_right _ _
      _ ≤ K * edist ((x, 0) : X × Y) (y, 0) := hK (hs (hmem x hx r3 hr3)) (hs (hmem y hy r3 hr3))
      _ = K * edist x y := by simp [Prod.edist_eq]
  · show (ψ (x0, 0)).2 = ζ0
    rw [hψ0]
  · intro x hx
    obtain ⟨i1, i2⟩ := hinv x hx
    have e1 : (x, (ψ (x, 0)).2) = ψ (x, 0) := Prod.ext i1.symm rfl
    refine ⟨by rw [e1]; exact i2, ?_, ?_⟩
    · have := hc (x, 0) (hmem x hx r4 hr4)
      rw [hψ0, Prod.dist_eq] at this
      rw [← dist_eq_norm]
      exact ((le_max_right _ _).trans_lt this).le
    · intro ζ hζ hz
      have := hl (x, ζ) (by
        rw [mem_ball, Prod.dist_eq]
        refine max_lt ((mem_closedBall.1 hx).trans_lt hr1) ?_
        rw [dist_eq_norm]
        exact (hζ.trans (min_le_right _ _)).trans_lt (half_lt_self r10))
      have e2 : ψ (x, g (x, ζ)) = (x, ζ) := this
      rw [hz] at e2
      show ζ = (ψ (x, 0)).2
      rw [e2]
  · refine ⟨(ContinuousLinearMap.snd ℝ X Z).comp ((e.symm : X × Y →L[ℝ] X × Z).comp
      (ContinuousLinearMap.inl ℝ X Y)), ?_, fun a => ?_⟩
    · have hi' : HasStrictFDerivAt (fun x : X => (x, (0 : Y))) (ContinuousLinearMap.inl ℝ X Y) x0 :=
        (ContinuousLinearMap.inl ℝ X Y).hasStrictFDerivAt
      exact (ContinuousLinearMap.snd ℝ X Z).hasStrictFDerivAt.comp x0
        (HasStrictFDerivAt.comp (g := ψ) (f := fun x : X => (x, (0 : Y))) x0 hψ hi')
    · have h1 : e (e.symm (a, 0)) = (a, 0) := e.apply_symm_apply _
      have h2 : Φ' (e.symm (a, 0)) = (a, 0) := by
        rw [← he]
        exact h1
      have h3 : (e.symm (a, 0)).1 = a := congrArg Prod.fst h2
      have h4 : g' (e.symm (a, 0)) = 0 := congrArg Prod.snd h2
      have h5 : (a, (e.symm (a, 0)).2) = e.symm (a, 0) := Prod.ext h3.symm rfl
      show g' (a, (e.symm (a, 0)).2) = 0
      rw [h5, h4]

theorem exists_clm {A F : Type} [NormedAddCommGroup A] [NormedSpace ℝ A] [FiniteDimensional ℝ A]
    [NormedAddCommGroup F] [NormedSpace ℝ F] (m : A →ₗ[ℝ] F) : ∃ l : A →L[ℝ] F, ∀ x, l x = m x :=
  ⟨LinearMap.toContinuousLinearMap m, fun _ => rfl⟩

theorem exists_clEquiv (m : X →ₗ[ℝ] Z) (hm : Function.Injective m)
    (hd : Module.finrank ℝ X = Module.finrank ℝ Z) : ∃ e : X ≃L[ℝ] Z, ∀ x, e x = m x := by
  haveI : CompleteSpace X := FiniteDimensional.complete ℝ X
  haveI : CompleteSpace Z := FiniteDimensional.complete ℝ Z
  exact ⟨(LinearEquiv.ofInjectiveOfFinrankEq m hm hd).toContinuousLinearEquiv, fun _ => rfl⟩

/-- The equations of a step with facet unknowns amount to those of an ordinary differential equation
near a steady state. -/
theorem reduced_equation {W : Type} [NormedAddCommGroup W] [NormedSpace ℝ W] (m : X ≃L[ℝ] W)
    {f : X × Z → W} {f' : X × Z →L[ℝ] W} {g : X × Z → Y} {g' : X × Z →L[ℝ] Y} {x0 : X} {ζ0 : Z}
    (hf : HasStrictFDerivAt f f' (x0, ζ0)) (f0 : f (x0, ζ0) = 0)
    (hg : HasStrictFDerivAt g g' (x0, ζ0)) (g0 : g (x0, ζ0) = 0)
    (hinj : ∀ ζ, g' (0, ζ) = 0 → ζ = 0) (hdim : Module.finrank ℝ Y = Module.finrank ℝ Z)
    {ε : ℝ} (hε : 0 < ε) :
    ∃ r > 0, r ≤ ε ∧ ∃ ρ > 0, ρ ≤ ε ∧ ∃ (K L : NNReal) (h : X → Z) (Ψ : X → X),
      LipschitzOnWith K h (closedBall x0 r) ∧ h x0 = ζ0 ∧
      LipschitzOnWith L Ψ (closedBall x0 r) ∧ Ψ x0 = 0 ∧ (∀ x, ‖x - x0‖ ≤ r → ‖h x - ζ0‖ ≤ ρ) ∧
      (∀ x ζ, ‖x - x0‖ ≤ r → ‖ζ - ζ0‖ ≤ ρ → ∀ (y : X) (τ : ℝ),
        ((m (x - y) + τ • f (x, ζ) = 0 ∧ g (x, ζ) = 0) ↔ (x = y + τ • Ψ x ∧ ζ = h x))) ∧
      ∃ Ψ' : X →L[ℝ] X, HasStrictFDerivAt Ψ Ψ' x0 ∧
        ∀ a, ∃ ζ, m (Ψ' a) + f' (a, ζ) = 0 ∧ g' (a, ζ) = 0 := by
  obtain ⟨Kf, s, hs, hKf⟩ := hf.exists_lipschitzOnWith
  obtain ⟨r1, r10, hs⟩ := Metric.mem_nhds_iff.1 hs
  obtain ⟨r2, r20, ρ, ρ0, hρ, K, h, hK, h0, hh, h', hh', hg'⟩ := facet_function hg g0 hinj hdim
    (ε := min ε (r1 / 2)) (lt_min hε (half_pos r10))
  let r := min (min ε (r1 / 2)) r2
  have hr0 : 0 < r := lt_min (lt_min hε (half_pos r10)) r20
  have hrε : r ≤ ε := (min_le_left _ _).trans (min_le_left _ _)
  have hr1 : r < r1 := ((min_le_left _ _).trans (min_le_right _ _)).trans_lt (half_lt_self r10)
  have hr2 : r ≤ r2 := min_le_right _ _
  have hρ1 : ρ < r1 := (hρ.trans (min_le_right _ _)).trans_lt (half_lt_self r10)
  have hsub : closedBall x0 r ⊆ closedBall x0 r2 := closedBall_subset_closedBall hr2
  have hmem : ∀ x ∈ closedBall x0 r, (x, h x) ∈ s := by
    intro x hx
    apply hs
    rw [mem_ball, Prod.dist_eq]
    refine max_lt ((mem_closedBall.1 hx).trans_lt hr1) ?_
    rw [dist_eq_norm]
    exact ((hh x (hsub hx)).2.1).trans_lt hρ1
  let ms : W →L[ℝ] X := (m.symm : W →L[ℝ] X)
  refine ⟨r, hr0, hrε, ρ, ρ0, hρ.trans (min_le_left _ _), K, ‖ms‖₊ * (Kf * max 1 K), h,
    fun x => -ms (f (x, h x)), hK.mono hsub, h0, ?_, ?_, ?_, ?_, ?_⟩
  · refine LipschitzOnWith.of_dist_le_mul fun x hx y hy => ?_
    have h1 := hKf.dist_le_mul _ (hmem x hx) _ (hmem y hy)
    have h2 := (hK.mono hsub).dist_le_mul x hx y hy
    have h3 : dist (x, h x) (y, h y) ≤ max 1 K * dist x y := by
      rw [Prod.dist_eq]
      refine max_le ?_ ?_
      · exact le_mul_of_one_le_left dist_nonneg (le_max_left _ _)
      · exact h2.trans (mul_le_mul_of_nonneg_right (le_max_right _ _) dist_nonneg)
    rw [dist_neg_neg]
    have h4 : dist (ms (f (x, h x))) (ms (f (y, h y))) ≤ ‖ms‖ * dist (f (x, h x)) (f (y, h y)) := by
      rw [dist_eq_norm, dist_eq_norm, ← map_sub]
      exact ms.le_opNorm _
    calc _ ≤ _ := h4
      _ ≤ ‖ms‖ * (Kf * (max 1 K * dist x y)) := by
          refine mul_le_mul_of_nonneg_left (h1.trans ?_) (norm_nonneg _)
          exact mul_le_mul_of_nonneg_left h3 Kf.2
      _ = _ := by
          push_cast
          ring
  · show -ms (f (x0, h x0)) = 0
    rw [h0, f0, map_zero, neg_zero]
  · intro x hx
    exact (hh x (hsub (by rwa [mem_closedBall, dist_eq_norm]))).2.1
  · intro x ζ hx hζ y τ
    obtain ⟨e1, e2, e3⟩ := hh x (hsub (by rwa [mem_closedBall, dist_eq_norm]))
    have key : ∀ w : W, m (x - y) + τ • w = 0 ↔ x = y + τ • -ms w := by
      intro w
      constructor
      · intro h
        have : x - y = m.symm (-(τ • w)) := by
          rw [← eq_neg_of_add_eq_zero_left h, m.symm_apply_apply]
        rw [map_neg, map_smul] at this
        rw [smul_neg]
        show x = y + -(τ • m.symm w)
        rw [← this]
        abel
      · intro h
        have : x - y = -(τ • m.symm w) := by
          have e : τ • -ms w = -(τ • m.symm w) := by rw [smul_neg]; rfl
          rw [h, e]
          abel
        rw [this, map_neg, map_smul, m.apply_symm_apply]
        abel
    constructor
    · rintro ⟨a1, a2⟩
      have e4 := e3 ζ hζ a2
      subst e4
      exact ⟨(key _).1 a1, rfl⟩
    · rintro ⟨a1, rfl⟩
      exact ⟨(key _).2 a1, e1⟩
  · have hi : HasStrictFDerivAt (fun x => (x, h x)) ((ContinuousLinearMap.id ℝ X).prod h') x0 :=
      (hasStrictFDerivAt_id x0).prodMk hh'
    have hf2 : HasStrictFDerivAt f f' (x0, h x0) := by rwa [h0]
    have hc : HasStrictFDerivAt (fun x => f (x, h x))
        (f'.comp ((ContinuousLinearMap.id ℝ X).prod h')) x0 :=
      HasStrictFDerivAt.comp (g := f) (f := fun x => (x, h x)) x0 hf2 hi
    refine ⟨-(ms.comp (f'.comp ((ContinuousLinearMap.id ℝ X).prod h'))),
      (ms.hasStrictFDerivAt.comp x0 hc).neg, fun a => ⟨h' a, ?_, hg' a⟩⟩
    show m (-(m.symm (f' (a, h' a)))) + f' (a, h' a) = 0
    rw [map_neg, m.apply_symm_apply, neg_add_cancel]

end Facets

section Steps

variable {X : Type} [NormedAddCommGroup X] [NormedSpace ℝ X] [CompleteSpace X]

/-- The equation of an implicit step for `x' = Ψ x` with a short step has exactly one solution near
a steady state. -/
theorem step_solution {Ψ : X → X} {x0 : X} {L : NNReal} {r : ℝ}
    (hΨ : LipschitzOnWith L Ψ (closedBall x0 r)) (h0 : Ψ x0 = 0) {τ : ℝ} (hτ : 0 ≤ τ)
    (hL : τ * L ≤ 1 / 2) {y : X} (hy : ‖y - x0‖ ≤ r / 2) :
    ∃ x, ‖x - x0‖ ≤ r ∧ x = y + τ • Ψ x ∧ (∀ x', ‖x' - x0‖ ≤ r → x' = y + τ • Ψ x' → x' = x) ∧
      ‖x - y‖ ≤ τ * L * ‖x - x0‖ := by
  have hr : 0 ≤ r := by
    have := norm_nonneg (y - x0)
    linarith
  have hx0 : x0 ∈ closedBall x0 r := mem_closedBall_self hr
  have lip : ∀ a b, ‖a - x0‖ ≤ r → ‖b - x0‖ ≤ r → ‖Ψ a - Ψ b‖ ≤ L * ‖a - b‖ := by
    intro a b ha hb
    have := hΨ.dist_le_mul a (by rwa [mem_closedBall, dist_eq_norm]) b
      (by rwa [mem_closedBall, dist_eq_norm])
    rwa [dist_eq_norm, dist_eq_norm] at this
  let f : X → X := fun x => y + τ • Ψ x
  have hf : ∀ a b, ‖a - x0‖ ≤ r → ‖b - x0‖ ≤ r → ‖f a - f b‖ ≤ 1 / 2 * ‖a - b‖ := by
    intro a b ha hb
    have e : f a - f b = τ • (Ψ a - Ψ b) := by simp only [f, smul_sub]; abel
    rw [e, norm_smul, Real.norm_of_nonneg hτ]
    calc τ * ‖Ψ a - Ψ b‖ ≤ τ * (L * ‖a - b‖) := mul_le_mul_of_nonneg_left (lip a b ha hb) hτ
      _ = τ * L * ‖a - b‖ := by ring
      _ ≤ 1 / 2 * ‖a - b‖ := mul_le_mul_of_nonneg_right hL (norm_nonneg _)
  have hmaps : Set.MapsTo f (closedBall x0 r) (closedBall x0 r) := by
    intro a ha
    rw [mem_closedBall, dist_eq_norm] at ha ⊢
    have h1 := hf a x0 ha (by simpa using hr)
    have h2 : f x0 = y := by simp [f, h0]
    rw [h2] at h1
    calc ‖f a - x0‖ = ‖(f a - y) + (y - x0)‖ := by rw [sub_add_sub_cancel]
      _ ≤ ‖f a - y‖ + ‖y - x0‖ := norm_add_le _ _
      _ ≤ 1 / 2 * r + r / 2 := add_le_add (h1.trans (by linarith)) hy
      _ = r := by ring
  have hcon : ContractingWith (1 / 2) (hmaps.restrict f _ _) := by
    refine ⟨by rw [← NNReal.coe_lt_coe]; norm_num, LipschitzWith.of_dist_le_mul ?_⟩
    rintro ⟨a, ha⟩ ⟨b, hb⟩
    rw [mem_closedBall, dist_eq_norm] at ha hb
    simp only [Subtype.dist_eq, Set.MapsTo.val_restrict_apply, dist_eq_norm]
    simpa using hf a b ha hb
  obtain ⟨x, hx, hfx, -⟩ := hcon.exists_fixedPoint' isClosed_closedBall.isComplete hmaps hx0
    (edist_ne_top _ _)
  rw [mem_closedBall, dist_eq_norm] at hx
  have hfx' : x = y + τ • Ψ x := hfx.symm
  refine ⟨x, hx, hfx', fun x' hx' h => ?_, ?_⟩
  · have := hf x' x hx' hx
    rw [show f x' = x' from h.symm, show f x = x from hfx] at this
    have h1 : ‖x' - x‖ = 0 := by
      have := norm_nonneg (x' - x)
      linarith
    exact sub_eq_zero.1 (norm_eq_zero.1 h1)
  · have e : x - y = τ • (Ψ x - Ψ x0) := by
      rw [h0, sub_zero]
      conv_lhs => rw [hfx']
      abel
    rw [e, norm_smul, Real.norm_of_nonneg hτ, mul_assoc]
    exact mul_le_mul_of_nonneg_left (lip x x0 hx (by simpa using hr)) hτ

/-- The state the scheme extrapolates to. -/
def Scheme.extrapolate (s : Scheme) (cur prev : X) : X :=
  match s with
  | .implicitEuler => cur
  | .bdf2 => (4 / 3 : ℝ) • cur - (1 / 3 : ℝ) • prev

theorem extrapolate_sub (s : Scheme) (cur prev x0 : X) :
    ‖s.extrapolate cur prev - x0‖ ≤ ‖cur - x0‖ + 1 / 3 * ‖cur - prev‖ ∧
    ‖s.extrapolate cur prev - cur‖ ≤ 1 / 3 * ‖cur - prev‖ := by
  have h2 : ‖s.extrapolate cur prev - cur‖ ≤ 1 / 3 * ‖cur - prev‖ := by
    cases s
    · simp [Scheme.extrapolate]
    · have e : (Scheme.bdf2.extrapolate cur prev) - cur = (1 / 3 : ℝ) • (cur - prev) := by
        simp only [Scheme.extrapolate]
        module
      rw [e, norm_smul]
      norm_num
  refine ⟨?_, h2⟩
  calc ‖s.extrapolate cur prev - x0‖ = ‖(s.extrapolate cur prev - cur) + (cur - x0)‖ := by
        rw [sub_add_sub_cancel]
    _ ≤ _ := norm_add_le _ _
    _ ≤ _ := by linarith

/-- The equation of an implicit step for `x' = Ψ x`. -/
def implicitStep (Ψ : X → X) (s : Scheme) (dt : ℝ) {T : Type} (_ : T) (x cur prev : X) : Prop :=
  x = s.extrapolate cur prev + (dt / s.weight) • Ψ x

theorem steps_solution {Ψ : X → X} {x0 : X} {L : NNReal} {r : ℝ}
    (hΨ : LipschitzOnWith L Ψ (closedBall x0 r)) (h0 : Ψ x0 = 0) (s : Scheme) {dt : ℝ} (hdt : 0 ≤ dt)
    (hL : dt * L ≤ 1 / 4) {T : Type} (ts : List T) : ∀ cur prev : X,
    (‖cur - x0‖ + 1 / 2 * ‖cur - prev‖) * Real.exp (4 * L * dt * ts.length) ≤ r / 2 →
    ∃ xs : List X, _root_.Spec.Satisfies (implicitStep Ψ s dt) prev cur ts xs ∧
      (∀ x ∈ xs, ‖x - x0‖ ≤
        (‖cur - x0‖ + 1 / 2 * ‖cur - prev‖) * Real.exp (4 * L * dt * ts.length)) ∧
      ∀ ys : List X, (∀ y ∈ ys, ‖y - x0‖ ≤ r) →
        _root_.Spec.Satisfies (implicitStep Ψ s dt) prev cur ts ys → ys = xs := by
  induction ts with
  | nil =>
    intro cur prev _
    refine ⟨[], trivial, by simp, fun ys _ hy => ?_⟩
    cases ys with
    | nil => rfl
    | cons y ys => exact absurd hy (by simp [_root_.Spec.Satisfies])
  | cons t ts ih =>
    intro cur prev hE
    obtain ⟨E, hE'⟩ : ∃ E, E = ‖cur - x0‖ + 1 / 2 * ‖cur - prev‖ := ⟨_, rfl⟩
    rw [← hE'] at hE ⊢
    have hE0 : 0 ≤ E := by rw [hE']; positivity
    have hL0 : (0 : ℝ) ≤ L := L.2
    have hw := s.weight_pos
    have hw1 : 1 ≤ s.weight := by cases s <;> norm_num [Scheme.weight]
    have hτ : 0 ≤ dt / s.weight := div_nonneg hdt hw.le
    have hτ1 : dt / s.weight ≤ dt := div_le_self hdt hw1
    have hτL : dt / s.weight * L ≤ dt * L := mul_le_mul_of_nonneg_right hτ1 hL0
    have hexp : 1 ≤ Real.exp (4 * L * dt * (t :: ts).length) := Real.one_le_exp (by positivity)
    obtain ⟨e1, e2⟩ := extrapolate_sub s cur prev x0
    have hn := norm_nonneg (cur - prev)
    have hEr : E ≤ r / 2 := (le_mul_of_one_le_right hE0 hexp).trans hE
    obtain ⟨x, hx, hstep, huniq, hxy⟩ := step_solution hΨ h0 hτ (by linarith)
      (y := s.extrapolate cur prev) (by linarith)
    have hx0 := norm_nonneg (x - x0)
    have hxy' : ‖x - s.extrapolate cur prev‖ ≤ dt * L * ‖x - x0‖ :=
      hxy.trans (mul_le_mul_of_nonneg_right hτL hx0)
    have hd : ‖x - cur‖ ≤ dt * L * ‖x - x0‖ + 1 / 3 * ‖cur - prev‖ := by
      calc ‖x - cur‖ = ‖(x - s.extrapolate cur prev) + (s.extrapolate cur prev - cur)‖ := by
            rw [sub_add_sub_cancel]
        _ ≤ _ := norm_add_le _ _
        _ ≤ _ := add_le_add hxy' e2
    have hxc : ‖x - x0‖ ≤ ‖x - cur‖ + ‖cur - x0‖ := by
      calc ‖x - x0‖ = ‖(x - cur) + (cur - x0)‖ := by rw [sub_add_sub_cancel]
        _ ≤ _ := norm_add_le _ _
    obtain ⟨E1, hE1⟩ : ∃ E1, E1 = ‖x - x0‖ + 1 / 2 * ‖x - cur‖ := ⟨_, rfl⟩
    have hE10 : 0 ≤ E1 := by rw [hE1]; positivity
    have hxE1 : ‖x - x0‖ ≤ E1 := by
      rw [hE1]
      have := norm_nonneg (x - cur)
      linarith
    have a1 : dt * L * ‖x - x0‖ ≤ dt * L * E1 := mul_le_mul_of_nonneg_left hxE1 (by positivity)
    have a2 : E1 ≤ E + 3 / 2 * (dt * L * E1) := by
      rw [hE']
      nlinarith
    have a3 : E1 ≤ E * (1 + 4 * (dt * L)) := by
      have h1 : 0 ≤ dt * L := by positivity
      have h2 : E1 * (1 - 3 / 2 * (dt * L)) ≤ E := by linarith
      have h3 : 1 ≤ (1 - 3 / 2 * (dt * L)) * (1 + 4 * (dt * L)) := by nlinarith
      calc E1 ≤ E1 * ((1 - 3 / 2 * (dt * L)) * (1 + 4 * (dt * L))) :=
            le_mul_of_one_le_right hE10 h3
        _ = E1 * (1 - 3 / 2 * (dt * L)) * (1 + 4 * (dt * L)) := by ring
        _ ≤ E * (1 + 4 * (dt * L)) := mul_le_mul_of_nonneg_right h2 (by linarith)
    have a4 : E1 * Real.exp (4 * L * dt * ts.length)
        ≤ E * Real.exp (4 * L * dt * (t :: ts).length) := by
      have h1 : 1 + 4 * (dt * L) ≤ Real.exp (4 * L * dt) := by
        have := Real.add_one_le_exp (4 * L * dt : ℝ)
        linarith
      calc E1 * Real.exp (4 * L * dt * ts.length)
          ≤ E * Real.exp (4 * L * dt) * Real.exp (4 * L * dt * ts.length) :=
            mul_le_mul_of_nonneg_right (a3.trans (mul_le_mul_of_nonneg_left h1 hE0))
              (Real.exp_pos _).le
        _ = E * Real.exp (4 * L * dt * (t :: ts).length) := by
            rw [mul_assoc, ← Real.exp_add]
            congr 2
            push_cast [List.length_cons]
            ring
    obtain ⟨xs, h1, h2, h3⟩ := ih x cur (by rw [← hE1]; exact a4.trans hE)
    rw [← hE1] at h2
    refine ⟨x :: xs, ⟨hstep, h1⟩, ?_, ?_⟩
    · intro y hy
      rcases List.mem_cons.1 hy with rfl | hy
      · refine hxE1.trans (le_trans ?_ a4)
        exact le_mul_of_one_le_right hE10 (Real.one_le_exp (by positivity))
      · exact (h2 y hy).trans a4
    · intro ys hys hsat
      cases ys with
      | nil => exact absurd hsat (by simp [_root_.Spec.Satisfies])
      | cons y ys =>
        obtain ⟨s1, s2⟩ := hsat
        obtain rfl := huniq y (hys y (by simp)) s1
        rw [h3 ys (fun z hz => hys z (by simp [hz])) s2]

end Steps

end Dream
