import Verif.Lemmas.SemiNewton
import Mathlib.Analysis.Calculus.InverseFunctionTheorem.FDeriv

/-!
# Newton's method in short implicit steps near a steady state
-/

noncomputable section

namespace Dream

open Metric Filter Topology

variable {ι Z : Type} [Fintype ι] [NormedAddCommGroup Z] [NormedSpace ℝ Z] [FiniteDimensional ℝ Z]

/-- The equations of a step from the state `a`, multiplied with the step where a time derivative
occurs. -/
def stepMap (S : (ι → ℝ) × Z → (ι → ℝ) × Z) (M : (ι → ℝ) →L[ℝ] (ι → ℝ)) (w dt : ℝ) (a : ι → ℝ)
    (x : (ι → ℝ) × Z) : (ι → ℝ) × Z :=
  scaleRows dt (S x) + (w • M (x.1 - a), 0)

/-- Their matrix. -/
def stepMat (S' : (ι → ℝ) × Z → (ι → ℝ) × Z →L[ℝ] (ι → ℝ) × Z) (M : (ι → ℝ) →L[ℝ] (ι → ℝ))
    (w dt : ℝ) (x : (ι → ℝ) × Z) : (ι → ℝ) × Z →L[ℝ] (ι → ℝ) × Z :=
  (scaleRows dt).comp (S' x) + w • (ContinuousLinearMap.inl ℝ (ι → ℝ) Z).comp
    (M.comp (ContinuousLinearMap.fst ℝ (ι → ℝ) Z))

theorem rows_split (dt : ℝ) (y : (ι → ℝ) × Z) : scaleRows dt y = scaleRows 0 y + dt • timeRows y := by
  simp only [scaleRows_apply, timeRows_apply, zero_smul, Prod.smul_mk, smul_zero, Prod.mk_add_mk,
    zero_add, add_zero]

theorem rows_zero_norm (v : (ι → ℝ) × Z) : ‖scaleRows 0 v‖ ≤ ‖v‖ := by
  rw [scaleRows_apply, zero_smul, Prod.norm_mk, norm_zero, max_eq_right (norm_nonneg _)]
  exact norm_snd_le v

theorem time_rows_norm (v : (ι → ℝ) × Z) : ‖timeRows v‖ ≤ ‖v‖ := by
  rw [timeRows_apply, Prod.norm_mk, norm_zero, max_eq_left (norm_nonneg _)]
  exact norm_fst_le v

theorem rows_norm {dt : ℝ} (h0 : 0 ≤ dt) (u v : (ι → ℝ) × Z) :
    ‖scaleRows dt u - scaleRows 0 v‖ ≤ ‖u - v‖ + dt * ‖u‖ := by
  have e : scaleRows dt u - scaleRows 0 v = scaleRows 0 (u - v) + dt • timeRows u := by
    rw [rows_split, map_sub]; abel
  rw [e]
  refine (norm_add_le _ _).trans (add_le_add (rows_zero_norm _) ?_)
  rw [norm_smul, Real.norm_of_nonneg h0]
  exact mul_le_mul_of_nonneg_left (time_rows_norm _) h0

/-- For short steps the equations are almost linear, with a linear part that does not depend on
the step or the state it starts from. -/
theorem exists_nearly {S : (ι → ℝ) × Z → (ι → ℝ) × Z} {S₀ : (ι → ℝ) × Z →L[ℝ] (ι → ℝ) × Z}
    {S' : (ι → ℝ) × Z → (ι → ℝ) × Z →L[ℝ] (ι → ℝ) × Z} {x0 : (ι → ℝ) × Z}
    (hS : HasStrictFDerivAt S S₀ x0) (hS' : Tendsto S' (𝓝 x0) (𝓝 S₀)) (h0 : S x0 = 0)
    {M : (ι → ℝ) →L[ℝ] (ι → ℝ)} (hM : Function.Injective M) {w : ℝ} (hw : 0 < w)
    (hreg : ∀ ζ : Z, (S₀ (0, ζ)).2 = 0 → ζ = 0) :
    ∃ A, ∃ β > 0, ∀ κ > 0, ∃ R > 0, ∃ dt₀ > 0,
      (∀ dt, 0 ≤ dt → dt ≤ dt₀ → ∀ a, NearlyLinear (stepMap S M w dt a) (stepMat S' M w dt) A x0 β κ R) ∧
      ∀ x, ‖x - x0‖ ≤ R → ‖S x‖ ≤ (‖S₀‖ + κ) * ‖x - x0‖ := by
  let Bm : (ι → ℝ) × Z →L[ℝ] (ι → ℝ) × Z := w • (ContinuousLinearMap.inl ℝ (ι → ℝ) Z).comp
    (M.comp (ContinuousLinearMap.fst ℝ (ι → ℝ) Z))
  let A : (ι → ℝ) × Z →L[ℝ] (ι → ℝ) × Z := (scaleRows 0).comp S₀ + Bm
  have hB : ∀ x : (ι → ℝ) × Z, Bm x = (w • M x.1, 0) := fun x => by simp [Bm]
  have hinj : Function.Injective A := (injective_iff_map_eq_zero _).2 fun v hv => by
    simp only [A, ContinuousLinearMap.add_apply, ContinuousLinearMap.comp_apply, scaleRows_apply, hB,
      zero_smul, Prod.mk_add_mk, zero_add, add_zero, Prod.mk_eq_zero] at hv
    have h1 : v.1 = 0 := by
      apply hM
      rw [map_zero]
      exact (smul_eq_zero.1 hv.1).resolve_left hw.ne'
    have h2 : v.2 = 0 := hreg _ (by
      rw [← h1]; exact hv.2)
    exact Prod.ext h1 h2
  obtain ⟨β, hβ, hanti⟩ := LinearMap.exists_antilipschitzWith (A : (ι → ℝ) × Z →ₗ[ℝ] (ι → ℝ) × Z)
    (LinearMap.ker_eq_bot.2 hinj)
  refine ⟨A, β, hβ, fun κ hκ => ?_⟩
  obtain ⟨s, hs, hlin⟩ := hS.approximates_deriv_on_nhds (c := ⟨κ / 2, by positivity⟩)
    (Or.inr (show (0 : ℝ) < κ / 2 by positivity))
  have hs' : ∀ᶠ x in 𝓝 x0, ‖S' x - S₀‖ < κ / 2 := by
    have : Tendsto (fun x => ‖S' x - S₀‖) (𝓝 x0) (𝓝 ‖S₀ - S₀‖) := (hS'.sub_const S₀).norm
    rw [sub_self, norm_zero] at this
    exact this.eventually_lt_const (by positivity)
  obtain ⟨R, hR, hball⟩ := Metric.nhds_basis_closedBall.mem_iff.1 (Filter.inter_mem hs hs')
  have hsub : ∀ x, ‖x - x0‖ ≤ R → x ∈ s ∧ ‖S' x - S₀‖ < κ / 2 := fun x hx =>
    hball (mem_closedBall_iff_norm.2 hx)
  have happ : ∀ x y, ‖x - x0‖ ≤ R → ‖y - x0‖ ≤ R →
      ‖S x - S y - S₀ (x - y)‖ ≤ κ / 2 * ‖x - y‖ := fun x y hx hy =>
    hlin x (hsub x hx).1 y (hsub y hy).1
  have hlip : ∀ x y, ‖x - x0‖ ≤ R → ‖y - x0‖ ≤ R → ‖S x - S y‖ ≤ (‖S₀‖ + κ) * ‖x - y‖ := by
    intro x y hx hy
    have e : S x - S y = S₀ (x - y) + (S x - S y - S₀ (x - y)) := by abel
    rw [e]
    refine (norm_add_le _ _).trans ((add_le_add (S₀.le_opNorm _) (happ x y hx hy)).trans ?_)
    have := norm_nonneg (x - y)
    nlinarith
  obtain ⟨dt₀, hdt₀, hsmall⟩ := small_enough (a := ‖S₀‖ + κ) (b := κ / 2) (by positivity) (by positivity)
  refine ⟨R, hR, dt₀, hdt₀, fun dt hd0 hd a => ⟨fun v => ?_, fun x y hx hy => ?_, fun x hx => ?_⟩,
    fun x hx => ?_⟩
  · exact ContinuousLinearMap.bound_of_antilipschitz A hanti v
  · have e : stepMap S M w dt a x - stepMap S M w dt a y - A (x - y)
        = scaleRows dt (S x - S y) - scaleRows 0 (S₀ (x - y)) := by
      have e1 : Bm (x - y) = (w • M (x.1 - a), 0) - (w • M (y.1 - a), 0) := by
        simp only [hB, Prod.mk_sub_mk, sub_zero, Prod.fst_sub, map_sub, smul_sub,
          sub_sub_sub_cancel_right]
      simp only [stepMap, A, ContinuousLinearMap.add_apply, ContinuousLinearMap.comp_apply]
      rw [e1, map_sub (scaleRows dt) (S x) (S y)]
      abel
    rw [e]
    refine (rows_norm hd0 _ _).trans ?_
    have h1 := happ x y hx hy
    have h2 := mul_le_mul_of_nonneg_left (hlip x y hx hy) hd0
    have h3 := mul_le_mul_of_nonneg_right (hsmall dt hd0 hd) (norm_nonneg (x - y))
    linarith
  · refine ContinuousLinearMap.opNorm_le_bound _ hκ.le fun v => ?_
    have e : (stepMat S' M w dt x - A) v = scaleRows dt (S' x v) - scaleRows 0 (S₀ v) := by
      simp only [stepMat, A, Bm, ContinuousLinearMap.sub_apply, ContinuousLinearMap.add_apply,
        ContinuousLinearMap.comp_apply]
      abel
    rw [e]
    refine (rows_norm hd0 _ _).trans ?_
    have h1 : ‖S' x v - S₀ v‖ ≤ κ / 2 * ‖v‖ := by
      rw [← ContinuousLinearMap.sub_apply]
      exact (ContinuousLinearMap.le_opNorm _ _).trans
        (mul_le_mul_of_nonneg_right (hsub x hx).2.le (norm_nonneg _))
    have h2 : ‖S' x v‖ ≤ (‖S₀‖ + κ) * ‖v‖ := by
      have e : S' x v = S₀ v + (S' x v - S₀ v) := by abel
      rw [e]
      refine (norm_add_le _ _).trans ((add_le_add (S₀.le_opNorm _) h1).trans ?_)
      have := norm_nonneg v
      nlinarith
    have h3 := mul_le_mul_of_nonneg_left h2 hd0
    have h4 := mul_le_mul_of_nonneg_right (hsmall dt hd0 hd) (norm_nonneg v)
    linarith
  · have := hlip x x0 hx (by rw [sub_self, norm_zero]; exact hR.le)
    rwa [h0, sub_zero] at this

/-- The growth of the distance from the steady state in a step, with the error of Newton's method:
`e` is the distance of the state, `d` the last increment, `f` the defect of the unknowns without
time derivative. -/
theorem energy_step {e d f e' d' f' K L q ω dt : ℝ} (he : 0 ≤ e) (hd : 0 ≤ d) (hf : 0 ≤ f)
    (hK : 0 ≤ K) (hL : 0 ≤ L) (hdt : 0 ≤ dt) (hq0 : 0 ≤ q) (h0 : 0 < ω) (h1 : ω ≤ 1)
    (hq : q ≤ ω / (32 * (1 + K)))
    (hd' : d' ≤ (d / 3 + dt * L * (e + d)) + q * (f + K * (d / 3 + dt * L * (e + d))))
    (he' : e' ≤ e + d')
    (hf' : f' ≤ (1 - ω) * f + 2 * K * (d / 3 + dt * L * (e + d))
      + (1 + K) * (q * (f + K * (d / 3 + dt * L * (e + d))))) :
    e' + 2 * d' + f' / (8 * (1 + K)) ≤ (1 + 4 * L * dt) * (e + 2 * d + f / (8 * (1 + K))) := by
  have hK1 : 0 < 1 + K := by linarith
  obtain ⟨u, hu⟩ : ∃ u, u = d / 3 + dt * L * (e + d) := ⟨_, rfl⟩
  rw [← hu] at hd' hf'
  have hdL : 0 ≤ dt * L * (e + d) := by positivity
  have hu0 : 0 ≤ u := by rw [hu]; positivity
  have hq' : q * (32 * (1 + K)) ≤ ω := by rwa [le_div_iff₀ (by positivity)] at hq
  have hqK : q * K ≤ 1 / 32 := by nlinarith
  have hqK' : q * (1 + K) ≤ 1 / 32 := by nlinarith
  obtain ⟨B, hB⟩ : ∃ B, B = 1 / (8 * (1 + K)) := ⟨_, rfl⟩
  have hB0 : 0 < B := by rw [hB]; positivity
  have hBK : B * (1 + K) = 1 / 8 := by rw [hB]; field_simp
  have ef : ∀ y : ℝ, y / (8 * (1 + K)) = B * y := fun y => by rw [hB]; ring
  rw [ef, ef]
  have hqB : q ≤ B * ω / 4 := by
    rw [hB]
    refine hq.trans (le_of_eq ?_)
    field_simp
    norm_num
  have g1 : B * f' ≤ B * ((1 - ω) * f + 2 * K * u + (1 + K) * (q * (f + K * u))) :=
    mul_le_mul_of_nonneg_left hf' hB0.le
  have g2 : B * ((1 - ω) * f + 2 * K * u + (1 + K) * (q * (f + K * u)))
      = B * (1 - ω) * f + 2 * (B * K) * u + (B * (1 + K)) * (q * f + q * K * u) := by ring
  have g3 : B * K ≤ 1 / 8 := by nlinarith
  have g4 : B * K * u ≤ 1 / 8 * u := mul_le_mul_of_nonneg_right g3 hu0
  have g5 : q * K * u ≤ 1 / 32 * u := mul_le_mul_of_nonneg_right hqK hu0
  have g6 : q * f ≤ B * ω / 4 * f := mul_le_mul_of_nonneg_right hqB hf
  have g7 : 0 ≤ B * ω * f := by positivity
  rw [g2, hBK] at g1
  have g8 : d' ≤ u + q * f + q * K * u := by
    refine hd'.trans (le_of_eq (by ring))
  have g9 : 0 ≤ B * f := by positivity
  have key : e' + 2 * d' + B * f' ≤ e + B * f + 4 * u := by nlinarith
  refine key.trans ?_
  rw [hu]
  have g10 : 0 ≤ L * dt * (B * f) := by positivity
  have g11 : 0 ≤ L * dt * d := by positivity
  nlinarith

/-- One step of a run with Newton's method. -/
theorem newton_step {S : (ι → ℝ) × Z → (ι → ℝ) × Z} {S₀ : (ι → ℝ) × Z →L[ℝ] (ι → ℝ) × Z}
    {S' : (ι → ℝ) × Z → (ι → ℝ) × Z →L[ℝ] (ι → ℝ) × Z} {x0 : (ι → ℝ) × Z}
    (hS : HasStrictFDerivAt S S₀ x0) (hS' : Tendsto S' (𝓝 x0) (𝓝 S₀)) (h0 : S x0 = 0)
    {M : (ι → ℝ) →L[ℝ] (ι → ℝ)} (hM : Function.Injective M) {w : ℝ} (hw : 0 < w)
    (hreg : ∀ ζ : Z, (S₀ (0, ζ)).2 = 0 → ζ = 0) {ω : ℝ} (hω : 0 < ω) (hω1 : ω ≤ 1) :
    ∃ K ≥ 0, ∃ L ≥ 0, ∃ q ≥ 0, ∃ ρ > 0, ∃ dt₀ > 0, ∃ R > 0, ∃ H : (ι → ℝ) → (ι → ℝ) × Z,
      q ≤ ω / (32 * (1 + K)) ∧ ρ ≤ R ∧
      (∀ a, ‖a - x0.1‖ ≤ ρ → (H a).1 = a ∧ ‖H a - x0‖ ≤ K * ‖a - x0.1‖) ∧
      (∀ a b, ‖a - x0.1‖ ≤ ρ → ‖b - x0.1‖ ≤ ρ → ‖H a - H b‖ ≤ K * ‖a - b‖) ∧
      ∀ dt, 0 < dt → dt ≤ dt₀ →
        (∀ a, ‖a - x0.1‖ ≤ ρ → ∃ z, stepMap S M w dt a z = 0 ∧ ‖z - x0‖ ≤ K * ‖a - x0.1‖ ∧
          (∀ y, ‖y - x0‖ ≤ R → stepMap S M w dt a y = 0 → y = z) ∧
          ‖z.1 - a‖ ≤ dt * L * ‖a - x0.1‖ ∧ (∀ b, ‖b - x0.1‖ ≤ ρ → ‖z - H b‖ ≤ K * ‖z.1 - b‖)) ∧
        ∀ c crit : ℝ, 0 ≤ c → 0 < crit → ∃ m : ℤ, ∀ (N : Newton ((ι → ℝ) × Z) ((ι → ℝ) × Z)) (a : ι → ℝ)
          (G : (ι → ℝ) × Z → (ι → ℝ) × Z) (G' : (ι → ℝ) × Z → (ι → ℝ) × Z →L[ℝ] (ι → ℝ) × Z),
          (∀ x, scaleRows dt (G x) = stepMap S M w dt a x) →
          (∀ x, (scaleRows dt).comp (G' x) = stepMat S' M w dt x) →
          SolvesSystems (N.lin G) G G' c → N.damping = ω → N.crit = crit → m ≤ N.maxIter →
          ‖a - x0.1‖ ≤ ρ → ∀ x, ‖x - x0‖ ≤ ρ → ∀ z, ‖z - x0‖ ≤ K * ‖a - x0.1‖ → G z = 0 →
          (N.solve G x).isConverged = true ∧ (N.solve G x).isNan = false ∧
          ‖(N.solve G x).u - z‖ ≤ (1 - ω / 2) ^ (N.solve G x).solves * ‖x - z‖ ∧
          ∃ θ, 0 ≤ θ ∧ θ ≤ 1 - ω ∧ ‖(N.solve G x).u - z - θ • (x - z)‖ ≤ q * ‖x - z‖ := by
  obtain ⟨A, β, hβ, hA⟩ := exists_nearly hS hS' h0 hM hw hreg
  obtain ⟨K, hK⟩ : ∃ K, K = 2 * β * (w * ‖M‖) := ⟨_, rfl⟩
  have hK0 : 0 ≤ K := by rw [hK]; positivity
  obtain ⟨q, hq⟩ : ∃ q, q = ω / (32 * (1 + K)) := ⟨_, rfl⟩
  have hq0 : 0 < q := by rw [hq]; positivity
  have hq1 : q ≤ 1 / 2 := by
    rw [hq, div_le_iff₀ (by positivity)]
    nlinarith
  obtain ⟨κ, hκ⟩ : ∃ κ, κ = q / (4 * β) := ⟨_, rfl⟩
  have hκ0 : 0 < κ := by rw [hκ]; positivity
  have hβκ : 4 * (β * κ) = q := by rw [hκ]; field_simp
  have hβκ1 : 4 * (β * κ) ≤ 1 := by rw [hβκ]; linarith
  obtain ⟨R, hR, dt₀, hdt₀, hnear, hSb⟩ := hA κ hκ0
  obtain ⟨μ, hμ, hanti⟩ := LinearMap.exists_antilipschitzWith (M : (ι → ℝ) →ₗ[ℝ] (ι → ℝ))
    (LinearMap.ker_eq_bot.2 hM)
  have hMl : ∀ v, ‖v‖ ≤ μ * ‖M v‖ := fun v => ContinuousLinearMap.bound_of_antilipschitz M hanti v
  obtain ⟨L, hL⟩ : ∃ L, L = μ / w * ((‖S₀‖ + κ) * K) := ⟨_, rfl⟩
  have hL0 : 0 ≤ L := by rw [hL]; positivity
  obtain ⟨ρ, hρ⟩ : ∃ ρ, ρ = R / (4 * (1 + K)) := ⟨_, rfl⟩
  have hρ0 : 0 < ρ := by rw [hρ]; positivity
  have hρR : (1 + K) * ρ = R / 4 := by rw [hρ]; field_simp
  have hKρ : 0 ≤ K * ρ := by positivity
  have hx0 : ‖x0 - x0‖ ≤ R := by rw [sub_self, norm_zero]; exact hR.le
  -- the residual in the steady state
  have hF0 : ∀ dt a, 2 * β * ‖stepMap S M w dt a x0‖ ≤ K * ‖a - x0.1‖ := by
    intro dt a
    have e : stepMap S M w dt a x0 = (w • M (x0.1 - a), 0) := by
      rw [stepMap, h0, map_zero, zero_add]
    rw [e, Prod.norm_mk, norm_zero, max_eq_left (norm_nonneg _), norm_smul, Real.norm_of_nonneg hw.le]
    have := M.le_opNorm (x0.1 - a)
    rw [norm_sub_rev x0.1 a] at this
    calc 2 * β * (w * ‖M (x0.1 - a)‖) ≤ 2 * β * (w * (‖M‖ * ‖a - x0.1‖)) := by gcongr
      _ = _ := by rw [hK]; ring
  have hsol : ∀ dt, 0 ≤ dt → dt ≤ dt₀ → ∀ a, ‖a - x0.1‖ ≤ ρ →
      ∃ z, stepMap S M w dt a z = 0 ∧ ‖z - x0‖ ≤ K * ‖a - x0.1‖ := by
    intro dt hd hd' a ha
    obtain ⟨z, z1, z2⟩ := (hnear dt hd hd' a).solution hβ hβκ1 ((hF0 dt a).trans (by nlinarith))
    exact ⟨z, z1, z2.trans (hF0 dt a)⟩
  have hKR : ∀ a : ι → ℝ, ‖a - x0.1‖ ≤ ρ → K * ‖a - x0.1‖ ≤ R / 4 := fun a ha =>
    (mul_le_mul_of_nonneg_left ha hK0).trans (by linarith)
  -- the unknowns without time derivative that belong to a state
  obtain ⟨H, hH⟩ : ∃ H : (ι → ℝ) → (ι → ℝ) × Z, ∀ a, ‖a - x0.1‖ ≤ ρ →
      stepMap S M w 0 a (H a) = 0 ∧ ‖H a - x0‖ ≤ K * ‖a - x0.1‖ := by
    classical
    refine ⟨fun a => if h : ‖a - x0.1‖ ≤ ρ then (hsol 0 le_rfl hdt₀.le a h).choose else x0,
      fun a h => ?_⟩
    simp only [h, dif_pos]
    exact (hsol 0 le_rfl hdt₀.le a h).choose_spec
  have hfst : ∀ a z, stepMap S M w 0 a z = 0 → z.1 = a := by
    intro a z hz
    have := congrArg Prod.fst hz
    simp only [stepMap, scaleRows_apply, zero_smul, Prod.mk_add_mk, zero_add, Prod.fst_zero] at this
    have h2 := hM (((smul_eq_zero.1 this).resolve_left hw.ne').trans (map_zero M).symm)
    exact sub_eq_zero.1 h2
  have hsnd : ∀ dt a z, stepMap S M w dt a z = 0 → (S z).2 = 0 := by
    intro dt a z hz
    have := congrArg Prod.snd hz
    simpa [stepMap, scaleRows_apply] using this
  -- the equations without time derivative
  have hgraph : ∀ y, ‖y - x0‖ ≤ R → (S y).2 = 0 → ∀ b, ‖b - x0.1‖ ≤ ρ → ‖y - H b‖ ≤ K * ‖y.1 - b‖ := by
    intro y hy hy2 b hb
    have h1 := (hnear 0 le_rfl hdt₀.le b).lower hβ hβκ1 hy
      ((hH b hb).2.trans ((hKR b hb).trans (by linarith)))
    rw [(hH b hb).1, sub_zero] at h1
    have e : stepMap S M w 0 b y = (w • M (y.1 - b), 0) := by
      rw [stepMap, scaleRows_apply, zero_smul, hy2]
      exact zero_add _
    have e2 : ‖((w • M (y.1 - b), 0) : (ι → ℝ) × Z)‖ = w * ‖M (y.1 - b)‖ := by
      rw [Prod.norm_mk, norm_zero, max_eq_left (norm_nonneg _), norm_smul, Real.norm_of_nonneg hw.le]
    rw [e, e2] at h1
    have := M.le_opNorm (y.1 - b)
    calc ‖y - H b‖ ≤ 2 * β * (w * ‖M (y.1 - b)‖) := h1
      _ ≤ 2 * β * (w * (‖M‖ * ‖y.1 - b‖)) := by gcongr
      _ = _ := by rw [hK]; ring
  refine ⟨K, hK0, L, hL0, q, hq0.le, ρ, hρ0, dt₀, hdt₀, R, hR, H, hq.le, by linarith, fun a ha =>
    ⟨hfst a _ (hH a ha).1, (hH a ha).2⟩, fun a b ha hb => ?_, fun dt hd hd' => ⟨fun a ha => ?_, ?_⟩⟩
  · have := hgraph (H a) ((hH a ha).2.trans ((hKR a ha).trans (by linarith)))
      (hsnd _ _ _ (hH a ha).1) b hb
    rwa [hfst a _ (hH a ha).1] at this
  · obtain ⟨z, z1, z2⟩ := hsol dt hd.le hd' a ha
    have hzR : ‖z - x0‖ ≤ R := z2.trans ((hKR a ha).trans (by linarith))
    refine ⟨z, z1, z2, fun y hy hy0 => ?_, ?_, fun b hb => hgraph z hzR (hsnd _ _ _ z1) b hb⟩
    · have := (hnear dt hd.le hd' a).lower hβ hβκ1 hy hzR
      rw [hy0, z1, sub_zero, norm_zero, mul_zero] at this
      exact sub_eq_zero.1 (norm_le_zero_iff.1 this)
    · have h1 := congrArg Prod.fst z1
      simp only [stepMap, scaleRows_apply, Prod.mk_add_mk, Prod.fst_zero] at h1
      have h2 : w • M (z.1 - a) = -(dt • (S z).1) := by
        rw [eq_neg_iff_add_eq_zero, add_comm]; exact h1
      have h3 : w * ‖M (z.1 - a)‖ = dt * ‖(S z).1‖ := by
        have := congrArg norm h2
        rwa [norm_neg, norm_smul, norm_smul, Real.norm_of_nonneg hw.le, Real.norm_of_nonneg hd.le] at this
      have h4 : ‖(S z).1‖ ≤ (‖S₀‖ + κ) * (K * ‖a - x0.1‖) :=
        (norm_fst_le _).trans ((hSb z hzR).trans (by gcongr))
      calc ‖z.1 - a‖ ≤ μ * ‖M (z.1 - a)‖ := hMl _
        _ = μ / w * (w * ‖M (z.1 - a)‖) := by field_simp
        _ = μ / w * (dt * ‖(S z).1‖) := by rw [h3]
        _ ≤ μ / w * (dt * ((‖S₀‖ + κ) * (K * ‖a - x0.1‖))) := by gcongr
        _ = _ := by rw [hL]; ring
  · intro c crit hc hcrit
    have hlim : Tendsto (fun m : ℕ => (c * ‖scaleRows (ι := ι) (Z := Z) dt⁻¹‖) * (2 * (‖A‖ + κ))
        * ((1 - ω / 2) ^ m * (R / 2)) ^ 2) atTop (𝓝 0) := by
      have := (tendsto_pow_atTop_nhds_zero_of_lt_one (r := (1 - ω / 2) ^ 2) (sq_nonneg _)
        (by nlinarith)).const_mul
        ((c * ‖scaleRows (ι := ι) (Z := Z) dt⁻¹‖) * (2 * (‖A‖ + κ)) * (R / 2) ^ 2)
      rw [mul_zero] at this
      refine this.congr fun m => ?_
      rw [mul_pow, ← pow_mul, ← pow_mul, mul_comm 2 m]
      ring
    obtain ⟨m, hm⟩ := (hlim.eventually (gt_mem_nhds hcrit)).exists
    refine ⟨m + 1, fun N a G G' hG hG' hN hd1 hcr hmax ha x hx z hz hz0 => ?_⟩
    subst hd1 hcr
    let N' : Newton ((ι → ℝ) × Z) ((ι → ℝ) × Z) := { N with lin := fun _ => N.lin G }
    have hN' := scaled_systems hd.ne' hc hN
    simp only [hG, hG'] at hN'
    have hzR : ‖z - x0‖ ≤ R / 4 := hz.trans (hKR a ha)
    have hxz : ‖x - z‖ ≤ R / 2 := by
      have := norm_sub_le (x - x0) (z - x0)
      rw [sub_sub_sub_cancel_right] at this
      have : ρ ≤ R / 4 := by linarith
      linarith
    obtain ⟨a1, a2, a3, a4, a5⟩ := (hnear dt hd.le hd' a).solve (N := N') (q := q) (r := R / 2) hβ hκ0.le
      hβκ.le hq1 (by rw [← hG, hz0, map_zero]) (by linarith) (by linarith) (by positivity) hN' hω hω1
      (m := m) (show (m : ℤ) < N.maxIter by omega) hm hxz
    refine ⟨a1, a2, a4, (1 - N.damping) ^ (N.solve G x).solves, pow_nonneg (by linarith) _, ?_, ?_⟩
    · obtain ⟨k, hk⟩ : ∃ k, (N.solve G x).solves = k + 1 := ⟨_, (Nat.sub_add_cancel a3).symm⟩
      rw [hk, pow_succ]
      exact mul_le_of_le_one_left (by linarith) (pow_le_one₀ (by linarith) (by linarith))
    · refine a5.trans ?_
      have : 0 ≤ (1 - N.damping) ^ (N.solve G x).solves := pow_nonneg (by linarith) _
      refine mul_le_mul_of_nonneg_right ?_ (norm_nonneg _)
      exact mul_le_of_le_one_right hq0.le (sub_le_self _ this)

end Dream
