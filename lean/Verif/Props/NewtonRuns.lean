import Verif.Lemmas.SemiStep
import Verif.Props.ShortSteps

/-!
# C95: whole runs with Newton's method near a steady state
-/

noncomputable section

namespace Dream

open Metric Filter Topology _root_.Spec

variable {ι Z : Type} [Fintype ι] [NormedAddCommGroup Z] [NormedSpace ℝ Z] [FiniteDimensional ℝ Z]

theorem target_sub (s : Scheme) (cur prev : ι → ℝ) : ‖s.target cur prev - cur‖ ≤ ‖cur - prev‖ / 3 := by
  cases s with
  | implicitEuler =>
    simp only [Scheme.target, sub_self, norm_zero]
    positivity
  | bdf2 =>
    have e : Scheme.target .bdf2 cur prev - cur = (1 / 3 : ℝ) • (cur - prev) := by
      funext i
      simp [Scheme.target]
      ring
    rw [e, norm_smul, Real.norm_of_nonneg (by norm_num)]
    linarith

/-- The size of the state in the error estimate of a run: the distance of its volume part from the
steady state, the last increment, and the distance from the states that solve the facet equations. -/
def stepEnergy (H : (ι → ℝ) → (ι → ℝ) × Z) (K : ℝ) (x0 cur prev : (ι → ℝ) × Z) : ℝ :=
  ‖cur.1 - x0.1‖ + 2 * ‖cur.1 - prev.1‖ + ‖cur - H cur.1‖ / (8 * (1 + K))

theorem stepEnergy_nonneg {H : (ι → ℝ) → (ι → ℝ) × Z} {K : ℝ} (hK : 0 ≤ K)
    (x0 cur prev : (ι → ℝ) × Z) : 0 ≤ stepEnergy H K x0 cur prev := by
  unfold stepEnergy; positivity

theorem stepEnergy_volume {H : (ι → ℝ) → (ι → ℝ) × Z} {K : ℝ} (hK : 0 ≤ K)
    (x0 cur prev : (ι → ℝ) × Z) :
    ‖cur.1 - x0.1‖ + 2 * ‖cur.1 - prev.1‖ ≤ stepEnergy H K x0 cur prev :=
  le_add_of_nonneg_right (by positivity)

theorem stepEnergy_facet {H : (ι → ℝ) → (ι → ℝ) × Z} {K : ℝ} (hK : 0 ≤ K)
    (x0 cur prev : (ι → ℝ) × Z) :
    ‖cur - H cur.1‖ ≤ 8 * (1 + K) * stepEnergy H K x0 cur prev := by
  have : ‖cur - H cur.1‖ / (8 * (1 + K)) ≤ stepEnergy H K x0 cur prev :=
    le_add_of_nonneg_left (by positivity)
  rwa [div_le_iff₀ (by positivity), mul_comm] at this

theorem stepEnergy_state {H : (ι → ℝ) → (ι → ℝ) × Z} {K : ℝ} (hK : 0 ≤ K)
    {x0 cur : (ι → ℝ) × Z} (prev : (ι → ℝ) × Z) (hH : ‖H cur.1 - x0‖ ≤ K * ‖cur.1 - x0.1‖) :
    ‖cur - x0‖ ≤ 9 * (1 + K) * stepEnergy H K x0 cur prev := by
  have h1 := norm_add_le (cur - H cur.1) (H cur.1 - x0)
  rw [sub_add_sub_cancel] at h1
  have h3 := stepEnergy_facet (H := H) hK x0 cur prev
  have h4 := stepEnergy_volume (H := H) hK x0 cur prev
  have h0 := stepEnergy_nonneg (H := H) hK x0 cur prev
  generalize stepEnergy H K x0 cur prev = W at *
  have h5 : K * ‖cur.1 - x0.1‖ ≤ K * W := by
    refine mul_le_mul_of_nonneg_left ?_ hK
    have := norm_nonneg (cur.1 - prev.1)
    linarith
  nlinarith

theorem step_decomp {cur new z x0 : (ι → ℝ) × Z} {H : (ι → ℝ) → (ι → ℝ) × Z} {K q ρ ω θ u f : ℝ}
    (hK : 0 ≤ K) (hq0 : 0 ≤ q) (hω : 0 < ω) (θ0 : 0 ≤ θ) (θ1 : θ ≤ 1 - ω)
    (hf : ‖cur - H cur.1‖ = f) (hcρ : ‖cur.1 - x0.1‖ ≤ ρ)
    (z5 : ∀ b, ‖b - x0.1‖ ≤ ρ → ‖z - H b‖ ≤ K * ‖z.1 - b‖) (hzc : ‖z.1 - cur.1‖ ≤ u)
    (r4 : ‖new - z - θ • (cur - z)‖ ≤ q * ‖cur - z‖) :
    ‖new.1 - cur.1‖ ≤ u + q * (f + K * u) ∧ (‖new.1 - x0.1‖ ≤ ρ →
      ‖new - H new.1‖ ≤ (1 - ω) * f + 2 * K * u + (1 + K) * (q * (f + K * u))) := by
  have hzH := (z5 cur.1 hcρ).trans (mul_le_mul_of_nonneg_left hzc hK)
  have hf0 : 0 ≤ f := hf ▸ norm_nonneg _
  have hD : ‖cur - z‖ ≤ f + K * u := by
    have h1 := norm_add_le (cur - H cur.1) (H cur.1 - z)
    rw [sub_add_sub_cancel, norm_sub_rev (H cur.1) z, hf] at h1
    linarith
  obtain ⟨ε, hε⟩ : ∃ ε, ε = new - z - θ • (cur - z) := ⟨_, rfl⟩
  rw [← hε] at r4
  have hεD : ‖ε‖ ≤ q * (f + K * u) := r4.trans (mul_le_mul_of_nonneg_left hD hq0)
  have hθ1 : θ ≤ 1 := by linarith
  constructor
  · have e1 : new.1 - cur.1 = (1 - θ) • (z.1 - cur.1) + ε.1 := by
      rw [hε]
      simp only [Prod.fst_sub, Prod.smul_fst]
      module
    rw [e1]
    refine (norm_add_le _ _).trans (add_le_add ?_ ((norm_fst_le _).trans hεD))
    rw [norm_smul, Real.norm_of_nonneg (by linarith)]
    exact (mul_le_of_le_one_left (norm_nonneg _) (by linarith)).trans hzc
  · intro hnρ
    have h1 := z5 new.1 hnρ
    have h2 : ‖z.1 - new.1‖ ≤ u + q * (f + K * u) := by
      have e1 : z.1 - new.1 = θ • (z.1 - cur.1) - ε.1 := by
        rw [hε]
        simp only [Prod.fst_sub, Prod.smul_fst]
        module
      rw [e1]
      refine (norm_sub_le _ _).trans (add_le_add ?_ ((norm_fst_le _).trans hεD))
      rw [norm_smul, Real.norm_of_nonneg θ0]
      exact (mul_le_of_le_one_left (norm_nonneg _) hθ1).trans hzc
    have e2 : new - H new.1 = θ • (cur - H cur.1) - θ • (z - H cur.1) + (z - H new.1) + ε := by
      rw [hε]
      module
    have h3 : ‖θ • (cur - H cur.1)‖ ≤ (1 - ω) * f := by
      rw [norm_smul, Real.norm_of_nonneg θ0, hf]
      exact mul_le_mul_of_nonneg_right θ1 hf0
    have h4 : ‖θ • (z - H cur.1)‖ ≤ K * u := by
      rw [norm_smul, Real.norm_of_nonneg θ0]
      exact (mul_le_of_le_one_left (norm_nonneg _) hθ1).trans hzH
    have h5 : ‖z - H new.1‖ ≤ K * (u + q * (f + K * u)) :=
      h1.trans (mul_le_mul_of_nonneg_left h2 hK)
    rw [e2]
    refine (norm_add_le _ _).trans ((add_le_add ((norm_add_le _ _).trans (add_le_add
      ((norm_sub_le _ _).trans (add_le_add h3 h4)) h5)) hεD).trans (le_of_eq (by ring)))

theorem step_energy {H : (ι → ℝ) → (ι → ℝ) × Z} {x0 cur prev new z : (ι → ℝ) × Z} {a : ι → ℝ}
    {K L q ρ ω dt θ : ℝ} (hK : 0 ≤ K) (hL : 0 ≤ L) (hq0 : 0 ≤ q) (hq : q ≤ ω / (32 * (1 + K)))
    (hω : 0 < ω) (hω1 : ω ≤ 1) (hdt : 0 ≤ dt) (hdtL : dt * L ≤ 1)
    (ha : ‖a - cur.1‖ ≤ ‖cur.1 - prev.1‖ / 3) (hz : ‖z.1 - a‖ ≤ dt * L * ‖a - x0.1‖)
    (z5 : ∀ b, ‖b - x0.1‖ ≤ ρ → ‖z - H b‖ ≤ K * ‖z.1 - b‖)
    (hρ : 16 * stepEnergy H K x0 cur prev ≤ ρ) (θ0 : 0 ≤ θ) (θ1 : θ ≤ 1 - ω)
    (r4 : ‖new - z - θ • (cur - z)‖ ≤ q * ‖cur - z‖) :
    ‖new.1 - x0.1‖ ≤ ρ ∧
      stepEnergy H K x0 new cur ≤ (1 + 4 * L * dt) * stepEnergy H K x0 cur prev := by
  have hed := stepEnergy_volume (H := H) hK x0 cur prev
  have hfW := stepEnergy_facet (H := H) hK x0 cur prev
  have hWp := stepEnergy_nonneg (H := H) hK x0 cur prev
  obtain ⟨e, he⟩ : ∃ e, ‖cur.1 - x0.1‖ = e := ⟨_, rfl⟩
  obtain ⟨d, hd⟩ : ∃ d, ‖cur.1 - prev.1‖ = d := ⟨_, rfl⟩
  obtain ⟨f, hf⟩ : ∃ f, ‖cur - H cur.1‖ = f := ⟨_, rfl⟩
  have he0 : 0 ≤ e := he ▸ norm_nonneg _
  have hd0 : 0 ≤ d := hd ▸ norm_nonneg _
  have hf0 : 0 ≤ f := hf ▸ norm_nonneg _
  have hWdef : stepEnergy H K x0 cur prev = e + 2 * d + f / (8 * (1 + K)) := by
    rw [stepEnergy, he, hd, hf]
  rw [hd] at ha
  rw [he, hd] at hed
  rw [hf] at hfW
  have hcρ : ‖cur.1 - x0.1‖ ≤ ρ := by rw [he]; linarith
  have haρ' : ‖a - x0.1‖ ≤ e + d := by
    have h1 := norm_add_le (a - cur.1) (cur.1 - x0.1)
    rw [sub_add_sub_cancel, he] at h1
    linarith
  obtain ⟨u, hu⟩ : ∃ u, u = d / 3 + dt * L * (e + d) := ⟨_, rfl⟩
  have hdL : 0 ≤ dt * L := mul_nonneg hdt hL
  have hu0 : 0 ≤ u := by rw [hu]; exact add_nonneg (by linarith) (mul_nonneg hdL (by linarith))
  have hzc : ‖z.1 - cur.1‖ ≤ u := by
    have h1 := norm_add_le (z.1 - a) (a - cur.1)
    rw [sub_add_sub_cancel] at h1
    have h3 : dt * L * ‖a - x0.1‖ ≤ dt * L * (e + d) := mul_le_mul_of_nonneg_left haρ' hdL
    rw [hu]
    linarith
  obtain ⟨hd', hf'⟩ := step_decomp hK hq0 hω θ0 θ1 hf hcρ z5 hzc r4
  have he' : ‖new.1 - x0.1‖ ≤ e + ‖new.1 - cur.1‖ := by
    have h1 := norm_add_le (new.1 - cur.1) (cur.1 - x0.1)
    rw [sub_add_sub_cancel, he] at h1
    linarith
  have hq' : q * (32 * (1 + K)) ≤ 1 := by
    rw [le_div_iff₀ (by positivity)] at hq
    linarith
  have hnρ : ‖new.1 - x0.1‖ ≤ ρ := by
    generalize stepEnergy H K x0 cur prev = W at *
    have h1 : u ≤ 2 * W := by
      have : dt * L * (e + d) ≤ 1 * (e + d) := mul_le_mul_of_nonneg_right hdtL (by linarith)
      rw [hu]; linarith
    have h2 : q * f ≤ W := by
      have h2 := mul_le_mul_of_nonneg_left hfW hq0
      have h3 := mul_le_mul_of_nonneg_right hq' hWp
      linarith
    have h3 : q * (K * u) ≤ u := by
      have h4 : q * K ≤ 1 := by linarith
      have := mul_le_mul_of_nonneg_right h4 hu0
      linarith
    have h4 : q * (f + K * u) = q * f + q * (K * u) := by ring
    rw [h4] at hd'
    linarith
  refine ⟨hnρ, ?_⟩
  have hf'' := hf' hnρ
  rw [hu] at hd' hf''
  rw [hWdef, stepEnergy]
  exact energy_step he0 hd0 hf0 hK hL hdt hq0 hω hω1 hq hd' he' hf''

/-- Newton's method computes the step from the states `cur` and `prev` at time `t`: it reports
convergence, its result `new` and the solution `z` of the equations, the only one up to the distance
`R`, are at most `Y` away from `x0`, and the distance to the solution has shrunk by the factor
`1 - ω / 2` with each linear solve. -/
def StepComputed (P : Problem ι ((ι → ℝ) × Z) ((ι → ℝ) × Z)) (s : Scheme) (dt : ℝ)
    (N : Newton ((ι → ℝ) × Z) ((ι → ℝ) × Z)) (x0 : (ι → ℝ) × Z) (Y R : ℝ) (t : ℚ)
    (new cur prev : (ι → ℝ) × Z) : Prop :=
  let r := N.solve (P.stepEquation (s.quotient dt) t cur prev) cur
  new = r.u ∧ r.isConverged = true ∧ r.isNan = false ∧ ‖new - x0‖ ≤ Y ∧
    ∃ z, P.stepEquation (s.quotient dt) t cur prev z = 0 ∧ ‖z - x0‖ ≤ Y ∧
      (∀ y, ‖y - x0‖ ≤ R → P.stepEquation (s.quotient dt) t cur prev y = 0 → y = z) ∧
      ‖new - z‖ ≤ (1 - N.damping / 2) ^ r.solves * ‖cur - z‖

theorem newton_one (P : Problem ι ((ι → ℝ) × Z) ((ι → ℝ) × Z)) (s : Scheme)
    (hcomp : ∀ x, P.comp x = x.1) {M : (ι → ℝ) →L[ℝ] (ι → ℝ)}
    (hmass : ∀ d, P.mass d = (M d, 0)) {S : (ι → ℝ) × Z → (ι → ℝ) × Z}
    (hspat : ∀ t, P.spatial t = S)
    {S' : (ι → ℝ) × Z → (ι → ℝ) × Z →L[ℝ] (ι → ℝ) × Z} {x0 : (ι → ℝ) × Z}
    {ω : ℝ} (hω : 0 < ω) (hω1 : ω ≤ 1) {K L q ρ R dt c crit : ℝ} (hK : 0 ≤ K) (hL : 0 ≤ L) (hq0 : 0 ≤ q)
    {H : (ι → ℝ) → (ι → ℝ) × Z} (hq : q ≤ ω / (32 * (1 + K)))
    (hH : ∀ a, ‖a - x0.1‖ ≤ ρ → (H a).1 = a ∧ ‖H a - x0‖ ≤ K * ‖a - x0.1‖) (hdt : 0 < dt)
    (hdtL : dt * L ≤ 1)
    (hsol : ∀ a, ‖a - x0.1‖ ≤ ρ → ∃ z, stepMap S M s.weight dt a z = 0 ∧
      ‖z - x0‖ ≤ K * ‖a - x0.1‖ ∧ (∀ y, ‖y - x0‖ ≤ R → stepMap S M s.weight dt a y = 0 → y = z) ∧
      ‖z.1 - a‖ ≤ dt * L * ‖a - x0.1‖ ∧ (∀ b, ‖b - x0.1‖ ≤ ρ → ‖z - H b‖ ≤ K * ‖z.1 - b‖)) {m : ℤ}
    (hm : ∀ (N : Newton ((ι → ℝ) × Z) ((ι → ℝ) × Z)) (a : ι → ℝ)
      (G : (ι → ℝ) × Z → (ι → ℝ) × Z) (G' : (ι → ℝ) × Z → (ι → ℝ) × Z →L[ℝ] (ι → ℝ) × Z),
      (∀ x, scaleRows dt (G x) = stepMap S M s.weight dt a x) →
      (∀ x, (scaleRows dt).comp (G' x) = stepMat S' M s.weight dt x) →
      SolvesSystems (N.lin G) G G' c → N.damping = ω → N.crit = crit → m ≤ N.maxIter →
      ‖a - x0.1‖ ≤ ρ → ∀ x, ‖x - x0‖ ≤ ρ → ∀ z, ‖z - x0‖ ≤ K * ‖a - x0.1‖ → G z = 0 →
      (N.solve G x).isConverged = true ∧ (N.solve G x).isNan = false ∧
      ‖(N.solve G x).u - z‖ ≤ (1 - ω / 2) ^ (N.solve G x).solves * ‖x - z‖ ∧
      ∃ θ, 0 ≤ θ ∧ θ ≤ 1 - ω ∧ ‖(N.solve G x).u - z - θ • (x - z)‖ ≤ q * ‖x - z‖)
    (N : Newton ((ι → ℝ) × Z) ((ι → ℝ) × Z))
    (hN : ∀ t cur prev, SolvesSystems (N.lin (P.stepEquation (s.quotient dt) t cur prev))
      (P.stepEquation (s.quotient dt) t cur prev) (stepDeriv s dt M S') c)
    (hNd : N.damping = ω) (hNc : N.crit = crit) (hNm : m ≤ N.maxIter) (t : ℚ)
    (cur prev : (ι → ℝ) × Z) (hW : 16 * (1 + K) * stepEnergy H K x0 cur prev ≤ ρ) :
    stepEnergy H K x0 (N.solve (P.stepEquation (s.quotient dt) t cur prev) cur).u cur
        ≤ (1 + 4 * L * dt) * stepEnergy H K x0 cur prev ∧
      ∀ Y, 9 * (1 + K) * ((1 + 4 * L * dt) * stepEnergy H K x0 cur prev) ≤ Y →
        StepComputed P s dt N x0 Y R t (N.solve (P.stepEquation (s.quotient dt) t cur prev) cur).u
          cur prev := by
  obtain ⟨G, hG⟩ : ∃ G, G = P.stepEquation (s.quotient dt) t cur prev := ⟨_, rfl⟩
  have hNG := hN t cur prev
  simp only [StepComputed, ← hG] at hNG ⊢
  obtain ⟨a, ha⟩ : ∃ a, a = s.target cur.1 prev.1 := ⟨_, rfl⟩
  have hGa : ∀ x, scaleRows dt (G x) = stepMap S M s.weight dt a x := by
    intro x
    rw [hG, step_eq P s t (z := (a, 0)) hcomp hmass ha hdt, stepMap, map_add, hspat]
    congr 1
    rw [scaleRows_apply]
    simp only [smul_smul, mul_div_cancel₀ _ hdt.ne']
  have hGa' : ∀ x, (scaleRows dt).comp (stepDeriv s dt M S' x) = stepMat S' M s.weight dt x := by
    intro x
    refine ContinuousLinearMap.ext fun v => ?_
    rw [ContinuousLinearMap.comp_apply, stepDeriv, ContinuousLinearMap.add_apply, map_add, stepMat,
      ContinuousLinearMap.add_apply]
    congr 1
    rw [scaleRows_apply]
    simp [smul_smul, mul_div_cancel₀ _ hdt.ne']
  have hGz : ∀ x, G x = 0 ↔ stepMap S M s.weight dt a x = 0 := by
    intro x
    rw [← hGa]
    refine ⟨fun h => by rw [h, map_zero], fun h => ?_⟩
    exact (scaleRows_bijective hdt.ne').1 (h.trans (map_zero _).symm)
  have hed := stepEnergy_volume (H := H) hK x0 cur prev
  have hWp := stepEnergy_nonneg (H := H) hK x0 cur prev
  have hn1 := norm_nonneg (cur.1 - x0.1)
  have hn2 := norm_nonneg (cur.1 - prev.1)
  have hKW := mul_nonneg hK hWp
  have hρ16 : 16 * stepEnergy H K x0 cur prev ≤ ρ := by linarith
  have heρ : ‖cur.1 - x0.1‖ ≤ ρ := by linarith
  have h2 := target_sub s cur.1 prev.1
  rw [← ha] at h2
  have haW : ‖a - x0.1‖ ≤ stepEnergy H K x0 cur prev := by
    have h1 := norm_add_le (a - cur.1) (cur.1 - x0.1)
    rw [sub_add_sub_cancel] at h1
    linarith
  have haρ : ‖a - x0.1‖ ≤ ρ := by linarith
  have hxρ : ‖cur - x0‖ ≤ ρ := by
    have := stepEnergy_state hK prev (hH cur.1 heρ).2
    linarith
  obtain ⟨z, z1, z2, z3, z4, z5⟩ := hsol a haρ
  obtain ⟨r1, r2, r3, θ, θ0, θ1, r4⟩ := hm N a G _ hGa hGa' hNG hNd hNc hNm haρ cur hxρ z z2
    ((hGz z).2 z1)
  obtain ⟨hnρ, hWn⟩ := step_energy hK hL hq0 hq hω hω1 hdt.le hdtL h2 z4 z5 hρ16 θ0 θ1 r4
  have hx := stepEnergy_state hK cur (hH _ hnρ).2
  refine ⟨hWn, fun Y hY => ⟨trivial, r1, r2, ?_, z, (hGz z).2 z1, ?_,
    fun y hy hy0 => z3 y hy ((hGz y).1 hy0), by rw [hNd]; exact r3⟩⟩
  · exact hx.trans ((mul_le_mul_of_nonneg_left hWn (by positivity)).trans hY)
  · have h1 := mul_le_mul_of_nonneg_left haW hK
    have hdl : 0 ≤ 4 * L * dt := by positivity
    generalize stepEnergy H K x0 cur prev = W at *
    have h2 : W ≤ (1 + 4 * L * dt) * W := le_mul_of_one_le_left hWp (by linarith)
    have h3 : K * W ≤ K * ((1 + 4 * L * dt) * W) := mul_le_mul_of_nonneg_left h2 hK
    have h4 : 0 ≤ K * ((1 + 4 * L * dt) * W) := mul_nonneg hK (by linarith)
    linarith

theorem newton_runs (P : Problem ι ((ι → ℝ) × Z) ((ι → ℝ) × Z)) (s : Scheme)
    (hcomp : ∀ x, P.comp x = x.1) {M : (ι → ℝ) →L[ℝ] (ι → ℝ)} (hM : Function.Injective M)
    (hmass : ∀ d, P.mass d = (M d, 0)) {S : (ι → ℝ) × Z → (ι → ℝ) × Z}
    (hspat : ∀ t, P.spatial t = S) {S₀ : (ι → ℝ) × Z →L[ℝ] (ι → ℝ) × Z}
    {S' : (ι → ℝ) × Z → (ι → ℝ) × Z →L[ℝ] (ι → ℝ) × Z} {x0 : (ι → ℝ) × Z}
    (hS : HasStrictFDerivAt S S₀ x0) (hS' : Tendsto S' (𝓝 x0) (𝓝 S₀)) (h0 : S x0 = 0)
    (hreg : ∀ ζ : Z, (S₀ (0, ζ)).2 = 0 → ζ = 0) {ω : ℝ} (hω : 0 < ω) (hω1 : ω ≤ 1) (T : ℝ) :
    ∃ dt₀ > 0, ∃ δ > 0, ∃ C > 0, ∃ R > 0, C * δ ≤ R ∧ ∀ dt, 0 < dt → dt ≤ dt₀ → ∀ c crit : ℝ, 0 ≤ c →
      0 < crit → ∃ m : ℤ, ∀ N : Newton ((ι → ℝ) × Z) ((ι → ℝ) × Z),
      (∀ t cur prev, SolvesSystems (N.lin (P.stepEquation (s.quotient dt) t cur prev))
        (P.stepEquation (s.quotient dt) t cur prev) (stepDeriv s dt M S') c) →
      N.damping = ω → N.crit = crit → m ≤ N.maxIter →
      ∀ η ≤ δ, ∀ cur prev, ‖cur - x0‖ ≤ η → ‖prev - x0‖ ≤ η → ∀ ts : List ℚ, dt * ts.length ≤ T →
        Satisfies (StepComputed P s dt N x0 (C * η) R) prev cur ts (trajectory
          (fun t cur prev => (N.solve (P.stepEquation (s.quotient dt) t cur prev) cur).u) prev cur
          ts) := by
  obtain ⟨K, hK, L, hL, q, hq0, ρ, hρ, dt₁, hdt₁, R, hR, H, hq, hρR, hH, hHl, hstep⟩ :=
    newton_step hS hS' h0 hM s.weight_pos hreg hω hω1
  have hK1 : 0 < 1 + K := by linarith
  obtain ⟨W, hW⟩ : ∃ W : (ι → ℝ) × Z → (ι → ℝ) × Z → ℝ, W = stepEnergy H K x0 := ⟨_, rfl⟩
  have hW0 : ∀ cur prev, 0 ≤ W cur prev := fun cur prev => hW ▸ stepEnergy_nonneg hK _ _ _
  obtain ⟨dt₀, hdt₀⟩ : ∃ dt₀, dt₀ = min dt₁ (1 / (L + 1)) := ⟨_, rfl⟩
  have hdt₀p : 0 < dt₀ := by rw [hdt₀]; positivity
  obtain ⟨Q, hQ⟩ : ∃ Q, Q = Real.exp (4 * L * |T|) := ⟨_, rfl⟩
  have hQ0 : 0 < Q := by rw [hQ]; exact Real.exp_pos _
  have hQ1 : 1 ≤ Q := by rw [hQ]; exact Real.one_le_exp (by positivity)
  obtain ⟨Wm, hWm⟩ : ∃ Wm, Wm = ρ / (16 * (1 + K)) := ⟨_, rfl⟩
  have hWm0 : 0 < Wm := by rw [hWm]; positivity
  have hWmρ : 16 * (1 + K) * Wm = ρ := by rw [hWm]; field_simp
  -- the run
  obtain ⟨C, hC⟩ : ∃ C, C = 9 * (1 + K) * (Q * 6) := ⟨_, rfl⟩
  have hC0 : 0 < C := by rw [hC]; positivity
  obtain ⟨δ, hδ⟩ : ∃ δ, δ = min (Wm / (6 * Q)) (R / C) := ⟨_, rfl⟩
  have hδ0 : 0 < δ := by rw [hδ]; positivity
  have hδQ : Q * (6 * δ) ≤ Wm := by
    have : δ ≤ Wm / (6 * Q) := by rw [hδ]; exact min_le_left _ _
    rw [le_div_iff₀ (by positivity)] at this
    linarith
  have hδR : C * δ ≤ R := by
    have : δ ≤ R / C := by rw [hδ]; exact min_le_right _ _
    rw [le_div_iff₀ hC0] at this
    linarith
  refine ⟨dt₀, hdt₀p, δ, hδ0, C, hC0, R, hR, hδR, fun dt hdt hdt' c crit hc hcrit => ?_⟩
  obtain ⟨hsol, hnewton⟩ := hstep dt hdt (hdt'.trans (by rw [hdt₀]; exact min_le_left _ _))
  obtain ⟨m, hm⟩ := hnewton c crit hc hcrit
  have hdtL : dt * L ≤ 1 := by
    have : dt ≤ 1 / (L + 1) := hdt'.trans (by rw [hdt₀]; exact min_le_right _ _)
    rw [le_div_iff₀ (by positivity)] at this
    linarith
  refine ⟨m, fun N hN hNd hNc hNm η hη cur prev hcur hprev ts hts => ?_⟩
  have hone := newton_one P s hcomp hmass hspat hω hω1 hK hL hq0 hq hH hdt hdtL hsol hm N hN hNd hNc hNm
  rw [← hW] at hone
  have g1 : 1 ≤ 1 + 4 * L * dt := le_add_of_nonneg_right (by positivity)
  have run : ∀ (ts : List ℚ) (cur prev : (ι → ℝ) × Z),
      (1 + 4 * L * dt) ^ ts.length * W cur prev ≤ Q * (6 * η) →
      Satisfies (StepComputed P s dt N x0 (C * η) R) prev cur ts (trajectory
        (fun t cur prev => (N.solve (P.stepEquation (s.quotient dt) t cur prev) cur).u) prev cur
        ts) := by
    intro ts
    induction ts with
    | nil => intro _ _ _; trivial
    | cons t ts ih =>
      intro cur prev hWc
      have hp : 1 ≤ (1 + 4 * L * dt) ^ ts.length := one_le_pow₀ g1
      have hg : 0 ≤ (1 + 4 * L * dt) * W cur prev := mul_nonneg (by linarith) (hW0 _ _)
      rw [List.length_cons, pow_succ, mul_assoc] at hWc
      have h1 : (1 + 4 * L * dt) * W cur prev ≤ Q * (6 * η) :=
        (le_mul_of_one_le_left hg hp).trans hWc
      have h2 : W cur prev ≤ Wm := by
        have : W cur prev ≤ (1 + 4 * L * dt) * W cur prev := le_mul_of_one_le_left (hW0 _ _) g1
        have h3 : Q * (6 * η) ≤ Q * (6 * δ) := by gcongr
        linarith
      have h4 : 16 * (1 + K) * W cur prev ≤ ρ := by
        rw [← hWmρ]
        exact mul_le_mul_of_nonneg_left h2 (by positivity)
      obtain ⟨s1, s3⟩ := hone t cur prev h4
      refine ⟨s3 (C * η) ?_, ih _ _ ?_⟩
      · calc _ ≤ 9 * (1 + K) * (Q * (6 * η)) := by gcongr
          _ = _ := by rw [hC]; ring
      · exact (mul_le_mul_of_nonneg_left s1 (by linarith)).trans hWc
  refine run ts cur prev ?_
  have hη0 : 0 ≤ η := (norm_nonneg _).trans hcur
  have hexp : (1 + 4 * L * dt) ^ ts.length ≤ Q := by
    have h1 : 1 + 4 * L * dt ≤ Real.exp (4 * L * dt) := by
      have := Real.add_one_le_exp (4 * L * dt)
      linarith
    calc (1 + 4 * L * dt) ^ ts.length ≤ Real.exp (4 * L * dt) ^ ts.length :=
          pow_le_pow_left₀ (by linarith) h1 _
      _ = Real.exp (4 * L * (dt * ts.length)) := by rw [← Real.exp_nat_mul]; congr 1; ring
      _ ≤ Q := by
          rw [hQ]
          exact Real.exp_le_exp.2 (mul_le_mul_of_nonneg_left (hts.trans (le_abs_self T)) (by positivity))
  have hc1 : ‖cur.1 - x0.1‖ ≤ η := (norm_fst_le (cur - x0)).trans hcur
  have hp1 : ‖prev.1 - x0.1‖ ≤ η := (norm_fst_le (prev - x0)).trans hprev
  have hcρ : ‖cur.1 - x0.1‖ ≤ ρ := by
    have : 6 * δ ≤ Q * (6 * δ) := le_mul_of_one_le_left (by linarith) hQ1
    have : 16 * Wm ≤ ρ := by nlinarith
    linarith
  have hWi : W cur prev ≤ 6 * η := by
    have h1 : ‖cur.1 - prev.1‖ ≤ 2 * η := by
      have := norm_sub_le (cur.1 - x0.1) (prev.1 - x0.1)
      rw [sub_sub_sub_cancel_right] at this
      linarith
    have h2 : ‖cur - H cur.1‖ ≤ (1 + K) * η := by
      have := norm_sub_le (cur - x0) (H cur.1 - x0)
      rw [sub_sub_sub_cancel_right] at this
      have h3 := (hH cur.1 hcρ).2.trans (mul_le_mul_of_nonneg_left hc1 hK)
      linarith
    have h3 : ‖cur - H cur.1‖ / (8 * (1 + K)) ≤ η := by
      rw [div_le_iff₀ (by positivity)]
      nlinarith
    rw [hW, stepEnergy]
    linarith
  exact mul_le_mul hexp hWi (hW0 _ _) hQ0.le

end Dream
