import Verif.Spec.TimeLimit
import Verif.Lemmas.TimeLimit
import Verif.Props.ShortStepsMesh

/-!
# C96: short time steps approximate the flow in continuous time
-/

noncomputable section

namespace Dream
open Matrix Metric Set _root_.Spec

variable {n : ℕ} {V B : Type} [Fintype V] [Fintype B] {γ : ℝ}

/-- Runs for element functions are runs for the states. -/
theorem runs_forward {P : HdgSpaces n (n + 2) V B} {M : HdgMesh n V B} {mask : B → ℝ} {s : Scheme}
    {dt : ℝ} {x0 : P.element} {r : ℝ} {h : P.element → P.facet} {Ψ : P.element → P.element}
    {st : P.element → P.facet → HdgState n (n + 2) V B} (hstU : ∀ a ζ, (st a ζ).U = a.1.2.1)
    (hstep : ∀ (t : ℚ) (a : P.element), ‖a - x0‖ ≤ r → ∀ (cur prev : HdgState n (n + 2) V B)
      (c p : P.element), cur.U = c.1.2.1 → prev.U = p.1.2.1 → implicitStep Ψ s dt t a c p →
      hdgStep M mask P.tests (s.quotient dt) t (st a (h a)) cur prev) :
    ∀ (ts : List ℚ) (as : List P.element) (cu pr : HdgState n (n + 2) V B) (c p : P.element),
      cu.U = c.1.2.1 → pr.U = p.1.2.1 → (∀ a ∈ as, ‖a - x0‖ ≤ r) →
      Satisfies (implicitStep Ψ s dt) p c ts as →
      Satisfies (hdgStep M mask P.tests (s.quotient dt)) pr cu ts (as.map fun a => st a (h a)) := by
  intro ts
  induction ts with
  | nil =>
    intro as cu pr c p _ _ _ hs
    cases as with
    | nil => trivial
    | cons a as => exact absurd hs (by simp [Satisfies])
  | cons t ts ih =>
    intro as cu pr c p e1 e2 hn hs
    cases as with
    | nil => exact absurd hs (by simp [Satisfies])
    | cons a as =>
      obtain ⟨s1, s2⟩ := hs
      exact ⟨hstep t a (hn a (by simp)) cu pr c p e1 e2 s1,
        ih as (st a (h a)) cu a c (hstU _ _) e1 (fun b hb => hn b (by simp [hb])) s2⟩

/-- Runs for states near the uniform flow are runs for element functions. -/
theorem runs_backward {P : HdgSpaces n (n + 2) V B} {M : HdgMesh n V B} {mask : B → ℝ} {s : Scheme}
    {dt : ℝ} {x0 : P.element} {r : ℝ} {h : P.element → P.facet} {Ψ : P.element → P.element}
    {st : P.element → P.facet → HdgState n (n + 2) V B} {near : HdgState n (n + 2) V B → Prop}
    (hstU : ∀ a ζ, (st a ζ).U = a.1.2.1)
    (hstep : ∀ (t : ℚ) (y cur prev : HdgState n (n + 2) V B), near y →
      ∀ (c p : P.element), cur.U = c.1.2.1 → prev.U = p.1.2.1 →
      hdgStep M mask P.tests (s.quotient dt) t y cur prev →
      ∃ a, ‖a - x0‖ ≤ r ∧ y = st a (h a) ∧ implicitStep Ψ s dt t a c p) :
    ∀ (ts : List ℚ) (ys : List (HdgState n (n + 2) V B)) (cu pr : HdgState n (n + 2) V B)
      (c p : P.element), cu.U = c.1.2.1 → pr.U = p.1.2.1 → (∀ y ∈ ys, near y) →
      Satisfies (hdgStep M mask P.tests (s.quotient dt)) pr cu ts ys →
      ∃ bs : List P.element, ys = bs.map (fun a => st a (h a)) ∧ (∀ b ∈ bs, ‖b - x0‖ ≤ r) ∧
        Satisfies (implicitStep Ψ s dt) p c ts bs := by
  intro ts
  induction ts with
  | nil =>
    intro ys cu pr c p _ _ _ hs
    cases ys with
    | nil => exact ⟨[], rfl, by simp, trivial⟩
    | cons a as => exact absurd hs (by simp [Satisfies])
  | cons t ts ih =>
    intro ys cu pr c p e1 e2 hn hs
    cases ys with
    | nil => exact absurd hs (by simp [Satisfies])
    | cons y ys =>
      obtain ⟨s1, s2⟩ := hs
      obtain ⟨a, ha, hy, i1⟩ := hstep t y cu pr (hn y (by simp)) c p e1 e2 s1
      obtain ⟨bs, b1, b2, b3⟩ := ih ys y cu a c (by rw [hy]; exact hstU _ _) e1
        (fun b hb => hn b (by simp [hb])) s2
      refine ⟨a :: bs, by rw [hy, b1]; rfl, ?_, ⟨i1, b3⟩⟩
      intro b hb
      rcases List.mem_cons.1 hb with rfl | hb
      · exact ha
      · exact b2 b hb

/-- A path whose values in the elements are differentiable is a differentiable path of element
functions. -/
theorem element_path {P : HdgSpaces n (n + 2) V B} {M : HdgMesh n V B} {mask : B → ℝ}
    (hP : P.Fits M mask) {T : ℝ} (hT : 0 < T) {U : ℝ → V → Fin (n + 2) → ℝ} {u : ℝ → P.element}
    (hu : ∀ t ∈ Icc 0 T, U t = (u t).1.2.1) {t : ℝ} (ht : t ∈ Icc 0 T) {d : V → Fin (n + 2) → ℝ}
    (hd : ∀ v i, HasDerivWithinAt (fun s => U s v i) (d v i) (Icc 0 T) t) :
    ∃ e : P.element, e.1.2.1 = d ∧ HasDerivWithinAt u e (Icc 0 T) t := by
  let valL : P.element →ₗ[ℝ] (V → Fin (n + 2) → ℝ) :=
    (LinearMap.fst ℝ _ _) ∘ₗ (LinearMap.snd ℝ _ _) ∘ₗ P.element.subtype
  have hvi : LinearMap.ker valL = ⊥ := LinearMap.ker_eq_bot'.2 fun a ha =>
    Subtype.ext (hP.determined _ a.2 ha)
  obtain ⟨g0, hg0⟩ := valL.exists_leftInverse_of_injective hvi
  obtain ⟨g, hg⟩ := exists_clm (A := V → Fin (n + 2) → ℝ) (F := P.element) g0
  obtain ⟨vL, hv⟩ := exists_clm (A := P.element) (F := V → Fin (n + 2) → ℝ) valL
  have hgv : ∀ a, g (vL a) = a := fun a => by
    rw [hg, hv]
    exact LinearMap.congr_fun hg0 a
  have hvv : ∀ a : P.element, vL a = a.1.2.1 := fun a => by rw [hv]; rfl
  have hdU : HasDerivWithinAt U d (Icc 0 T) t :=
    hasDerivWithinAt_pi.2 fun v => hasDerivWithinAt_pi.2 fun i => hd v i
  have h1 : HasDerivWithinAt (fun s => g (U s)) (g d) (Icc 0 T) t :=
    g.hasFDerivAt.comp_hasDerivWithinAt t hdU
  have h2 : HasDerivWithinAt u (g d) (Icc 0 T) t := by
    refine h1.congr (fun s hs => ?_) ?_
    · rw [hu s hs, ← hvv, hgv]
    · rw [hu t ht, ← hvv, hgv]
  refine ⟨g d, ?_, h2⟩
  have h3 : HasDerivWithinAt (fun s => vL (u s)) (vL (g d)) (Icc 0 T) t :=
    vL.hasFDerivAt.comp_hasDerivWithinAt t h2
  have h4 : HasDerivWithinAt U (vL (g d)) (Icc 0 T) t :=
    h3.congr (fun s hs => by rw [hu s hs, hvv]) (by rw [hu t ht, hvv])
  rw [← hvv]
  exact (uniqueDiffOn_Icc hT t ht).eq_deriv _ h4 hdU

/-- Conversely, the values of a differentiable path of element functions are differentiable. -/
theorem path_values {P : HdgSpaces n (n + 2) V B} {u : ℝ → P.element} {e : P.element} {s : Set ℝ}
    {t : ℝ} (h : HasDerivWithinAt u e s t) (v : V) (i : Fin (n + 2)) :
    HasDerivWithinAt (fun τ => (u τ).1.2.1 v i) (e.1.2.1 v i) s t := by
  let valL : P.element →ₗ[ℝ] (V → Fin (n + 2) → ℝ) :=
    (LinearMap.fst ℝ _ _) ∘ₗ (LinearMap.snd ℝ _ _) ∘ₗ P.element.subtype
  obtain ⟨vL, hv⟩ := exists_clm (A := P.element) (F := V → Fin (n + 2) → ℝ) valL
  have hvv : ∀ a : P.element, vL a = a.1.2.1 := fun a => by rw [hv]; rfl
  have h3 : HasDerivWithinAt (fun s => vL (u s)) (vL e) s t :=
    vL.hasFDerivAt.comp_hasDerivWithinAt t h
  have := hasDerivWithinAt_pi.1 (hasDerivWithinAt_pi.1 h3 v) i
  simpa only [hvv] using this

/-- The equations with the rate of change are those of one long implicit step. -/
theorem rate_iff {P : HdgSpaces n (n + 2) V B} {M : HdgMesh n V B} {mask : B → ℝ}
    {x0 : P.element} {ζ0 : P.facet} {r ρ : ℝ} {h : P.element → P.facet} {Ψ : P.element → P.element}
    {st : P.element → P.facet → HdgState n (n + 2) V B} (hstU : ∀ a ζ, (st a ζ).U = a.1.2.1)
    (hstep : ∀ (s : Scheme) (dt : ℝ), 0 < dt → ∀ (t : ℚ) (a : P.element) (ζ : P.facet), ‖a - x0‖ ≤ r →
        ‖ζ - ζ0‖ ≤ ρ → ∀ (cur prev : HdgState n (n + 2) V B) (c p : P.element), cur.U = c.1.2.1 →
        prev.U = p.1.2.1 → (hdgStep M mask P.tests (s.quotient dt) t (st a ζ) cur prev ↔
          implicitStep Ψ s dt t a c p ∧ ζ = h a))
    {a : P.element} {ζ : P.facet} (ha : ‖a - x0‖ ≤ r) (hζ : ‖ζ - ζ0‖ ≤ ρ) (e : P.element) :
    hdgRate M mask P.tests e.1.2.1 (st a ζ) ↔ e = Ψ a ∧ ζ = h a := by
  have h1 := hstep .implicitEuler 1 one_pos 0 a ζ ha hζ (st (a - e) ζ) (st (a - e) ζ) (a - e) (a - e)
    (hstU _ _) (hstU _ _)
  have e1 : (fun v i => Scheme.implicitEuler.quotient 1 ((st a ζ).U v i) ((st (a - e) ζ).U v i)
      ((st (a - e) ζ).U v i)) = e.1.2.1 := by
    funext v i
    rw [hstU, hstU]
    show (a.1.2.1 v i - (a.1.2.1 v i - e.1.2.1 v i)) / 1 = _
    rw [div_one, sub_sub_cancel]
  have e2 : hdgStep M mask P.tests (Scheme.implicitEuler.quotient 1) 0 (st a ζ) (st (a - e) ζ)
      (st (a - e) ζ) ↔ hdgRate M mask P.tests e.1.2.1 (st a ζ) := by
    rw [hdgStep, hdgRate, e1]
  rw [← e2, h1]
  refine and_congr_left fun _ => ?_
  simp only [implicitStep, Scheme.extrapolate, Scheme.weight, div_one, one_smul]
  constructor
  · intro h
    have h2 : a - (a - e) = Ψ a := sub_eq_iff_eq_add'.2 h
    rwa [sub_sub_cancel] at h2
  · intro h
    rw [← h]
    abel

/-- Convergence, for every numerical flux that fits. -/
theorem converges_of_fits {rs : Riemann} {S : GasState n} (hS : IdealGas γ S)
    {P : HdgSpaces n (n + 2) V B} {M : HdgMesh n V B} {mask : B → ℝ} (hP : P.Fits M mask)
    {cond : B → FacetCond n} (hc : ∀ b, mask b = 0 → (cond b).Admits S (M.normal b)) (σ : V → ℝ)
    {N : B → (Fin (n + 2) → ℝ) × (Fin (n + 2) → ℝ) → Fin (n + 2) → ℝ}
    {τ : B → (Fin (n + 2) → ℝ) →L[ℝ] (Fin (n + 2) → ℝ)}
    (hN : FluxFits γ rs P M mask (consVec S.rho S.rho_u S.rho_E) N τ) {T : ℝ} (hT : 0 < T) :
    ∃ dt₀ > 0, ∃ δ > 0, ∃ C, ∃ r > 0, C * δ ≤ r ∧ ∀ η, 0 ≤ η → η ≤ δ →
      ∀ x₀ : HdgState n (n + 2) V B, (∃ a ∈ P.element, x₀.U = a.2.1) →
      (∀ v i, |x₀.U v i - consVec S.rho S.rho_u S.rho_E i| ≤ η) →
      ∃ y, IsEvolution γ rs P M mask cond σ (conservativeDict S) (consVec S.rho S.rho_u S.rho_E)
          (C * η) T y ∧ (y 0).U = x₀.U ∧
        (∀ z, IsEvolution γ rs P M mask cond σ (conservativeDict S)
          (consVec S.rho S.rho_u S.rho_E) r T z → (z 0).U = x₀.U → ∀ t ∈ Icc 0 T, z t = y t) ∧
        ∀ (s : Scheme) (dt : ℝ), 0 < dt → dt ≤ dt₀ → ∀ ts : List ℚ, dt * ts.length ≤ T →
          (∃ xs, Satisfies (hdgStep M mask P.tests (s.quotient dt)) x₀ x₀ ts xs ∧
            ∀ x ∈ xs, x.NearFlow γ rs P M mask cond σ (conservativeDict S)
              (consVec S.rho S.rho_u S.rho_E) (C * η)) ∧
          ∀ xs, Satisfies (hdgStep M mask P.tests (s.quotient dt)) x₀ x₀ ts xs →
            (∀ x ∈ xs, x.NearFlow γ rs P M mask cond σ (conservativeDict S)
              (consVec S.rho S.rho_u S.rho_E) r) →
            ∀ i (hi : i < xs.length), ∀ v j,
              |xs[i].U v j - (y ((i + 1) * dt)).U v j| ≤ C * η * dt := by
  obtain ⟨w, hw⟩ : ∃ w, w = consVec S.rho S.rho_u S.rho_E := ⟨_, rfl⟩
  rw [← hw] at hN ⊢
  let X := P.element
  let Z := P.facet
  obtain ⟨x0, hx0⟩ : ∃ x0 : X, x0 = ⟨(0, fun _ => w, fun _ => w), hP.constant w⟩ := ⟨_, rfl⟩
  obtain ⟨ζ0, hζ0⟩ : ∃ ζ0 : Z, ζ0 = ⟨fun _ => w, hP.constantHat w⟩ := ⟨_, rfl⟩
  haveI : CompleteSpace X := FiniteDimensional.complete ℝ X
  obtain ⟨r, hr, ρ, hρ, K, L, Kv, h, Ψ, st, hKv, hK, h0, hL, hΨ0, hhρ, hv1, hv2, hstU, hst, hstep, -⟩ :=
    flow_reduction (rs := rs) hS hP hc σ hw hN hx0 hζ0
  have hz1 : ∀ ζ : Z, ‖ζ.1 - fun _ => w‖ = ‖ζ - ζ0‖ := fun ζ => by rw [hζ0]; rfl
  -- the constants
  have hL0 : (0 : ℝ) ≤ L := L.2
  have hKv0 : (0 : ℝ) < Kv := hKv
  have hK0 : (0 : ℝ) ≤ K := K.2
  obtain ⟨Q, hQ⟩ : ∃ Q, Q = Real.exp (4 * L * T) := ⟨_, rfl⟩
  have hQ0 : 0 < Q := hQ ▸ Real.exp_pos _
  obtain ⟨D, hD⟩ : ∃ D, D = Q * (3 * L * (L * T + 1) * (Kv * Q)) := ⟨_, rfl⟩
  have hD0 : 0 ≤ D := by rw [hD]; positivity
  obtain ⟨C, hC⟩ : ∃ C, C = (1 + K) * (Kv * Q) + D := ⟨_, rfl⟩
  have hC0 : 0 < C := by rw [hC]; positivity
  obtain ⟨R, hR⟩ : ∃ R, R = min (r / Kv) ρ := ⟨_, rfl⟩
  have hR0 : 0 < R := hR ▸ lt_min (div_pos hr hKv0) hρ
  obtain ⟨δ, hδ⟩ : ∃ δ, δ = min (r / 2 / (Kv * Q)) (R / C) := ⟨_, rfl⟩
  have hδ0 : 0 < δ := hδ ▸ lt_min (by positivity) (by positivity)
  have hδ1 : Kv * Q * δ ≤ r / 2 := by
    have : δ ≤ r / 2 / (Kv * Q) := hδ ▸ min_le_left _ _
    rwa [le_div_iff₀ (by positivity), mul_comm] at this
  have hδ2 : C * δ ≤ R := by
    have : δ ≤ R / C := hδ ▸ min_le_right _ _
    rwa [le_div_iff₀ hC0, mul_comm] at this
  -- states near the flow
  have hback : ∀ y : HdgState n (n + 2) V B,
      y.NearFlow γ rs P M mask cond σ (conservativeDict S) w R → ∃ (a : X) (ζ : Z), ‖a - x0‖ ≤ r ∧
        ‖ζ - ζ0‖ ≤ ρ ∧ y = st a ζ := by
    rintro y ⟨a, ha, ζ, hζ, hfl, hva, hvz⟩
    rw [near_iff hR0.le] at hva hvz
    rw [hfl.values] at hva
    have har : ‖(⟨a, ha⟩ : X) - x0‖ ≤ r := by
      refine (hv1 ⟨a, ha⟩).trans ?_
      calc (Kv : ℝ) * ‖a.2.1 - fun _ => w‖ ≤ Kv * (r / Kv) :=
            mul_le_mul_of_nonneg_left (hva.trans (hR ▸ min_le_left _ _)) hKv0.le
        _ = r := mul_div_cancel₀ r hKv0.ne'
    have hzr : ‖(⟨ζ, hζ⟩ : Z) - ζ0‖ ≤ ρ := by
      rw [← hz1]
      exact hvz.trans (hR ▸ min_le_right _ _)
    exact ⟨⟨a, ha⟩, ⟨ζ, hζ⟩, har, hzr, (hst ⟨a, ha⟩ ⟨ζ, hζ⟩ har hzr y).1 hfl⟩
  have hforth : ∀ (a : X) (q : ℝ), ‖a - x0‖ ≤ r → ‖a - x0‖ ≤ Kv * Q * q → 0 ≤ q →
      (st a (h a)).NearFlow γ rs P M mask cond σ (conservativeDict S) w (C * q) := by
    intro a q har haq hq
    have hCq : 0 ≤ C * q := mul_nonneg hC0.le hq
    have b0 : (1 + (K : ℝ)) * (Kv * Q * q) ≤ C * q := by
      rw [hC]
      have : 0 ≤ D * q := mul_nonneg hD0 hq
      linarith
    have b1 : 0 ≤ (K : ℝ) * (Kv * Q * q) := mul_nonneg hK0 ((norm_nonneg _).trans haq)
    refine ⟨a.1, a.2, (h a).1, (h a).2, (hst a (h a) har (hhρ a har) _).2 rfl, ?_, ?_⟩
    · rw [near_iff hCq, hstU]
      refine (hv2 a).trans (haq.trans ?_)
      linarith
    · rw [near_iff hCq, hz1, ← h0]
      have := hK.dist_le_mul a (by rwa [mem_closedBall, dist_eq_norm]) x0 (mem_closedBall_self hr.le)
      rw [dist_eq_norm, dist_eq_norm] at this
      refine this.trans ((mul_le_mul_of_nonneg_left haq hK0).trans ?_)
      have := (norm_nonneg _).trans haq
      linarith
  refine ⟨1 / (4 * (L + 1)), by positivity, δ, hδ0, C, R, hR0, hδ2, ?_⟩
  rintro η hη hηδ x₀ ⟨a, ha, hxa⟩ hxn
  rw [near_iff hη, hxa] at hxn
  have hax : ‖(⟨a, ha⟩ : X) - x0‖ ≤ Kv * η := (hv1 ⟨a, ha⟩).trans (mul_le_mul_of_nonneg_left hxn hKv0.le)
  obtain ⟨A, hA⟩ : ∃ A : X, A = ⟨a, ha⟩ := ⟨_, rfl⟩
  rw [← hA] at hax
  have hxA : x₀.U = A.1.2.1 := by rw [hxa, hA]
  have hQη : Kv * η * Q ≤ r / 2 := by
    calc Kv * η * Q = Kv * Q * η := by ring
      _ ≤ Kv * Q * δ := mul_le_mul_of_nonneg_left hηδ (by positivity)
      _ ≤ _ := hδ1
  have hexp2 : Real.exp (2 * L * T) ≤ Q := by
    rw [hQ]
    exact Real.exp_le_exp.2 (by have : 0 ≤ L * T := by positivity
                                linarith)
  have hb2 : ‖A - x0‖ * Real.exp (2 * L * T) ≤ Kv * Q * η := by
    calc _ ≤ Kv * η * Q := mul_le_mul hax hexp2 (Real.exp_pos _).le (by positivity)
      _ = _ := by ring
  have hrη : Kv * Q * η ≤ r := by
    have : Kv * Q * η = Kv * η * Q := by ring
    linarith
  obtain ⟨u, hu0, hu, hun⟩ := solves_exists hr hL hΨ0 hT.le (hb2.trans hrη)
  have hur : ∀ t ∈ Icc 0 T, ‖u t - x0‖ ≤ Kv * Q * η := fun t ht => (hun t ht).trans hb2
  have hur' : ∀ t ∈ Icc 0 T, ‖u t - x0‖ ≤ r := fun t ht => (hur t ht).trans hrη
  refine ⟨fun t => st (u t) (h (u t)), ⟨fun t ht => hforth _ _ (hur' t ht) (hur t ht) hη,
    fun t ht => ⟨(Ψ (u t)).1.2.1, fun v i => ?_, ?_⟩⟩, ?_, ?_, ?_⟩
  · have := path_values (hu t ht) v i
    simpa only [hstU] using this
  · exact (rate_iff hstU hstep (hur' t ht) (hhρ _ (hur' t ht)) (Ψ (u t))).2 ⟨rfl, rfl⟩
  · show (st (u 0) (h (u 0))).U = x₀.U
    rw [hstU, hu0, hxA]
  · -- uniqueness
    intro z hz hz0
    choose! b ζ hbr hζr hzb using fun t ht => hback (z t) (hz.near t ht)
    have hbU : ∀ t ∈ Icc 0 T, (z t).U = (b t).1.2.1 := fun t ht => by rw [hzb t ht, hstU]
    have hsol : ∀ t ∈ Icc 0 T, HasDerivWithinAt b (Ψ (b t)) (Icc 0 T) t ∧ ζ t = h (b t) := by
      intro t ht
      obtain ⟨d, hd, hrate⟩ := hz.rate t ht
      obtain ⟨e, he, hbe⟩ := element_path hP hT (U := fun s => (z s).U) hbU ht hd
      rw [← he, hzb t ht] at hrate
      obtain ⟨e1, e2⟩ := (rate_iff hstU hstep (hbr t ht) (hζr t ht) e).1 hrate
      exact ⟨e1 ▸ hbe, e2⟩
    have h00 : (0 : ℝ) ∈ Icc 0 T := ⟨le_rfl, hT.le⟩
    have hb0 : b 0 = u 0 := by
      have h1 : (b 0).1.2.1 = (u 0).1.2.1 := by rw [← hbU 0 h00, hz0, hu0, hxA]
      have h2 : (b 0 - u 0).1 = 0 := hP.determined _ (b 0 - u 0).2 (by
        show (b 0).1.2.1 - (u 0).1.2.1 = 0
        rw [h1, sub_self])
      exact sub_eq_zero.1 (Subtype.ext h2)
    intro t ht
    have := solves_unique hL (fun t ht => (hsol t ht).1) hu hbr hur' hb0 t ht
    show z t = st (u t) (h (u t))
    rw [hzb t ht, (hsol t ht).2, this]
  · intro s dt hdt hdt0 ts hdtT
    have hdtL : dt * L ≤ 1 / 4 := by
      rw [le_div_iff₀ (by positivity)] at hdt0
      nlinarith
    constructor
    · have hE : ‖A - x0‖ + 1 / 2 * ‖A - A‖ ≤ Kv * η := by simpa using hax
      have hexp : Real.exp (4 * L * dt * ts.length) ≤ Q := by
        rw [hQ]
        refine Real.exp_le_exp.2 ?_
        calc 4 * (L : ℝ) * dt * ts.length = 4 * L * (dt * ts.length) := by ring
          _ ≤ 4 * L * T := mul_le_mul_of_nonneg_left hdtT (by positivity)
      have hbd : (‖A - x0‖ + 1 / 2 * ‖A - A‖) * Real.exp (4 * L * dt * ts.length) ≤ Kv * η * Q :=
        mul_le_mul hE hexp (Real.exp_pos _).le (by positivity)
      obtain ⟨as, hsat, hnear, -⟩ := steps_solution hL hΨ0 s hdt.le hdtL ts A A (hbd.trans hQη)
      have hn1 : ∀ a ∈ as, ‖a - x0‖ ≤ Kv * Q * η := fun a ha =>
        (hnear a ha).trans (hbd.trans (le_of_eq (by ring)))
      have hn2 : ∀ a ∈ as, ‖a - x0‖ ≤ r := fun a ha => (hn1 a ha).trans hrη
      refine ⟨as.map fun a => st a (h a), runs_forward hstU
        (fun t a ha cur prev c p e1 e2 hi => (hstep s dt hdt t a (h a) ha (hhρ a ha) cur prev c p e1
          e2).2 ⟨hi, rfl⟩) ts as x₀ x₀ A A hxA hxA hn2 hsat, ?_⟩
      intro x hx
      obtain ⟨a, ha, rfl⟩ := List.mem_map.1 hx
      exact hforth a η (hn2 a ha) (hn1 a ha) hη
    · intro xs hxs hnear i hi v j
      obtain ⟨bs, hbs, hbr, hbsat⟩ := runs_backward (x0 := x0) (r := r) (h := h) (Ψ := Ψ) hstU
        (fun t y cur prev hy c p e1 e2 hs => by
          obtain ⟨a, ζ, har, hζr, hya⟩ := hback y hy
          rw [hya] at hs
          obtain ⟨i1, i2⟩ := (hstep s dt hdt t a ζ har hζr cur prev c p e1 e2).1 hs
          exact ⟨a, har, by rw [hya, i2], i1⟩) ts xs x₀ x₀ A A hxA hxA hnear hxs
      subst hbs
      have hi' : i < bs.length := by simpa using hi
      rw [← hu0] at hbsat
      have herr := run_error hr.le hL hΨ0 s hdt hdtL hu hur' hur ts hdtT bs hbsat hbr i hi'
      rw [List.getElem_map, hstU]
      show |bs[i].1.2.1 v j - (st (u ((i + 1) * dt)) (h (u ((i + 1) * dt)))).U v j| ≤ _
      rw [hstU]
      have h1 : |bs[i].1.2.1 v j - (u ((i + 1) * dt)).1.2.1 v j| ≤ ‖bs[i] - u ((i + 1) * dt)‖ := by
        have n1 : ‖(bs[i] - u ((i + 1) * dt)).1.2.1‖ ≤ ‖(bs[i] - u ((i + 1) * dt)).1‖ :=
          (norm_fst_le _).trans (norm_snd_le _)
        have n2 := norm_le_pi_norm (bs[i] - u ((i + 1) * dt)).1.2.1 v
        have n3 := norm_le_pi_norm ((bs[i] - u ((i + 1) * dt)).1.2.1 v) j
        exact n3.trans (n2.trans n1)
      refine h1.trans (herr.trans ?_)
      refine mul_le_mul_of_nonneg_right ?_ hdt.le
      rw [← hQ]
      have e : Q * (3 * L * (L * T + 1) * (Kv * Q * η)) = D * η := by rw [hD]; ring
      rw [e, hC]
      refine mul_le_mul_of_nonneg_right ?_ hη
      have : 0 ≤ (1 + (K : ℝ)) * (Kv * Q) := by positivity
      linarith

variable {E : Type} [Fintype E] {K : Triangulation E} {R : VolumeRule} {S : SideRule}

/-- **C96** Near every uniform flow, runs with short time steps approximate the flow in continuous
time. To every time `T` there are a longest step `dt₀`, a distance `δ`, a factor `C` and a radius `r`
such that for every initial state that differs from the uniform flow by `η ≤ δ`
* there is exactly one evolution in continuous time from 0 to `T` that starts there and stays within
  the radius `r`, and it stays within `C η`,
* for both schemes, every time step `dt ≤ dt₀` and every number of steps up to `T` there is a run of
  the solver within `C η`, and every run within the radius `r` differs from the evolution at the
  times of the steps by at most `C η dt`: halving the step halves the bound.
The initial state counts as the state at the last two times, as in the code. -/
theorem C96_converges {rs : Riemann} (hrs : rs.AnyDim) {S : GasState n} (hS : IdealGas γ S)
    {P : HdgSpaces n (n + 2) V B} {M : HdgMesh n V B} {mask : B → ℝ} (hP : P.Fits M mask)
    {cond : B → FacetCond n} (hc : ∀ b, mask b = 0 → (cond b).Admits S (M.normal b)) (σ : V → ℝ)
    {T : ℝ} (hT : 0 < T) :
    ∃ dt₀ > 0, ∃ δ > 0, ∃ C, ∃ r > 0, C * δ ≤ r ∧ ∀ η, 0 ≤ η → η ≤ δ →
      ∀ x₀ : HdgState n (n + 2) V B, (∃ a ∈ P.element, x₀.U = a.2.1) →
      (∀ v i, |x₀.U v i - consVec S.rho S.rho_u S.rho_E i| ≤ η) →
      ∃ y, IsEvolution γ rs P M mask cond σ (conservativeDict S) (consVec S.rho S.rho_u S.rho_E)
          (C * η) T y ∧ (y 0).U = x₀.U ∧
        (∀ z, IsEvolution γ rs P M mask cond σ (conservativeDict S)
          (consVec S.rho S.rho_u S.rho_E) r T z → (z 0).U = x₀.U → ∀ t ∈ Icc 0 T, z t = y t) ∧
        ∀ (s : Scheme) (dt : ℝ), 0 < dt → dt ≤ dt₀ → ∀ ts : List ℚ, dt * ts.length ≤ T →
          (∃ xs, Satisfies (hdgStep M mask P.tests (s.quotient dt)) x₀ x₀ ts xs ∧
            ∀ x ∈ xs, x.NearFlow γ rs P M mask cond σ (conservativeDict S)
              (consVec S.rho S.rho_u S.rho_E) (C * η)) ∧
          ∀ xs, Satisfies (hdgStep M mask P.tests (s.quotient dt)) x₀ x₀ ts xs →
            (∀ x ∈ xs, x.NearFlow γ rs P M mask cond σ (conservativeDict S)
              (consVec S.rho S.rho_u S.rho_E) r) →
            ∀ i (hi : i < xs.length), ∀ v j,
              |xs[i].U v j - (y ((i + 1) * dt)).U v j| ≤ C * η * dt :=
  converges_of_fits hS hP hc σ (fits_of_anyDim hrs hP hS.gamma (gasVec_of hS)) hT

/-- **C96** On every conforming triangulation, of any size and for every order, with quadrature rules
and conditions as in `C94_triangulation`: the computed states converge, with the time step, to those
of the flow in continuous time that starts from the same piecewise polynomials. -/
theorem C96_triangulation (hK : K.Conforming) {bcs : Conditions} (hc : K.Covered bcs) {d : ℕ}
    (hd : 1 ≤ d) (hR : R.Exact d) (hS : S.Exact d) (hRw : ∀ q, 0 < R.w q) (hSw : ∀ q, 0 < S.w q)
    (hSs : S.Symmetric) {order : E → ℕ} {orderHat : E × Fin 3 → ℕ} (ho : ∀ e, 2 * order e ≤ d)
    {rs : Riemann} (hrs : rs.AnyDim) {W : GasState 2} (hW : IdealGas γ W)
    {cond : (E × Fin 3) × Fin S.n → FacetCond 2}
    (hcond : ∀ b, K.across b.1 = none → (cond b).Admits W (K.normal b.1))
    (σ : E × Fin R.n → ℝ) {T : ℝ} (hT : 0 < T) :
    ∃ dt₀ > 0, ∃ δ > 0, ∃ C, ∃ r > 0, C * δ ≤ r ∧ ∀ η, 0 ≤ η → η ≤ δ →
      ∀ p : E → Fin 4 → MvPolynomial (Fin 2) ℝ, (∀ e i, (p e i).totalDegree ≤ order e) →
      ∀ x₀ : HdgState 2 4 (E × Fin R.n) ((E × Fin 3) × Fin S.n),
      (∀ v i, x₀.U v i = MvPolynomial.eval (K.pos R v) (p v.1 i)) →
      (∀ v i, |x₀.U v i - consVec W.rho W.rho_u W.rho_E i| ≤ η) →
      ∃ y, IsEvolution γ rs (K.spaces 4 order orderHat R S) (K.mesh R S) ((K.mesh R S).mask bcs) cond σ
          (conservativeDict W) (consVec W.rho W.rho_u W.rho_E) (C * η) T y ∧ (y 0).U = x₀.U ∧
        (∀ z, IsEvolution γ rs (K.spaces 4 order orderHat R S) (K.mesh R S) ((K.mesh R S).mask bcs)
          cond σ (conservativeDict W) (consVec W.rho W.rho_u W.rho_E) r T z → (z 0).U = x₀.U →
          ∀ t ∈ Icc 0 T, z t = y t) ∧
        ∀ (s : Scheme) (dt : ℝ), 0 < dt → dt ≤ dt₀ → ∀ ts : List ℚ, dt * ts.length ≤ T →
          (∃ xs, Satisfies (hdgStep (K.mesh R S) ((K.mesh R S).mask bcs)
              (K.space 4 order orderHat R S) (s.quotient dt)) x₀ x₀ ts xs ∧
            ∀ x ∈ xs, x.NearFlow γ rs (K.spaces 4 order orderHat R S) (K.mesh R S)
              ((K.mesh R S).mask bcs) cond σ (conservativeDict W)
              (consVec W.rho W.rho_u W.rho_E) (C * η)) ∧
          ∀ xs, Satisfies (hdgStep (K.mesh R S) ((K.mesh R S).mask bcs)
              (K.space 4 order orderHat R S) (s.quotient dt)) x₀ x₀ ts xs →
            (∀ x ∈ xs, x.NearFlow γ rs (K.spaces 4 order orderHat R S) (K.mesh R S)
              ((K.mesh R S).mask bcs) cond σ (conservativeDict W)
              (consVec W.rho W.rho_u W.rho_E) r) →
            ∀ i (hi : i < xs.length), ∀ v j,
              |xs[i].U v j - (y ((i + 1) * dt)).U v j| ≤ C * η * dt := by
  have hcond' : ∀ b, (K.mesh R S).mask bcs b = 0 → (cond b).Admits W ((K.mesh R S).normal b) := by
    intro b hb
    refine hcond b ?_
    by_contra h
    rw [hc.mask_one (R := R) b h] at hb
    exact one_ne_zero hb
  obtain ⟨dt₀, h1, δ, h2, C, r, h3, h4, h5⟩ :=
    C96_converges hrs hW (spaces_fit (k := 4) (orderHat := orderHat) hK hc hd hR hS hRw hSw hSs ho)
      hcond' σ hT
  refine ⟨dt₀, h1, δ, h2, C, r, h3, h4, ?_⟩
  intro η hη hηδ p hp x₀ hxU hxn
  have := h5 η hη hηδ x₀ ⟨_, ⟨p, hp, rfl⟩, funext fun v => funext fun i => hxU v i⟩ hxn
  rwa [Triangulation.spaces_tests] at this

/-- C96, concrete instance: the channel of `C94_triangulation` with an initial density that varies
linearly, up to the time 3. All hypotheses of `C96_triangulation` hold, and so all those of
`C96_converges`; there are runs, and they approximate the evolution. -/
example {rs : Riemann} (hrs : rs.AnyDim) : ∃ (R : VolumeRule) (S : SideRule) (ε : ℝ),
    0 < ε ∧ ∃ dt₀ > 0, ∃ C, ∀ x : HdgState 2 4 (Bool × Fin R.n) ((Bool × Fin 3) × Fin S.n),
      (∀ v, x.U v = consVec (2 + ε * (squareMesh false).pos R v 0) ![2, 0] (32 / 7)) →
      ∃ y : ℝ → HdgState 2 4 (Bool × Fin R.n) ((Bool × Fin 3) × Fin S.n), (y 0).U = x.U ∧
      (∃ r, IsEvolution (7 / 5) rs ((squareMesh false).spaces 4 (fun _ => 2) (fun _ => 3) R S)
        ((squareMesh false).mesh R S) (((squareMesh false).mesh R S).mask (squareConditions false))
        (channelCond S) (fun _ => 1) (conservativeDict channelState)
        (consVec channelState.rho channelState.rho_u channelState.rho_E) r 3 y) ∧
      ∀ (s : Scheme) (dt : ℝ), 0 < dt → dt ≤ dt₀ → ∀ ts : List ℚ, dt * ts.length ≤ 3 →
      ∃ xs : List (HdgState 2 4 (Bool × Fin R.n) ((Bool × Fin 3) × Fin S.n)),
        Satisfies (hdgStep ((squareMesh false).mesh R S)
          (((squareMesh false).mesh R S).mask (squareConditions false))
          ((squareMesh false).space 4 (fun _ => 2) (fun _ => 3) R S) (s.quotient dt)) x x ts xs ∧
        ∀ i (hi : i < xs.length), ∀ v j, |xs[i].U v j - (y ((i + 1) * dt)).U v j| ≤ C * dt := by
  obtain ⟨⟨R, hR, hRw⟩, S, hS, hSw, hSs⟩ := C94_rules 4
  obtain ⟨dt₀, h1, δ, h2, C, r, h3, h4, h⟩ :=
    C96_triangulation (orderHat := fun _ => 3) (squareMesh_conforming false) (squareMesh_covered false)
      (d := 4) (by norm_num) hR hS hRw hSw hSs (order := fun _ => 2) (fun _ => le_rfl) hrs
      channelState_ideal (channel_admits S) (fun _ => 1) (T := 3) (by norm_num)
  obtain ⟨A, hA⟩ : ∃ A, A = ∑ v, |(squareMesh false).pos R v 0| := ⟨_, rfl⟩
  have hA0 : 0 ≤ A := hA ▸ Finset.sum_nonneg fun _ _ => abs_nonneg _
  have hAv : ∀ v, |(squareMesh false).pos R v 0| ≤ A := fun v => hA ▸
    Finset.single_le_sum (f := fun v => |(squareMesh false).pos R v 0|) (fun _ _ => abs_nonneg _)
      (Finset.mem_univ v)
  refine ⟨R, S, δ / (A + 1), by positivity, dt₀, h1, C * δ, fun x hx => ?_⟩
  have hw : consVec channelState.rho channelState.rho_u channelState.rho_E = ![2, 2, 0, 32 / 7] := by
    funext i
    fin_cases i
    · rfl
    · show (2 : ℝ) * 1 = 2
      norm_num
    · show (2 : ℝ) * 0 = 0
      norm_num
    · show (2 : ℝ) * (25 / 14 + (![1, 0] ⬝ᵥ ![1, 0]) / 2) = 32 / 7
      norm_num [dotProduct, Fin.sum_univ_two]
  have hU : ∀ v i, x.U v i = ![2 + δ / (A + 1) * (squareMesh false).pos R v 0, 2, 0, 32 / 7] i := by
    intro v i
    rw [hx v]
    fin_cases i <;> rfl
  have hpoly : ∀ v i, x.U v i = MvPolynomial.eval ((squareMesh false).pos R v)
      ((![MvPolynomial.C 2 + MvPolynomial.C (δ / (A + 1)) * MvPolynomial.X 0, MvPolynomial.C 2,
        0, MvPolynomial.C (32 / 7)] : Fin 4 → MvPolynomial (Fin 2) ℝ) i) := by
    intro v i
    rw [hU]
    fin_cases i <;> simp
  have hdeg : ∀ i, ((![MvPolynomial.C 2 + MvPolynomial.C (δ / (A + 1)) * MvPolynomial.X 0,
      MvPolynomial.C 2, 0, MvPolynomial.C (32 / 7)] : Fin 4 → MvPolynomial (Fin 2) ℝ) i).totalDegree
      ≤ 2 := by
    intro i
    fin_cases i
    · refine (MvPolynomial.totalDegree_add _ _).trans (max_le (by simp) ?_)
      exact (MvPolynomial.totalDegree_mul _ _).trans (by simp)
    all_goals simp
  have hnear : ∀ v i, |x.U v i - consVec channelState.rho channelState.rho_u channelState.rho_E i|
      ≤ δ := by
    intro v i
    rw [hU, hw]
    have h0 : |δ / (A + 1) * (squareMesh false).pos R v 0| ≤ δ := by
      rw [abs_mul, abs_of_pos (by positivity), div_mul_eq_mul_div, div_le_iff₀ (by positivity)]
      have := hAv v
      exact mul_le_mul_of_nonneg_left (by linarith) h2.le
    fin_cases i
    · simpa using h0
    all_goals simp [h2.le]
  obtain ⟨y, y1, y2, -, y4⟩ := h δ h2.le le_rfl _ (fun _ i => hdeg i) x hpoly hnear
  refine ⟨y, y2, ⟨_, y1⟩, fun s dt hdt hdt0 ts hT => ?_⟩
  obtain ⟨⟨xs, e1, e2⟩, e3⟩ := y4 s dt hdt hdt0 ts hT
  refine ⟨xs, e1, e3 xs e1 fun z hz => ?_⟩
  obtain ⟨a, ha, ζ, hζ, hf, n1, n2⟩ := e2 z hz
  exact ⟨a, ha, ζ, hζ, hf, fun v i => (n1 v i).trans h4, fun b i => (n2 b i).trans h4⟩

end Dream
