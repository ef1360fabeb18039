import Verif.Lemmas.Dissipative
import Verif.Lemmas.EnergyAnyDim
import Verif.Props.TimeLimit

/-!
# C99: Closed flows are not amplified, and damped flows return
-/

noncomputable section

namespace Dream
open Matrix _root_.Spec Metric

variable {n : ℕ} {γ : ℝ} {V B : Type} [Fintype V] [Fintype B]

/-- Runs of the reduced equation are runs of the solver, with the energy estimate for its
linearisation. -/
theorem flow_transport {rs : Riemann} {S : GasState n} (hS : IdealGas γ S)
    {P : HdgSpaces n (n + 2) V B} {M : HdgMesh n V B} {mask : B → ℝ} (hP : P.Fits M mask)
    {cond : B → FacetCond n} (hR : P.Rich M mask cond)
    (hc : ∀ b, mask b = 0 → (cond b).Admits S (M.normal b)) {σ : V → ℝ} {σ₀ : ℝ}
    (hσ : ∀ v, σ₀ ≤ σ v) {w : Fin (n + 2) → ℝ} (hw : w = consVec S.rho S.rho_u S.rho_E)
    {N : B → (Fin (n + 2) → ℝ) × (Fin (n + 2) → ℝ) → Fin (n + 2) → ℝ}
    {τ : B → (Fin (n + 2) → ℝ) →L[ℝ] (Fin (n + 2) → ℝ)} (hN : FluxFits γ rs P M mask w N τ)
    {E : (Fin (n + 2) → ℝ) →ₗ[ℝ] (Fin (n + 2) → ℝ) →ₗ[ℝ] ℝ} (hE : EnergyFits γ M mask cond w τ E) :
    ∃ (x0 : P.element) (r : ℝ) (K L Kv : NNReal) (Ψ : P.element → P.element)
      (Ψ' : P.element →L[ℝ] P.element) (F : P.element →ₗ[ℝ] P.element →ₗ[ℝ] ℝ), 0 < r ∧ 0 < Kv ∧
      LipschitzOnWith L Ψ (closedBall x0 r) ∧ Ψ x0 = 0 ∧ HasStrictFDerivAt Ψ Ψ' x0 ∧
      (∀ x y, F x y = F y x) ∧ (∀ x, x ≠ 0 → 0 < F x x) ∧ (∀ a, F (Ψ' a) a ≤ -σ₀ * F a a) ∧
      ∀ r', 0 < r' → r' ≤ r → ∃ R > 0, ∀ (s : Scheme) (dt : ℝ), 0 < dt → ∀ (ts : List ℚ) (η : ℝ),
      0 ≤ η → ∀ prev cur : HdgState n (n + 2) V B, (∃ a ∈ P.element, prev.U = a.2.1) →
      (∃ a ∈ P.element, cur.U = a.2.1) → (∀ v i, |prev.U v i - w i| ≤ η) →
      (∀ v i, |cur.U v i - w i| ≤ η) →
      ∃ c p : P.element, ‖c - x0‖ ≤ Kv * η ∧ ‖p - x0‖ ≤ Kv * η ∧
        ∀ as, Satisfies (implicitStep Ψ s dt) p c ts as → (∀ a ∈ as, ‖a - x0‖ ≤ r) →
        ∃ xs, Satisfies (hdgStep M mask P.tests (s.quotient dt)) prev cur ts xs ∧
          (∀ (i : ℕ) x, xs[i]? = some x → ∃ a, as[i]? = some a ∧ ∀ ε, ‖a - x0‖ ≤ ε →
            x.NearFlow γ rs P M mask cond σ (conservativeDict S) w ((1 + K) * ε)) ∧
          ((∀ bs, Satisfies (implicitStep Ψ s dt) p c ts bs → (∀ b ∈ bs, ‖b - x0‖ ≤ r') → bs = as) →
            ∀ ys, Satisfies (hdgStep M mask P.tests (s.quotient dt)) prev cur ts ys →
            (∀ y ∈ ys, y.NearFlow γ rs P M mask cond σ (conservativeDict S) w R) → ys = xs) := by
  let X := P.element
  let Z := P.facet
  obtain ⟨x0, hx0⟩ : ∃ x0 : X, x0 = ⟨(0, fun _ => w, fun _ => w), hP.constant w⟩ := ⟨_, rfl⟩
  obtain ⟨ζ0, hζ0⟩ : ∃ ζ0 : Z, ζ0 = ⟨fun _ => w, hP.constantHat w⟩ := ⟨_, rfl⟩
  obtain ⟨r, hr, ρ, hρ, K, L, Kv, h, Ψ, st, hKv, hK, h0, hL, hΨ0, hhρ, hv1, hv2, hstU, hst, hstep,
    Ψ', hΨ', hrate⟩ := flow_reduction (rs := rs) hS hP hc σ hw hN hx0 hζ0
  have hz1 : ∀ ζ : Z, ‖ζ.1 - fun _ => w‖ = ‖ζ - ζ0‖ := fun ζ => by rw [hζ0]; rfl
  have hKv0 : (0 : ℝ) < Kv := hKv
  have hK0 : (0 : ℝ) ≤ K := K.2
  have hw0 : w 0 ≠ 0 := by rw [hw]; simpa using hS.rho_pos.ne'
  let F : X →ₗ[ℝ] X →ₗ[ℝ] ℝ := LinearMap.mk₂ ℝ
    (fun a b => ∑ v, M.wV v * E (a.1.2.1 v) (b.1.2.1 v))
    (fun a a' b => by
      simp only [Submodule.coe_add, Prod.snd_add, Prod.fst_add, Pi.add_apply, map_add,
        LinearMap.add_apply, mul_add, Finset.sum_add_distrib])
    (fun c a b => by
      simp only [Submodule.coe_smul, Prod.smul_snd, Prod.smul_fst, Pi.smul_apply, map_smul,
        LinearMap.smul_apply, smul_eq_mul, Finset.mul_sum]
      exact Finset.sum_congr rfl fun v _ => by ring)
    (fun a b b' => by
      simp only [Submodule.coe_add, Prod.snd_add, Prod.fst_add, Pi.add_apply, map_add, mul_add,
        Finset.sum_add_distrib])
    (fun c a b => by
      simp only [Submodule.coe_smul, Prod.smul_snd, Prod.smul_fst, Pi.smul_apply, map_smul,
        smul_eq_mul, Finset.mul_sum]
      exact Finset.sum_congr rfl fun v _ => by ring)
  have hE0 : ∀ v, 0 ≤ E v v := fun v => by
    by_cases hv : v = 0
    · simp [hv]
    · exact (hE.pos _ hv).le
  refine ⟨x0, r, K, L, Kv, Ψ, Ψ', F, hr, hKv, hL, hΨ0, hΨ', ?_, ?_, ?_, ?_⟩
  · intro x y
    exact Finset.sum_congr rfl fun v _ => by rw [hE.comm]
  · intro x hx
    have hx' : x.1.2.1 ≠ 0 := fun h => hx (Subtype.ext (hP.determined _ x.2 h))
    obtain ⟨v, hv⟩ := Function.ne_iff.1 hx'
    exact Finset.sum_pos' (fun v _ => mul_nonneg (hP.volume v).le (hE0 _))
      ⟨v, Finset.mem_univ v, mul_pos (hP.volume v) (hE.pos _ hv)⟩
  · intro a
    obtain ⟨ζ, r1, r2⟩ := hrate a
    exact energy_rate hP hR hw0 hE hσ a.2 ζ.2 (fun φ hφ => r1 ⟨φ, hφ⟩) fun ψ hψ => r2 ⟨ψ, hψ⟩
  intro r' hr' hr'r
  obtain ⟨R, hRR⟩ : ∃ R, R = min (r' / Kv) ρ := ⟨_, rfl⟩
  have hR0 : 0 < R := hRR ▸ lt_min (div_pos hr' hKv0) hρ
  refine ⟨R, hR0, fun s dt hdt ts η hη prev cur ⟨p, hp, hpU⟩ ⟨c, hcm, hcU⟩ hpn hcn => ?_⟩
  rw [near_iff hη] at hpn hcn
  rw [hpU] at hpn
  rw [hcU] at hcn
  have hpx := (hv1 ⟨p, hp⟩).trans (mul_le_mul_of_nonneg_left hpn hKv0.le)
  have hcx := (hv1 ⟨c, hcm⟩).trans (mul_le_mul_of_nonneg_left hcn hKv0.le)
  refine ⟨⟨c, hcm⟩, ⟨p, hp⟩, hcx, hpx, fun as hsat hnr => ?_⟩
  have fwd := runs_forward (P := P) (M := M) (mask := mask) (s := s) (dt := dt) (x0 := x0) (r := r)
    (h := h) (Ψ := Ψ) (st := st) hstU (fun t a ha cu pr c p e1 e2 i =>
      (hstep s dt hdt t a (h a) ha (hhρ a ha) cu pr c p e1 e2).2 ⟨i, rfl⟩)
    ts as cur prev ⟨c, hcm⟩ ⟨p, hp⟩ hcU hpU hnr hsat
  refine ⟨as.map fun a => st a (h a), fwd, ?_, ?_⟩
  · intro i x hx
    rw [List.getElem?_map, Option.map_eq_some_iff] at hx
    obtain ⟨a, hai, rfl⟩ := hx
    refine ⟨a, hai, fun ε hε => ?_⟩
    have har := hnr a (List.mem_of_getElem? hai)
    have hε0 : 0 ≤ ε := (norm_nonneg _).trans hε
    have hCε : 0 ≤ (1 + K) * ε := by positivity
    have hza : ‖h a - ζ0‖ ≤ K * ‖a - x0‖ := by
      have := hK.dist_le_mul a (by rwa [mem_closedBall, dist_eq_norm]) x0
        (mem_closedBall_self hr.le)
      rwa [h0, dist_eq_norm, dist_eq_norm] at this
    have hKε : 0 ≤ K * ε := mul_nonneg hK0 hε0
    refine ⟨a.1, a.2, (h a).1, (h a).2, (hst a (h a) har (hhρ a har) _).2 rfl, ?_, ?_⟩
    · rw [near_iff hCε, hstU]
      refine (hv2 a).trans (hε.trans ?_)
      linarith
    · refine (near_iff hCε).2 (le_trans ?_ (hza.trans ((mul_le_mul_of_nonneg_left hε hK0).trans ?_)))
      · exact (hz1 (h a)).le
      · linarith
  · intro hu ys hys hn
    obtain ⟨bs, b1, b2, b3⟩ := runs_backward (P := P) (M := M) (mask := mask) (s := s) (dt := dt)
      (x0 := x0) (r := r') (h := h) (Ψ := Ψ) (st := st)
      (near := fun y => y.NearFlow γ rs P M mask cond σ (conservativeDict S) w R) hstU
      (by
        intro t y cu pr hy c p e1 e2 s1
        obtain ⟨a, ha, ζ, hζ, hfl, hva, hvz⟩ := hy
        rw [near_iff hR0.le] at hva hvz
        rw [hfl.values] at hva
        have har : ‖(⟨a, ha⟩ : X) - x0‖ ≤ r' := by
          refine (hv1 ⟨a, ha⟩).trans ?_
          calc (Kv : ℝ) * ‖a.2.1 - fun _ => w‖ ≤ Kv * (r' / Kv) :=
                mul_le_mul_of_nonneg_left (hva.trans (hRR ▸ min_le_left _ _)) hKv0.le
            _ = r' := mul_div_cancel₀ r' hKv0.ne'
        have hzr : ‖(⟨ζ, hζ⟩ : Z) - ζ0‖ ≤ ρ := by
          rw [← hz1]
          exact hvz.trans (hRR ▸ min_le_right _ _)
        have hy : y = st ⟨a, ha⟩ ⟨ζ, hζ⟩ := (hst ⟨a, ha⟩ ⟨ζ, hζ⟩ (har.trans hr'r) hzr y).1 hfl
        rw [hy] at s1
        obtain ⟨i1, i2⟩ := (hstep s dt hdt t ⟨a, ha⟩ ⟨ζ, hζ⟩ (har.trans hr'r) hzr cu pr c p e1 e2).1 s1
        rw [i2] at hy
        exact ⟨⟨a, ha⟩, har, hy, i1⟩)
      ts ys cur prev ⟨c, hcm⟩ ⟨p, hp⟩ hcU hpU hn hys
    rw [b1, hu bs b3 b2]

/-- Long steps and long runs, with the energy as hypothesis. -/
theorem long_of_energy {rs : Riemann} {S : GasState n} (hS : IdealGas γ S)
    {P : HdgSpaces n (n + 2) V B} {M : HdgMesh n V B} {mask : B → ℝ} (hP : P.Fits M mask)
    {cond : B → FacetCond n} (hR : P.Rich M mask cond)
    (hc : ∀ b, mask b = 0 → (cond b).Admits S (M.normal b)) {σ : V → ℝ} (hσ : ∀ v, 0 ≤ σ v)
    {N : B → (Fin (n + 2) → ℝ) × (Fin (n + 2) → ℝ) → Fin (n + 2) → ℝ}
    {τ : B → (Fin (n + 2) → ℝ) →L[ℝ] (Fin (n + 2) → ℝ)}
    (hN : FluxFits γ rs P M mask (consVec S.rho S.rho_u S.rho_E) N τ)
    {E : (Fin (n + 2) → ℝ) →ₗ[ℝ] (Fin (n + 2) → ℝ) →ₗ[ℝ] ℝ}
    (hE : EnergyFits γ M mask cond (consVec S.rho S.rho_u S.rho_E) τ E) :
    ∃ C, ∀ T, ∃ δ > 0, ∃ r > 0, C * δ ≤ r ∧ ∀ (s : Scheme) (dt : ℝ), 0 < dt →
      ∀ ts : List ℚ, dt * ts.length ≤ T → ∀ η, 0 ≤ η → η ≤ δ →
      ∀ prev cur : HdgState n (n + 2) V B, (∃ a ∈ P.element, prev.U = a.2.1) →
      (∃ a ∈ P.element, cur.U = a.2.1) →
      (∀ v i, |prev.U v i - consVec S.rho S.rho_u S.rho_E i| ≤ η) →
      (∀ v i, |cur.U v i - consVec S.rho S.rho_u S.rho_E i| ≤ η) →
      ∃ xs, Satisfies (hdgStep M mask P.tests (s.quotient dt)) prev cur ts xs ∧
        (∀ x ∈ xs, x.NearFlow γ rs P M mask cond σ (conservativeDict S)
          (consVec S.rho S.rho_u S.rho_E) (C * η)) ∧
        ∀ ys, Satisfies (hdgStep M mask P.tests (s.quotient dt)) prev cur ts ys →
          (∀ y ∈ ys, y.NearFlow γ rs P M mask cond σ (conservativeDict S)
            (consVec S.rho S.rho_u S.rho_E) r) → ys = xs := by
  obtain ⟨x0, r, K, L, Kv, Ψ, Ψ', F, hr, hKv, hL, hΨ0, hΨ', f1, f2, f3, htr⟩ :=
    flow_transport (rs := rs) hS hP hR hc hσ rfl hN hE
  haveI : CompleteSpace P.element := FiniteDimensional.complete ℝ P.element
  obtain ⟨C, hC, hlong⟩ := dissipative_long hr hL hΨ0 hΨ' f1 f2 (fun a => by simpa using f3 a)
  have hKv0 : (0 : ℝ) < Kv := hKv
  have hK0 : (0 : ℝ) ≤ K := K.2
  have hC1 : 0 < (1 + K) * (C * Kv) := by positivity
  refine ⟨(1 + K) * (C * Kv), fun T => ?_⟩
  obtain ⟨r', hr', hr'r, δ, hδ, hCδ, hrun⟩ := hlong T
  obtain ⟨R, hR0, ht⟩ := htr r' hr' hr'r
  refine ⟨min (δ / Kv) (R / ((1 + K) * (C * Kv))), lt_min (by positivity) (by positivity), R, hR0,
    ?_, ?_⟩
  · calc _ ≤ (1 + K) * (C * Kv) * (R / ((1 + K) * (C * Kv))) :=
        mul_le_mul_of_nonneg_left (min_le_right _ _) hC1.le
      _ = R := mul_div_cancel₀ R hC1.ne'
  intro s dt hdt ts hT η hη hηδ prev cur hp hcu hpn hcn
  have hη1 : Kv * η ≤ δ := by
    have : η ≤ δ / Kv := hηδ.trans (min_le_left _ _)
    rwa [le_div_iff₀ hKv0, mul_comm] at this
  obtain ⟨c, p, n1, n2, hcp⟩ := ht s dt hdt ts η hη prev cur hp hcu hpn hcn
  obtain ⟨as, hsat, hnear, huniq⟩ := hrun s dt hdt ts hT (Kv * η) (by positivity) hη1 c p n1 n2
  have hCr : C * (Kv * η) ≤ r :=
    (mul_le_mul_of_nonneg_left hη1 hC.le).trans (hCδ.trans hr'r)
  obtain ⟨xs, x1, x2, x3⟩ := hcp as hsat fun a ha => (hnear a ha).trans hCr
  refine ⟨xs, x1, fun x hx => ?_, x3 huniq⟩
  obtain ⟨i, hi⟩ := List.mem_iff_getElem?.1 hx
  obtain ⟨a, ha, hn⟩ := x2 i x hi
  have := hn _ (hnear a (List.mem_of_getElem? ha))
  rwa [show (1 + K) * (C * Kv) * η = (1 + K) * (C * (Kv * η)) by ring]

/-- Return to uniform flow, with the energy as hypothesis. -/
theorem returns_of_energy {rs : Riemann} {S : GasState n} (hS : IdealGas γ S)
    {P : HdgSpaces n (n + 2) V B} {M : HdgMesh n V B} {mask : B → ℝ} (hP : P.Fits M mask)
    {cond : B → FacetCond n} (hR : P.Rich M mask cond)
    (hc : ∀ b, mask b = 0 → (cond b).Admits S (M.normal b)) {σ : V → ℝ} {σ₀ : ℝ} (hσ₀ : 0 < σ₀)
    (hσ : ∀ v, σ₀ ≤ σ v)
    {N : B → (Fin (n + 2) → ℝ) × (Fin (n + 2) → ℝ) → Fin (n + 2) → ℝ}
    {τ : B → (Fin (n + 2) → ℝ) →L[ℝ] (Fin (n + 2) → ℝ)}
    (hN : FluxFits γ rs P M mask (consVec S.rho S.rho_u S.rho_E) N τ)
    {E : (Fin (n + 2) → ℝ) →ₗ[ℝ] (Fin (n + 2) → ℝ) →ₗ[ℝ] ℝ}
    (hE : EnergyFits γ M mask cond (consVec S.rho S.rho_u S.rho_E) τ E) :
    ∃ C, ∃ δ > 0, ∃ r > 0, C * δ ≤ r ∧ ∀ (s : Scheme) (dt : ℝ), 0 < dt → ∃ q, 0 < q ∧ q < 1 ∧
      ∀ ts : List ℚ, ∀ η, 0 ≤ η → η ≤ δ →
      ∀ prev cur : HdgState n (n + 2) V B, (∃ a ∈ P.element, prev.U = a.2.1) →
      (∃ a ∈ P.element, cur.U = a.2.1) →
      (∀ v i, |prev.U v i - consVec S.rho S.rho_u S.rho_E i| ≤ η) →
      (∀ v i, |cur.U v i - consVec S.rho S.rho_u S.rho_E i| ≤ η) →
      ∃ xs, Satisfies (hdgStep M mask P.tests (s.quotient dt)) prev cur ts xs ∧
        (∀ (i : ℕ) x, xs[i]? = some x → x.NearFlow γ rs P M mask cond σ (conservativeDict S)
          (consVec S.rho S.rho_u S.rho_E) (C * q ^ (i + 1) * η)) ∧
        ∀ ys, Satisfies (hdgStep M mask P.tests (s.quotient dt)) prev cur ts ys →
          (∀ y ∈ ys, y.NearFlow γ rs P M mask cond σ (conservativeDict S)
            (consVec S.rho S.rho_u S.rho_E) r) → ys = xs := by
  obtain ⟨x0, r, K, L, Kv, Ψ, Ψ', F, hr, hKv, hL, hΨ0, hΨ', f1, f2, f3, htr⟩ :=
    flow_transport (rs := rs) hS hP hR hc hσ rfl hN hE
  haveI : CompleteSpace P.element := FiniteDimensional.complete ℝ P.element
  obtain ⟨C, hC, r', hr', hr'r, δ, hδ, hCδ, hrun⟩ := dissipative_decay hr hL hΨ0 hΨ' f1 f2 hσ₀ f3
  have hKv0 : (0 : ℝ) < Kv := hKv
  have hK0 : (0 : ℝ) ≤ K := K.2
  have hC1 : 0 < (1 + K) * (C * Kv) := by positivity
  obtain ⟨R, hR0, ht⟩ := htr r' hr' hr'r
  refine ⟨(1 + K) * (C * Kv), min (δ / Kv) (R / ((1 + K) * (C * Kv))),
    lt_min (by positivity) (by positivity), R, hR0, ?_, ?_⟩
  · calc _ ≤ (1 + K) * (C * Kv) * (R / ((1 + K) * (C * Kv))) :=
        mul_le_mul_of_nonneg_left (min_le_right _ _) hC1.le
      _ = R := mul_div_cancel₀ R hC1.ne'
  intro s dt hdt
  obtain ⟨q, q0, q1, hq⟩ := hrun s dt hdt
  refine ⟨q, q0, q1, ?_⟩
  intro ts η hη hηδ prev cur hp hcu hpn hcn
  have hη1 : Kv * η ≤ δ := by
    have : η ≤ δ / Kv := hηδ.trans (min_le_left _ _)
    rwa [le_div_iff₀ hKv0, mul_comm] at this
  obtain ⟨c, p, n1, n2, hcp⟩ := ht s dt hdt ts η hη prev cur hp hcu hpn hcn
  obtain ⟨as, hsat, hnear, huniq⟩ := hq ts (Kv * η) (by positivity) hη1 c p n1 n2
  have hnr : ∀ a ∈ as, ‖a - x0‖ ≤ r := fun a ha => by
    obtain ⟨i, hi⟩ := List.mem_iff_getElem?.1 ha
    refine (hnear i a hi).trans ?_
    have h1 : q ^ (i + 1) ≤ 1 := pow_le_one₀ q0.le q1.le
    calc C * q ^ (i + 1) * (Kv * η) ≤ C * 1 * (Kv * η) := by gcongr
      _ = C * (Kv * η) := by ring
      _ ≤ r := (mul_le_mul_of_nonneg_left hη1 hC.le).trans (hCδ.trans hr'r)
  obtain ⟨xs, x1, x2, x3⟩ := hcp as hsat hnr
  refine ⟨xs, x1, fun i x hi => ?_, x3 huniq⟩
  obtain ⟨a, ha, hn⟩ := x2 i x hi
  have := hn _ (hnear i a ha)
  rwa [show (1 + K) * (C * Kv) * q ^ (i + 1) * η = (1 + K) * (C * q ^ (i + 1) * (Kv * η)) by ring]

/-- **C99** In a closed domain (periodic, or with walls and isothermal walls that admit the flow),
flows near uniform flow are not amplified, however long the steps are: with Lax–Friedrichs or HLL and
both schemes there is a factor `C` such that, to every final time `T`, all initial states that differ
from the uniform flow by `η ≤ δ` lead to runs that differ from it by at most `C η`, with every step
and every number of steps up to `T`; and there is no other run within the radius `r`. The factor
depends neither on the step nor on the time. -/
theorem C99_long_runs {rs : Riemann} (hrs : rs.AnyDim) {S : GasState n} (hS : IdealGas γ S)
    {P : HdgSpaces n (n + 2) V B} {M : HdgMesh n V B} {mask : B → ℝ} (hP : P.Fits M mask)
    {cond : B → FacetCond n} (hR : P.Rich M mask cond)
    (hc : ∀ b, mask b = 0 → (cond b).Closed ∧ (cond b).Admits S (M.normal b)) {σ : V → ℝ}
    (hσ : ∀ v, 0 ≤ σ v) :
    ∃ C, ∀ T, ∃ δ > 0, ∃ r > 0, C * δ ≤ r ∧ ∀ (s : Scheme) (dt : ℝ), 0 < dt →
      ∀ ts : List ℚ, dt * ts.length ≤ T → ∀ η, 0 ≤ η → η ≤ δ →
      ∀ prev cur : HdgState n (n + 2) V B, (∃ a ∈ P.element, prev.U = a.2.1) →
      (∃ a ∈ P.element, cur.U = a.2.1) →
      (∀ v i, |prev.U v i - consVec S.rho S.rho_u S.rho_E i| ≤ η) →
      (∀ v i, |cur.U v i - consVec S.rho S.rho_u S.rho_E i| ≤ η) →
      ∃ xs, Satisfies (hdgStep M mask P.tests (s.quotient dt)) prev cur ts xs ∧
        (∀ x ∈ xs, x.NearFlow γ rs P M mask cond σ (conservativeDict S)
          (consVec S.rho S.rho_u S.rho_E) (C * η)) ∧
        ∀ ys, Satisfies (hdgStep M mask P.tests (s.quotient dt)) prev cur ts ys →
          (∀ y ∈ ys, y.NearFlow γ rs P M mask cond σ (conservativeDict S)
            (consVec S.rho S.rho_u S.rho_E) r) → ys = xs :=
  long_of_energy hS hP hR (fun b hb => (hc b hb).2) hσ
    (fits_of_anyDim hrs hP hS.gamma (gasVec_of hS)) (energyFits_anyDim hrs hS hP hc)

/-- **C99** If sponge layers that relax to the uniform flow damp everywhere (profile at least
`σ₀ > 0`), then the flow returns to it: with every step the run exists for any number of steps, and
its distance to the uniform flow decreases geometrically. -/
theorem C99_returns {rs : Riemann} (hrs : rs.AnyDim) {S : GasState n} (hS : IdealGas γ S)
    {P : HdgSpaces n (n + 2) V B} {M : HdgMesh n V B} {mask : B → ℝ} (hP : P.Fits M mask)
    {cond : B → FacetCond n} (hR : P.Rich M mask cond)
    (hc : ∀ b, mask b = 0 → (cond b).Closed ∧ (cond b).Admits S (M.normal b)) {σ : V → ℝ} {σ₀ : ℝ}
    (hσ₀ : 0 < σ₀) (hσ : ∀ v, σ₀ ≤ σ v) :
    ∃ C, ∃ δ > 0, ∃ r > 0, C * δ ≤ r ∧ ∀ (s : Scheme) (dt : ℝ), 0 < dt → ∃ q, 0 < q ∧ q < 1 ∧
      ∀ ts : List ℚ, ∀ η, 0 ≤ η → η ≤ δ →
      ∀ prev cur : HdgState n (n + 2) V B, (∃ a ∈ P.element, prev.U = a.2.1) →
      (∃ a ∈ P.element, cur.U = a.2.1) →
      (∀ v i, |prev.U v i - consVec S.rho S.rho_u S.rho_E i| ≤ η) →
      (∀ v i, |cur.U v i - consVec S.rho S.rho_u S.rho_E i| ≤ η) →
      ∃ xs, Satisfies (hdgStep M mask P.tests (s.quotient dt)) prev cur ts xs ∧
        (∀ (i : ℕ) x, xs[i]? = some x → x.NearFlow γ rs P M mask cond σ (conservativeDict S)
          (consVec S.rho S.rho_u S.rho_E) (C * q ^ (i + 1) * η)) ∧
        ∀ ys, Satisfies (hdgStep M mask P.tests (s.quotient dt)) prev cur ts ys →
          (∀ y ∈ ys, y.NearFlow γ rs P M mask cond σ (conservativeDict S)
            (consVec S.rho S.rho_u S.rho_E) r) → ys = xs :=
  returns_of_energy hS hP hR (fun b hb => (hc b hb).2) hσ₀ hσ
    (fits_of_anyDim hrs hP hS.gamma (gasVec_of hS)) (energyFits_anyDim hrs hS hP hc)

end Dream
