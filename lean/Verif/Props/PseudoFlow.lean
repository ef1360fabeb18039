import Verif.Lemmas.PseudoContract
import Verif.Props.Returns
import Verif.Props.NewtonFlow
import Verif.Spec.PseudoFlow

/-!
# C100: Pseudo time stepping finds the steady flow
-/

noncomputable section

namespace Dream
open Matrix Set Filter Topology _root_.Spec

/-! ### The loop -/

/-- Time steps do not become shorter. -/
theorem update_ge (ps : Pseudo) (hf : 1 ≤ ps.incrementFactor) {old new : ℚ} (h0 : 0 < old)
    {it : ℕ} (h : ps.update old it = .ok new) : old ≤ new := by
  have hf' : (1 : ℚ) ≤ ps.incrementFactor := by exact_mod_cast hf
  unfold Pseudo.update at h
  split_ifs at h with h1 h2 h3 <;> simp only [Except.ok.injEq] at h <;> subst h
  · split_ifs
    · exact h1.le
    · nlinarith
  · exact le_rfl
  · exact le_rfl

theorem update_ok (ps : Pseudo) (ha : ps.incrementAt ≠ 0) (old : ℚ) (it : ℕ) :
    ∃ new, ps.update old it = .ok new := by
  unfold Pseudo.update
  rw [if_neg ha]
  split_ifs <;> exact ⟨_, rfl⟩

/-- Iterations that contract a norm converge. -/
theorem pseudoLoop_contracts {ι X : Type} [AddCommGroup X] [Module ℝ X] (P : Problem ι X X) (ps : Pseudo)
    (ha : ps.incrementAt ≠ 0) (hf : 1 ≤ ps.incrementFactor) (N : Newton X X) (t : ℚ) {dt₀ : ℝ}
    (hdt₀ : 0 < dt₀) (μ : X → ℝ) (hμ : ∀ x, 0 ≤ μ x) {r q A : ℝ} (hq0 : 0 < q) (hq1 : q < 1) (hA : 0 ≤ A)
    (H : ∀ dt : ℚ, dt₀ ≤ dt → ∀ it cur x, μ x ≤ r → ∃ δ e,
      N.lin (P.stepEquation (Scheme.implicitEuler.quotient dt) t x cur) it x = (δ, some e) ∧
        μ (newtonUpdate N.damping x δ) ≤ q * μ x ∧ e ≤ A * μ x ^ 2) (n : ℕ) :
    ∀ (m it : ℕ) (prev cur : X) (st : PseudoState ι X X),
      st.levels = Scheme.implicitEuler.levelsOf (P.comp prev) (P.comp cur) → dt₀ ≤ st.dt →
      1 ≤ m → m ≤ n → ∀ η, μ st.x ≤ η → η ≤ r → A * (q ^ (m - 1) * η) ^ 2 < N.crit →
      ∃ st' xs, pseudoLoop P .implicitEuler ps N t n it st = .ok st' ∧ st'.isConverged = true ∧
        st'.isNan = false ∧ st'.trace = st.trace ++ xs ∧ xs.length ≤ m ∧
        (∀ (i : ℕ) p, xs[i]? = some p → μ p.1 ≤ q ^ i * η) ∧ μ st'.x ≤ q ^ xs.length * η := by
  induction n with
  | zero => intro m it prev cur st _ _ h1 h2; omega
  | succ n ih =>
    intro m it prev cur st hl hdt hm1 hmn η hη hηr hcrit
    obtain ⟨dt, hu⟩ := update_ok ps ha st.dt it
    have hst0 : 0 < st.dt := by
      have : (0 : ℝ) < st.dt := lt_of_lt_of_le hdt₀ hdt
      exact_mod_cast this
    have hge := update_ge ps hf hst0 hu
    have hdt' : dt₀ ≤ (dt : ℝ) := hdt.trans (by exact_mod_cast hge)
    obtain ⟨δ, e, hlin, hstep, he⟩ := H dt hdt' it cur st.x (hη.trans hηr)
    have hη0 : 0 ≤ η := (hμ _).trans hη
    rw [pseudoLoop_succ P _ ps N t n it prev cur st dt hl hu]
    simp only [hlin, Option.isNone_some, Bool.false_eq_true, if_false, decide_eq_true_eq]
    have hx' : μ (newtonUpdate N.damping st.x δ) ≤ q * η :=
      hstep.trans (mul_le_mul_of_nonneg_left hη hq0.le)
    by_cases hconv : e < N.crit
    · rw [if_pos hconv]
      refine ⟨_, [_], rfl, by simp [hconv], rfl, rfl, hm1, ?_, ?_⟩
      · intro i p hp
        cases i with
        | zero =>
          simp only [List.getElem?_cons_zero, Option.some.injEq] at hp
          rw [← hp, pow_zero, one_mul]
          exact hη
        | succ i => simp at hp
      · simpa using hx'
    · rw [if_neg hconv]
      have hm2 : 2 ≤ m := by
        by_contra hlt
        have : m = 1 := by omega
        rw [this] at hcrit
        simp only [le_refl, tsub_eq_zero_of_le, pow_zero, one_mul] at hcrit
        refine hconv (lt_of_le_of_lt (he.trans ?_) hcrit)
        exact mul_le_mul_of_nonneg_left (pow_le_pow_left₀ (hμ _) hη 2) hA
      obtain ⟨st', xs, h1, h2, h3, h4, h5, h6, h7⟩ := ih (m - 1) (it + 1) cur st.x
        { x := newtonUpdate N.damping st.x δ
          levels := Scheme.implicitEuler.levelsOf (P.comp cur) (P.comp st.x)
          dt := dt
          isNan := false
          isConverged := decide (e < N.crit)
          trace := st.trace ++ [(st.x, P.stepEquation (Scheme.implicitEuler.quotient dt) t st.x cur st.x)] }
        rfl hdt' (by omega) (by omega) (q * η) hx' (by nlinarith) (by
          have e1 : q ^ (m - 1 - 1) * (q * η) = q ^ (m - 1) * η := by
            rw [← mul_assoc, ← pow_succ]
            congr 2
            omega
          rwa [e1])
      refine ⟨st', (st.x, P.stepEquation (Scheme.implicitEuler.quotient dt) t st.x cur st.x) :: xs, h1, h2, h3, ?_, ?_, ?_, ?_⟩
      · rw [h4, List.append_assoc]
        rfl
      · simp only [List.length_cons]
        omega
      · intro i p hp
        cases i with
        | zero =>
          simp only [List.getElem?_cons_zero, Option.some.injEq] at hp
          rw [← hp, pow_zero, one_mul]
          exact hη
        | succ i =>
          rw [List.getElem?_cons_succ] at hp
          refine (h6 i p hp).trans (le_of_eq ?_)
          rw [pow_succ]
          ring
      · refine h7.trans (le_of_eq ?_)
        rw [List.length_cons, pow_succ]
        ring

/-! ### The norm that iterations contract -/

variable {n : ℕ} {γ : ℝ} {V B : Type} [Fintype V] [Fintype B] {ι κ : Type} [Fintype ι] [Fintype κ]
  {P : HdgSpaces n (n + 2) V B} {M : HdgMesh n V B} {mask : B → ℝ}

/-- Equations for the functions of a basis are equations for all element functions. -/
theorem element_equation (bX : Module.Basis ι ℝ P.element) (bZ : κ → P.facet) {D : FluxData n V B}
    {a : ElementFn n (n + 2) V B}
    (h : ∀ i, massForm M a (bX i) + (formL M mask bX bZ D).1 i = 0) :
    ∀ φ ∈ P.element, massForm M a φ + spatialForm M mask D (φ, 0) = 0 := by
  intro φ hφ
  have h2 : (massForm M a) ∘ₗ P.element.subtype + (spatialForm M mask D) ∘ₗ
      ((LinearMap.inl ℝ _ _) ∘ₗ P.element.subtype) = 0 := by
    refine bX.ext fun i => ?_
    exact h i
  exact congrArg (fun l : P.element →ₗ[ℝ] ℝ => l ⟨φ, hφ⟩) h2

theorem facet_equation (bX : ι → P.element) (bZ : Module.Basis κ ℝ P.facet) {D : FluxData n V B}
    (h : (formL M mask bX bZ D).2 = 0) : ∀ ψ ∈ P.facet, spatialForm M mask D (0, ψ) = 0 := by
  intro ψ hψ
  have h2 : (spatialForm M mask D) ∘ₗ ((LinearMap.inr ℝ _ _) ∘ₗ P.facet.subtype) = 0 := by
    refine bZ.ext fun j => ?_
    exact congrFun h j
  exact congrArg (fun l : P.facet →ₗ[ℝ] ℝ => l ⟨ψ, hψ⟩) h2

/-- The linearised iterations contract a norm, with one factor for all time steps that are not too
short. -/
theorem linear_contraction {cond : B → FacetCond n} (hP : P.Fits M mask) (hR : P.Rich M mask cond)
    {w : Fin (n + 2) → ℝ} (h0 : w 0 ≠ 0) {τ : B → (Fin (n + 2) → ℝ) →L[ℝ] (Fin (n + 2) → ℝ)}
    {E : (Fin (n + 2) → ℝ) →ₗ[ℝ] (Fin (n + 2) → ℝ) →ₗ[ℝ] ℝ} (hE : EnergyFits γ M mask cond w τ E)
    {σ : V → ℝ} {σ₀ : ℝ} (hσ₀ : 0 < σ₀) (hσ : ∀ v, σ₀ ≤ σ v) (bX : Module.Basis ι ℝ P.element)
    (bZ : Module.Basis κ ℝ P.facet) {S₀ : Coeffs ι κ →L[ℝ] Coeffs ι κ}
    (hS : ∀ x, S₀ x = formL M mask bX bZ (slopeData γ M mask cond σ w τ (inclL bX bZ x)))
    (hinj : ∀ ζ : κ → ℝ, (S₀ (0, ζ)).2 = 0 → ζ = 0) {l₀ : ℝ} (hl₀ : 0 ≤ l₀) :
    ∃ (μ : Seminorm ℝ (Coeffs ι κ)) (k K ρ : ℝ), 0 < k ∧ (∀ x, ‖x‖ ≤ k * μ x) ∧
      (∀ x, μ x ≤ K * ‖x‖) ∧ 0 ≤ ρ ∧ ρ < 1 ∧ ∀ l, 0 ≤ l → l ≤ l₀ → ∀ e g : Coeffs ι κ,
      S₀ g + l • ((massL M bX g.1, 0) : Coeffs ι κ) = l • ((massL M bX e.1, 0) : Coeffs ι κ) →
      μ g ≤ ρ * μ e := by
  let U : (ι → ℝ) →ₗ[ℝ] P.element := Fintype.linearCombination ℝ bX
  have hU : ∀ d, ((U d : P.element) : ElementFn n (n + 2) V B) = elementOf bX d := fun d => rfl
  have hUinj : ∀ d, U d = 0 → d = 0 := fun d hd =>
    funext (Fintype.linearIndependent_iff.1 bX.linearIndependent d hd)
  let F : (ι → ℝ) →ₗ[ℝ] (ι → ℝ) →ₗ[ℝ] ℝ := LinearMap.mk₂ ℝ
    (fun a b => ∑ v, M.wV v * E ((U a).1.2.1 v) ((U b).1.2.1 v))
    (fun a a' b => by
      simp only [map_add, Submodule.coe_add, Prod.snd_add, Prod.fst_add, Pi.add_apply,
        LinearMap.add_apply, mul_add, Finset.sum_add_distrib])
    (fun c a b => by
      simp only [map_smul, Submodule.coe_smul, Prod.smul_snd, Prod.smul_fst, Pi.smul_apply,
        LinearMap.smul_apply, smul_eq_mul, Finset.mul_sum]
      exact Finset.sum_congr rfl fun v _ => by ring)
    (fun a b b' => by
      simp only [map_add, Submodule.coe_add, Prod.snd_add, Prod.fst_add, Pi.add_apply, mul_add,
        Finset.sum_add_distrib])
    (fun c a b => by
      simp only [map_smul, Submodule.coe_smul, Prod.smul_snd, Prod.smul_fst, Pi.smul_apply,
        smul_eq_mul, Finset.mul_sum]
      exact Finset.sum_congr rfl fun v _ => by ring)
  have hF : ∀ a b, F a b = ∑ v, M.wV v * E ((U a).1.2.1 v) ((U b).1.2.1 v) := fun _ _ => rfl
  have hE0 : ∀ v, 0 ≤ E v v := fun v => by
    by_cases hv : v = 0
    · simp [hv]
    · exact (hE.pos _ hv).le
  obtain ⟨e, he⟩ := exists_coordinates F
    (fun x y => by rw [hF, hF]; exact Finset.sum_congr rfl fun v _ => by rw [hE.comm])
    (fun x hx => by
      have hx' : (U x).1.2.1 ≠ 0 := fun h =>
        hx (hUinj x (Subtype.ext (hP.determined _ (U x).2 h)))
      obtain ⟨v, hv⟩ := Function.ne_iff.1 hx'
      rw [hF]
      exact Finset.sum_pos' (fun v _ => mul_nonneg (hP.volume v).le (hE0 _))
        ⟨v, Finset.mem_univ v, mul_pos (hP.volume v) (hE.pos _ hv)⟩)
  have hsq : ∀ a, F a a = ‖e a‖ ^ 2 := fun a => by rw [he, real_inner_self_eq_norm_sq]
  -- bounds for the coordinates and for the facet unknowns
  obtain ⟨ec, hec⟩ := exists_clm e.toLinearMap
  obtain ⟨es, hes⟩ := exists_clm e.symm.toLinearMap
  have hec' : ∀ a, ‖e a‖ ≤ ‖ec‖ * ‖a‖ := fun a => by
    have := ec.le_opNorm a
    rwa [hec] at this
  have hes' : ∀ a, ‖a‖ ≤ ‖es‖ * ‖e a‖ := fun a => by
    have := es.le_opNorm (e a)
    rw [hes] at this
    simpa using this
  let T : (κ → ℝ) →ₗ[ℝ] (κ → ℝ) := LinearMap.snd ℝ (ι → ℝ) (κ → ℝ) ∘ₗ S₀.toLinearMap ∘ₗ
    LinearMap.inr ℝ (ι → ℝ) (κ → ℝ)
  have hT : ∀ ζ, T ζ = (S₀ (0, ζ)).2 := fun _ => rfl
  obtain ⟨K₁, -, hanti⟩ := T.exists_antilipschitzWith
    (LinearMap.ker_eq_bot'.2 fun ζ hζ => hinj ζ (by rw [← hT]; exact hζ))
  have hfac : ∀ g : Coeffs ι κ, (S₀ g).2 = 0 → ‖g.2‖ ≤ K₁ * (‖S₀‖ * (‖es‖ * ‖e g.1‖)) := by
    intro g hg
    have h1 := hanti.le_mul_dist g.2 0
    rw [map_zero, dist_zero_right, dist_zero_right, hT] at h1
    refine h1.trans (mul_le_mul_of_nonneg_left ?_ K₁.2)
    have e1 : (S₀ (0, g.2)).2 = -(S₀ (g.1, 0)).2 := by
      have e2 : g = (g.1, 0) + (0, g.2) := by
        refine Prod.ext ?_ ?_ <;> simp
      rw [e2, map_add] at hg
      have := eq_neg_of_add_eq_zero_right hg
      simpa using this
    rw [e1, norm_neg]
    calc ‖(S₀ (g.1, 0)).2‖ ≤ ‖S₀ (g.1, 0)‖ := norm_snd_le _
      _ ≤ ‖S₀‖ * ‖((g.1, 0) : Coeffs ι κ)‖ := S₀.le_opNorm _
      _ = ‖S₀‖ * ‖g.1‖ := by rw [Prod.norm_mk, norm_zero, max_eq_left (norm_nonneg _)]
      _ ≤ _ := mul_le_mul_of_nonneg_left (hes' _) (norm_nonneg _)
  obtain ⟨Q, hQ⟩ : ∃ Q, Q = (K₁ : ℝ) * (‖S₀‖ * ‖es‖) := ⟨_, rfl⟩
  have hQ0 : 0 ≤ Q := by
    rw [hQ]
    have := K₁.2
    positivity
  obtain ⟨ρ₁, hρ₁⟩ : ∃ ρ₁, ρ₁ = l₀ / (l₀ + σ₀) := ⟨_, rfl⟩
  have hρ0 : 0 ≤ ρ₁ := by rw [hρ₁]; positivity
  have hρ1 : ρ₁ < 1 := by
    rw [hρ₁, div_lt_one (by positivity)]
    linarith
  obtain ⟨ε, hε⟩ : ∃ ε, ε = (1 - ρ₁) / (2 * (Q + 1)) := ⟨_, rfl⟩
  have hε0 : 0 < ε := by rw [hε]; exact div_pos (by linarith) (by positivity)
  have hεQ : ε * Q ≤ (1 - ρ₁) / 2 := by
    have : ε * (Q + 1) = (1 - ρ₁) / 2 := by rw [hε]; field_simp
    nlinarith
  let μ : Seminorm ℝ (Coeffs ι κ) :=
    (normSeminorm ℝ (EuclideanSpace ℝ (Fin (Module.finrank ℝ (ι → ℝ))))).comp
      (e.toLinearMap ∘ₗ LinearMap.fst ℝ (ι → ℝ) (κ → ℝ))
    + (normSeminorm ℝ (κ → ℝ)).comp (ε • LinearMap.snd ℝ (ι → ℝ) (κ → ℝ))
  have hμ : ∀ x, μ x = ‖e x.1‖ + ε * ‖x.2‖ := fun x => by
    show ‖e x.1‖ + ‖ε • x.2‖ = _
    rw [norm_smul, Real.norm_of_nonneg hε0.le]
  refine ⟨μ, ‖es‖ + 1 / ε, ‖ec‖ + ε, (1 + ρ₁) / 2, by positivity, fun x => ?_, fun x => ?_,
    by linarith, by linarith, fun l hl hl' d g hdg => ?_⟩
  · rw [hμ, Prod.norm_def]
    have a1 := hes' x.1
    have n1 := norm_nonneg (e x.1)
    have n2 := norm_nonneg x.2
    have n3 := norm_nonneg es
    have e1 : (‖es‖ + 1 / ε) * (‖e x.1‖ + ε * ‖x.2‖)
        = ‖es‖ * ‖e x.1‖ + ‖es‖ * (ε * ‖x.2‖) + 1 / ε * ‖e x.1‖ + ‖x.2‖ := by
      field_simp
      ring
    rw [e1]
    have p1 : 0 ≤ ‖es‖ * (ε * ‖x.2‖) := by positivity
    have p2 : 0 ≤ 1 / ε * ‖e x.1‖ := by positivity
    have p3 : 0 ≤ ‖es‖ * ‖e x.1‖ := by positivity
    exact max_le (by linarith) (by linarith)
  · rw [hμ]
    have a1 := hec' x.1
    have a2 := mul_le_mul_of_nonneg_left (norm_fst_le x) (norm_nonneg ec)
    have a3 := mul_le_mul_of_nonneg_left (norm_snd_le x) hε0.le
    linarith
  · have c1 : (S₀ g).1 + l • massL M bX g.1 = l • massL M bX d.1 := congrArg Prod.fst hdg
    have c2 : (S₀ g).2 = 0 := by
      have := congrArg Prod.snd hdg
      simpa using this
    have rate := energy_rate hP hR h0 hE hσ (a := elementOf bX g.1) (a' := elementOf bX (l • (g.1 - d.1)))
      (ζ := facetOf bZ g.2) (Subtype.property _) (Subtype.property _)
      (element_equation bX bZ (D := slopeData γ M mask cond σ w τ (inclL bX bZ g)) fun i => by
        rw [← hS, ← massL_apply, map_smul, map_sub]
        have := congrFun c1 i
        simp only [Pi.add_apply, Pi.smul_apply, smul_eq_mul, Pi.sub_apply] at this ⊢
        linarith)
      (facet_equation bX bZ (D := slopeData γ M mask cond σ w τ (inclL bX bZ g)) (by rw [← hS]; exact c2))
    have rate' : F (l • (g.1 - d.1)) g.1 ≤ -σ₀ * F g.1 g.1 := rate
    rw [map_smul, map_sub, LinearMap.smul_apply, LinearMap.sub_apply, smul_eq_mul, hsq, he] at rate'
    have cs := real_inner_le_norm (e d.1) (e g.1)
    have main : (l + σ₀) * ‖e g.1‖ ≤ l * ‖e d.1‖ := by
      have h1 : (l + σ₀) * ‖e g.1‖ ^ 2 ≤ l * (‖e d.1‖ * ‖e g.1‖) := by
        have := mul_le_mul_of_nonneg_left cs hl
        linarith
      rcases (norm_nonneg (e g.1)).eq_or_lt with h | h
      · rw [← h, mul_zero]
        positivity
      · have h2 : ((l + σ₀) * ‖e g.1‖) * ‖e g.1‖ ≤ (l * ‖e d.1‖) * ‖e g.1‖ := by linarith
        exact le_of_mul_le_mul_right h2 h
    have hg1 : ‖e g.1‖ ≤ ρ₁ * ‖e d.1‖ := by
      rw [hρ₁, div_mul_eq_mul_div, le_div_iff₀ (by positivity)]
      have n1 := norm_nonneg (e d.1)
      have n2 := norm_nonneg (e g.1)
      rcases hl.eq_or_lt with h | h
      · rw [← h, zero_mul, zero_add] at main
        have : ‖e g.1‖ ≤ 0 := by
          by_contra hc
          push Not at hc
          nlinarith
        have h3 : ‖e g.1‖ = 0 := le_antisymm this n2
        rw [h3, zero_mul]
        exact mul_nonneg hl₀ n1
      · have h4 : l₀ * ((l + σ₀) * ‖e g.1‖) ≤ l₀ * (l * ‖e d.1‖) := mul_le_mul_of_nonneg_left main hl₀
        have h5 : l * (‖e g.1‖ * (l₀ + σ₀)) ≤ l * (l₀ * ‖e d.1‖) := by
          have h6 : l * (σ₀ * ‖e g.1‖) ≤ l₀ * (σ₀ * ‖e g.1‖) :=
            mul_le_mul_of_nonneg_right hl' (by positivity)
          nlinarith
        exact le_of_mul_le_mul_left h5 h
    have hg2 := hfac g c2
    rw [hμ, hμ]
    have n1 := norm_nonneg (e d.1)
    have n2 := norm_nonneg (e g.1)
    have n3 := norm_nonneg d.2
    have b1 : ε * ‖g.2‖ ≤ (1 - ρ₁) / 2 * ‖e g.1‖ := by
      calc ε * ‖g.2‖ ≤ ε * (Q * ‖e g.1‖) := by
            refine mul_le_mul_of_nonneg_left (hg2.trans (le_of_eq ?_)) hε0.le
            rw [hQ]
            ring
        _ = ε * Q * ‖e g.1‖ := by ring
        _ ≤ _ := mul_le_mul_of_nonneg_right hεQ n2
    have b2 : (1 + (1 - ρ₁) / 2) * ‖e g.1‖ ≤ (1 + (1 - ρ₁) / 2) * (ρ₁ * ‖e d.1‖) :=
      mul_le_mul_of_nonneg_left hg1 (by linarith)
    have b3 : (1 + (1 - ρ₁) / 2) * (ρ₁ * ‖e d.1‖) ≤ (1 + ρ₁) / 2 * ‖e d.1‖ := by
      have : (1 + (1 - ρ₁) / 2) * ρ₁ ≤ (1 + ρ₁) / 2 := by nlinarith
      nlinarith
    have b4 : 0 ≤ (1 + ρ₁) / 2 * (ε * ‖d.2‖) := by positivity
    nlinarith

/-- Larger distances. -/
theorem Coeffs.Near.weaken {bX : ι → P.element} {bZ : κ → P.facet} {w : Fin (n + 2) → ℝ} {η η' : ℝ}
    (h : η ≤ η') {x : Coeffs ι κ} (hx : Coeffs.Near bX bZ w η x) : Coeffs.Near bX bZ w η' x :=
  ⟨fun v i => (hx.1 v i).trans h, fun b i => (hx.2 b i).trans h⟩

/-- The energy estimate makes pseudo time stepping converge. -/
theorem pseudo_of_energy {rs : Riemann} {S : GasState n} (hS : IdealGas γ S) (hP : P.Fits M mask)
    {cond : B → FacetCond n} (hR : P.Rich M mask cond)
    (hc : ∀ b, mask b = 0 → (cond b).Admits S (M.normal b)) {σ : V → ℝ} {σ₀ : ℝ} (hσ₀ : 0 < σ₀)
    (hσ : ∀ v, σ₀ ≤ σ v) {N : B → (Fin (n + 2) → ℝ) × (Fin (n + 2) → ℝ) → Fin (n + 2) → ℝ}
    {τ : B → (Fin (n + 2) → ℝ) →L[ℝ] (Fin (n + 2) → ℝ)} {w : Fin (n + 2) → ℝ}
    (hw : w = consVec S.rho S.rho_u S.rho_E) (hN : FluxFits γ rs P M mask w N τ)
    {E : (Fin (n + 2) → ℝ) →ₗ[ℝ] (Fin (n + 2) → ℝ) →ₗ[ℝ] ℝ} (hE : EnergyFits γ M mask cond w τ E)
    (bX : Module.Basis ι ℝ P.element) (bZ : Module.Basis κ ℝ P.facet)
    {st : Coeffs ι κ → HdgState n (n + 2) V B}
    (hst : ∀ x, Coeffs.AreGas γ bX bZ x → (st x).IsFlow γ rs M mask cond σ (conservativeDict S)
      (elementOf bX x.1) (facetOf bZ x.2))
    {J : Coeffs ι κ → Coeffs ι κ →L[ℝ] Coeffs ι κ}
    (hJ : IsFlowMatrix γ rs M mask cond σ (conservativeDict S) bX bZ J) {ω : ℝ} (hω : 0 < ω)
    (hω1 : ω ≤ 1) {dt₀ : ℝ} (hdt₀ : 0 < dt₀) :
    ∃ δ > 0, ∃ C > 0, ∃ q, 0 < q ∧ q < 1 ∧ ∃ r > 0, C * δ ≤ r ∧
      (∀ y, Coeffs.Near bX bZ w r y → (∀ φ ∈ P.tests, flowForm M mask (st y) φ = 0) →
        Coeffs.Near bX bZ w 0 y) ∧
      ∀ c crit : ℝ, 0 ≤ c → 0 < crit → ∃ m : ℕ, ∀ N : Newton (Coeffs ι κ) (Coeffs ι κ),
        (∀ dt : ℚ, dt₀ ≤ dt → SolvesSteps M mask bX bZ st J .implicitEuler dt N c) →
        N.damping = ω → N.crit = crit → (m : ℤ) ≤ N.maxIter →
        ∀ ps : Pseudo, ps.incrementAt ≠ 0 → 1 ≤ ps.incrementFactor → ∀ t dt : ℚ, dt₀ ≤ dt →
        ∀ η, 0 ≤ η → η ≤ δ → ∀ x0, Coeffs.Near bX bZ w η x0 →
        FindsFlow γ rs M mask cond σ (conservativeDict S) bX bZ st w ps N t dt x0 m q (C * η) := by
  have hw0 : w 0 ≠ 0 := by rw [hw]; simpa using hS.rho_pos.ne'
  obtain ⟨x0, hx0, k, hk, hnear, hnear'⟩ := coeffs_near hP bX bZ w
  obtain ⟨S₀, hf, hJ0, hf0, hinj, hgas, hslope⟩ := flow_regular_slope hS hP hc bX bZ hst hJ hw hN hx0
  obtain ⟨μ, k2, K, ρ, hk2, hμ1, hμ2, hρ0, hρ1, hg⟩ := linear_contraction hP hR hw0 hE hσ₀ hσ bX bZ
    hslope hinj (l₀ := 1 / dt₀) (by positivity)
  let Mc : Coeffs ι κ →L[ℝ] Coeffs ι κ := (ContinuousLinearMap.inl ℝ (ι → ℝ) (κ → ℝ)).comp
    ((massL M bX).comp (ContinuousLinearMap.fst ℝ (ι → ℝ) (κ → ℝ)))
  have hMc : ∀ v, Mc v = (massL M bX v.1, 0) := fun _ => rfl
  obtain ⟨r₀, hr₀, q, hq0, hq1, A, hA, hmain⟩ := pseudo_contract μ hk2 hμ1 hμ2 hf.hasFDerivAt hf0 hJ0
    (M := Mc) hρ0 hρ1 hω hω1 (fun l h0 h1 e g h => hg l h0 h1 e g h)
  obtain ⟨ε, hε, hball⟩ := Metric.eventually_nhds_iff.1 hgas
  obtain ⟨r₁, hr₁, hr₁0, hr₁g⟩ : ∃ r₁ > 0, r₁ ≤ r₀ ∧ k2 * r₁ < ε := by
    refine ⟨min r₀ (ε / (2 * k2)), lt_min hr₀ (by positivity), min_le_left _ _, ?_⟩
    calc k2 * min r₀ (ε / (2 * k2)) ≤ k2 * (ε / (2 * k2)) :=
          mul_le_mul_of_nonneg_left (min_le_right _ _) hk2.le
      _ = ε / 2 := by field_simp
      _ < ε := by linarith
  obtain ⟨G, hG⟩ : ∃ G, G = (|K| + 1) * k := ⟨_, rfl⟩
  have hG0 : 0 < G := by rw [hG]; positivity
  have hin : ∀ η, 0 ≤ η → ∀ x, Coeffs.Near bX bZ w η x → μ (x - x0) ≤ G * η := by
    intro η h0 x hx
    refine (hμ2 _).trans ?_
    have h1 := hnear η h0 x hx
    calc K * ‖x - x0‖ ≤ (|K| + 1) * ‖x - x0‖ :=
          mul_le_mul_of_nonneg_right (by linarith [le_abs_self K]) (norm_nonneg _)
      _ ≤ (|K| + 1) * (k * η) := mul_le_mul_of_nonneg_left h1 (by positivity)
      _ = G * η := by rw [hG]; ring
  have hout : ∀ η x, μ (x - x0) ≤ η → Coeffs.Near bX bZ w (k * k2 * η) x := by
    intro η x hx
    refine (hnear' x).weaken ?_
    rw [mul_assoc]
    exact mul_le_mul_of_nonneg_left ((hμ1 _).trans (mul_le_mul_of_nonneg_left hx hk2.le)) hk.le
  obtain ⟨C, hC⟩ : ∃ C, C = k * k2 * G := ⟨_, rfl⟩
  have hC0 : 0 < C := by rw [hC]; positivity
  obtain ⟨r, hr⟩ : ∃ r, r = r₁ / G := ⟨_, rfl⟩
  have hr0 : 0 < r := by rw [hr]; positivity
  have hGr : G * r = r₁ := by rw [hr]; field_simp
  refine ⟨min r (r / C), lt_min hr0 (by positivity), C, hC0, q, hq0, hq1, r, hr0, ?_, ?_, ?_⟩
  · calc C * min r (r / C) ≤ C * (r / C) := mul_le_mul_of_nonneg_left (min_le_right _ _) hC0.le
      _ = r := by field_simp
  · intro y hy hz
    have hvec : flowVec M mask bX bZ (st y) = 0 := by
      refine Prod.ext (funext fun i => hz _ ⟨(bX i).2, P.facet.zero_mem⟩) (funext fun j => hz _ ⟨?_, (bZ j).2⟩)
      exact P.element.zero_mem
    have hy' : μ (y - x0) ≤ r₁ := (hin r hr0.le y hy).trans hGr.le
    obtain ⟨-, h⟩ := hmain 0 le_rfl (by positivity) y (hy'.trans hr₁0)
    obtain ⟨h1, -, -⟩ := h 0 (by rw [map_zero, map_zero, smul_zero, add_zero, hvec])
    rw [smul_zero, sub_zero] at h1
    have h2 : μ (y - x0) ≤ 0 := by
      have := apply_nonneg μ (y - x0)
      nlinarith
    have := hout 0 y h2
    rwa [mul_zero] at this
  · intro c crit hc0 hcrit
    obtain ⟨m, hm⟩ : ∃ m : ℕ, c * (A * A) * (q ^ m * r₁) ^ 2 < crit := by
      have h1 : Tendsto (fun m : ℕ => c * (A * A) * (q ^ m * r₁) ^ 2) atTop (𝓝 (c * (A * A) * (0 * r₁) ^ 2)) :=
        (((tendsto_pow_atTop_nhds_zero_of_lt_one hq0.le hq1).mul_const r₁).pow 2).const_mul _
      rw [zero_mul, zero_pow two_ne_zero, mul_zero] at h1
      exact (h1.eventually (gt_mem_nhds hcrit)).exists
    refine ⟨m + 1, fun N hsol hd hcr hmax ps ha hf' t dt hdt η hη hηδ y0 hy0 => ?_⟩
    have hmass : (flowSystem M mask bX bZ st).mass (fun _ => 0) = 0 := by
      rw [flow_mass]
      exact Prod.ext (map_zero (massL M bX)) rfl
    have hGη : G * η ≤ r₁ := by
      rw [← hGr]
      exact mul_le_mul_of_nonneg_left (hηδ.trans (min_le_left _ _)) hG0.le
    have H : ∀ dt : ℚ, dt₀ ≤ dt → ∀ it cur x, μ (x - x0) ≤ r₁ → ∃ δ e,
        N.lin ((flowSystem M mask bX bZ st).stepEquation (Scheme.implicitEuler.quotient dt) t x cur) it x
          = (δ, some e) ∧ μ (newtonUpdate N.damping x δ - x0) ≤ q * μ (x - x0) ∧
          e ≤ c * (A * A) * μ (x - x0) ^ 2 := by
      intro dt hdt it cur x hx
      obtain ⟨L, hL, hs⟩ := hsol dt hdt t x cur
      have hdt1 : (0 : ℝ) < dt := hdt₀.trans_le hdt
      obtain ⟨hi, hstep⟩ := hmain (1 / dt) (by positivity) (one_div_le_one_div_of_le hdt₀ hdt) x
        (hx.trans hr₁0)
      have hL' : ∀ v, L x v = J x v + (1 / (dt : ℝ)) • Mc v := by
        intro v
        rw [hL, flow_mass, hMc]
        have e1 : (fun i => Scheme.implicitEuler.leading dt * v.1 i) = (1 / (dt : ℝ)) • v.1 := rfl
        rw [e1, map_smul]
        congr 1
        exact Prod.ext rfl (smul_zero _).symm
      have hb : Function.Bijective (L x) := by
        have h1 : Function.Injective (L x) := (injective_iff_map_eq_zero _).2 fun v hv =>
          hi v (by rw [← hL', hv])
        exact ⟨h1, (LinearMap.injective_iff_surjective (f := (L x).toLinearMap)).1 h1⟩
      obtain ⟨δ, e, h1, h2, h3⟩ := hs it x hb
      rw [ie_stationary _ hmass] at h2 h3
      obtain ⟨s1, s2, s3⟩ := hstep δ (by rw [← hL', h2]; rfl)
      refine ⟨δ, e, h1, by rw [newtonUpdate, hd]; exact s1, ?_⟩
      refine (le_abs_self e).trans (h3.trans ?_)
      have n1 := apply_nonneg μ (x - x0)
      calc c * (‖δ‖ * ‖(flowSystem M mask bX bZ st).spatial t x‖)
          ≤ c * ((A * μ (x - x0)) * (A * μ (x - x0))) := by
            refine mul_le_mul_of_nonneg_left ?_ hc0
            exact mul_le_mul s2 s3 (norm_nonneg _) (by positivity)
        _ = _ := by ring
    obtain ⟨res, xs, e1, e2, e3, e4, e5, e6, e7⟩ := pseudoLoop_contracts (flowSystem M mask bX bZ st) ps ha hf'
      N t hdt₀ (fun x => μ (x - x0)) (fun x => apply_nonneg μ _) hq0 hq1
      (A := c * (A * A)) (by positivity) H N.maxIter.toNat (m + 1) 0 y0 y0
      { x := y0, levels := Scheme.implicitEuler.levelsOf y0.1 y0.1, dt := dt } rfl hdt (by omega)
      (by omega) (G * η) (hin η hη y0 hy0) hGη (by
        rw [hcr, Nat.add_sub_cancel]
        refine lt_of_le_of_lt (mul_le_mul_of_nonneg_left ?_ (by positivity)) hm
        exact pow_le_pow_left₀ (by positivity) (mul_le_mul_of_nonneg_left hGη (by positivity)) 2)
    have e4' : res.trace = xs := by rw [e4]; rfl
    have hfin : μ (res.x - x0) ≤ r₁ := by
      refine e7.trans (le_trans ?_ hGη)
      exact mul_le_of_le_one_left (by positivity) (pow_le_one₀ hq0.le hq1.le)
    have conv : ∀ (i : ℕ) x, μ (x - x0) ≤ q ^ i * (G * η) → Coeffs.Near bX bZ w (C * η * q ^ i) x := by
      intro i x hx
      have := hout _ x hx
      rwa [show k * k2 * (q ^ i * (G * η)) = C * η * q ^ i by rw [hC]; ring] at this
    refine ⟨res, ?_, e2, e3, by rw [e4']; exact e5, fun i p hp => ?_, ?_, ?_⟩
    · simp only [pseudoRun, init_levelsOf]
      exact e1
    · rw [e4'] at hp
      exact conv i p.1 (e6 i p hp)
    · rw [e4']
      exact conv _ _ e7
    · refine hst _ ((areGas_iff hS.gamma bX bZ _).2 (hball ?_))
      rw [dist_eq_norm]
      exact ((hμ1 _).trans (mul_le_mul_of_nonneg_left hfin hk2.le)).trans_lt hr₁g

/-- A linear solver for the systems of all steps exists: its systems are determined by the equations. -/
theorem pseudo_solver (M : HdgMesh n V B) (mask : B → ℝ) (bX : ι → P.element) (bZ : κ → P.facet)
    (st : Coeffs ι κ → HdgState n (n + 2) V B) (J : Coeffs ι κ → Coeffs ι κ →L[ℝ] Coeffs ι κ)
    (ω crit : ℝ) (m : ℤ) : ∃ N : Newton (Coeffs ι κ) (Coeffs ι κ),
      (∀ (s : Scheme) (dt : ℝ), SolvesSteps M mask bX bZ st J s dt N 1) ∧ N.damping = ω ∧ N.crit = crit ∧
        N.maxIter = m := by
  classical
  let f : Coeffs ι κ → Coeffs ι κ := fun x => flowVec M mask bX bZ (st x)
  refine ⟨⟨fun F _ x => if h : ∃ δ, J x δ + ((F (x + δ) - F x) - (f (x + δ) - f x)) = F x then
      (h.choose, some (‖h.choose‖ * ‖F x‖)) else (0, none), ω, crit, m⟩,
    fun s dt t cur prev => ⟨stepDeriv s dt (massL M bX) J, steps_matrix bX bZ st J s dt, fun it x hb => ?_⟩,
    rfl, rfl, rfl⟩
  obtain ⟨F, hF⟩ : ∃ F, F = (flowSystem M mask bX bZ st).stepEquation (s.quotient dt) t cur prev := ⟨_, rfl⟩
  have key : ∀ δ, stepDeriv s dt (massL M bX) J x δ = J x δ + ((F (x + δ) - F x) - (f (x + δ) - f x)) := by
    intro δ
    rw [steps_matrix (mask := mask) bX bZ st J s dt]
    congr 1
    have e : ∀ y, F y = f y + (massL M bX (fun i => s.quotient dt (y.1 i) (cur.1 i) (prev.1 i)), 0) := by
      intro y
      rw [hF, Problem.stepEquation, flow_mass]
      rfl
    rw [e, e, flow_mass]
    have e2 : (fun i => s.quotient dt ((x + δ).1 i) (cur.1 i) (prev.1 i))
        = (fun i => s.leading dt * δ.1 i) + fun i => s.quotient dt (x.1 i) (cur.1 i) (prev.1 i) := by
      funext i
      cases s <;> simp [Scheme.quotient, Scheme.leading, backwardEuler, backward2] <;> ring
    rw [e2, map_add]
    refine Prod.ext ?_ ?_
    · simp only [Prod.fst_add, Prod.fst_sub]
      abel
    · simp
  rw [← hF]
  have h : ∃ δ, J x δ + ((F (x + δ) - F x) - (f (x + δ) - f x)) = F x := by
    obtain ⟨δ, hδ⟩ := hb.2 (F x)
    exact ⟨δ, by rw [← key, hδ]⟩
  refine ⟨h.choose, _, dif_pos h, by rw [key]; exact h.choose_spec, ?_⟩
  rw [one_mul, abs_of_nonneg (mul_nonneg (norm_nonneg _) (norm_nonneg _))]

/-! ### The property -/

/-- **C100** In a domain with closed boundary, where sponge layers that relax to a uniform flow damp
everywhere: from all states near the uniform flow pseudo time stepping with implicit Euler computes
it, whatever the time step, if it is not shorter than a positive `dt₀`, and whatever the rule that
increases it. The number of iterations is bounded for all of them, and every iteration reduces the
distance by a fixed factor. No other state near the uniform flow is steady. -/
theorem C100_pseudo {rs : Riemann} (hrs : rs.AnyDim) {S : GasState n} (hS : IdealGas γ S)
    (hP : P.Fits M mask) {cond : B → FacetCond n} (hR : P.Rich M mask cond)
    (hc : ∀ b, mask b = 0 → (cond b).Closed ∧ (cond b).Admits S (M.normal b)) {σ : V → ℝ} {σ₀ : ℝ}
    (hσ₀ : 0 < σ₀) (hσ : ∀ v, σ₀ ≤ σ v) (bX : Module.Basis ι ℝ P.element)
    (bZ : Module.Basis κ ℝ P.facet) {st : Coeffs ι κ → HdgState n (n + 2) V B}
    (hst : ∀ x, Coeffs.AreGas γ bX bZ x → (st x).IsFlow γ rs M mask cond σ (conservativeDict S)
      (elementOf bX x.1) (facetOf bZ x.2))
    {J : Coeffs ι κ → Coeffs ι κ →L[ℝ] Coeffs ι κ}
    (hJ : IsFlowMatrix γ rs M mask cond σ (conservativeDict S) bX bZ J) {ω : ℝ} (hω : 0 < ω)
    (hω1 : ω ≤ 1) {dt₀ : ℝ} (hdt₀ : 0 < dt₀) :
    ∃ δ > 0, ∃ C > 0, ∃ q, 0 < q ∧ q < 1 ∧ ∃ r > 0, C * δ ≤ r ∧
      (∀ y, Coeffs.Near bX bZ (consVec S.rho S.rho_u S.rho_E) r y →
        (∀ φ ∈ P.tests, flowForm M mask (st y) φ = 0) →
        Coeffs.Near bX bZ (consVec S.rho S.rho_u S.rho_E) 0 y) ∧
      ∀ c crit : ℝ, 0 ≤ c → 0 < crit → ∃ m : ℕ, ∀ N : Newton (Coeffs ι κ) (Coeffs ι κ),
        (∀ dt : ℚ, dt₀ ≤ dt → SolvesSteps M mask bX bZ st J .implicitEuler dt N c) →
        N.damping = ω → N.crit = crit → (m : ℤ) ≤ N.maxIter →
        ∀ ps : Pseudo, ps.incrementAt ≠ 0 → 1 ≤ ps.incrementFactor → ∀ t dt : ℚ, dt₀ ≤ dt →
        ∀ η, 0 ≤ η → η ≤ δ → ∀ x0, Coeffs.Near bX bZ (consVec S.rho S.rho_u S.rho_E) η x0 →
        FindsFlow γ rs M mask cond σ (conservativeDict S) bX bZ st (consVec S.rho S.rho_u S.rho_E)
          ps N t dt x0 m q (C * η) :=
  pseudo_of_energy hS hP hR (fun b hb => (hc b hb).2) hσ₀ hσ rfl
    (fits_of_anyDim hrs hP hS.gamma (gasVec_of hS)) (energyFits_anyDim hrs hS hP hc) bX bZ hst hJ hω hω1
    hdt₀

end Dream
