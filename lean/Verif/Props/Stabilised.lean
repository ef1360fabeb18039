import Verif.Lemmas.Stabilised
import Verif.Props.TimeLimit

/-!
# C97: all Riemann solvers near uniform flow
-/

noncomputable section

namespace Dream
open Matrix Metric Set _root_.Spec

variable {γ : ℝ} {V B : Type} [Fintype V] [Fintype B]

/-! ### The stabilisation seen from both sides of a facet -/

theorem vec_four (f : Fin 4 → ℝ) : f = ![f 0, f 1, f 2, f 3] := by
  funext i
  fin_cases i <;> rfl

theorem tauOf_neg (rs : Riemann) (d : Fin 2 → ℝ) (w : Fin 4 → ℝ) {s : Fin 4 → ℝ}
    (hs : s = rs.sigma (soundOf (n := 2) γ w) (velOf w) (-d)) :
    tauOf γ rs (-d) w = matP γ (w 0) (soundOf (n := 2) γ w) (velOf w) d *
      diagonal ![s 3, s 1, s 2, s 0] * matPinv γ (w 0) (soundOf (n := 2) γ w) (velOf w) d := by
  rw [tauOf, matP_neg, matPinv_neg, ← hs, ← flip_diag (s 0) (s 1) (s 2) (s 3), ← vec_four s]
  simp only [Matrix.mul_assoc]

/-- The matrices of the two sides, seen from one of them. -/
theorem tauOf_sum (rs : Riemann) (d : Fin 2 → ℝ) (w : Fin 4 → ℝ) {s s' : Fin 4 → ℝ}
    (hs : s = rs.sigma (soundOf (n := 2) γ w) (velOf w) d)
    (hs' : s' = rs.sigma (soundOf (n := 2) γ w) (velOf w) (-d)) :
    tauOf γ rs d w + tauOf γ rs (-d) w = matP γ (w 0) (soundOf (n := 2) γ w) (velOf w) d *
      diagonal ![s 0 + s' 3, s 1 + s' 1, s 2 + s' 2, s 3 + s' 0] *
        matPinv γ (w 0) (soundOf (n := 2) γ w) (velOf w) d := by
  rw [tauOf_neg rs d w hs', tauOf, ← hs, ← Matrix.add_mul, ← Matrix.mul_add, diagonal_add]
  congr 3
  funext i
  fin_cases i <;> rfl

theorem velOf_dot (w : Fin 4 → ℝ) (d : Fin 2 → ℝ) : velOf w ⬝ᵥ d = normalOf (n := 2) d w := by
  simp only [velOf, normalOf, smul_dotProduct, smul_eq_mul]
  ring

/-- Every wave is damped from at least one side. -/
theorem sigma_sum_pos (hγ : 1 < γ) {rs : Riemann} {d : Fin 2 → ℝ} {w : Fin 4 → ℝ}
    (hw : GasVec (n := 2) w) (hrs : rs.Damps (normalOf (n := 2) d w) (soundOf (n := 2) γ w))
    {s s' : Fin 4 → ℝ} (hs : s = rs.sigma (soundOf (n := 2) γ w) (velOf w) d)
    (hs' : s' = rs.sigma (soundOf (n := 2) γ w) (velOf w) (-d)) :
    0 < s 0 + s' 3 ∧ 0 < s 1 + s' 1 ∧ 0 < s 2 + s' 2 ∧ 0 < s 3 + s' 0 := by
  have c0 := soundOf_pos hγ hw
  rw [← velOf_dot] at hrs
  generalize soundOf (n := 2) γ w = c at *
  generalize velOf w = u at *
  obtain ⟨x, hx⟩ : ∃ x, x = u ⬝ᵥ d := ⟨_, rfl⟩
  have hx' : u ⬝ᵥ (-d) = -x := by rw [dotProduct_neg, hx]
  rw [← hx] at hrs
  have hmm : 0 < max (x + c) 0 + max (-x + c) 0 := by
    have h1 := le_max_left (x + c) 0
    have h2 := le_max_left (-x + c) 0
    linarith
  cases rs with
  | laxFriedrich =>
    have h : s = fun _ => |x| + c := by rw [hs, hx]; rfl
    have h' : s' = fun _ => |x| + c := by rw [hs', ← abs_neg, ← hx']; rfl
    have := abs_nonneg x
    simp only [h, h']
    refine ⟨?_, ?_, ?_, ?_⟩ <;> linarith
  | hll =>
    have h : s = fun _ => max (x + c) 0 := by rw [hs, hx]; rfl
    have h' : s' = fun _ => max (-x + c) 0 := by rw [hs', ← hx']; rfl
    simp only [h, h']
    exact ⟨hmm, hmm, hmm, hmm⟩
  | hllem θ₀ =>
    obtain ⟨θ, hθ⟩ : ∃ θ, θ = max (|x| / (|x| + c)) θ₀ := ⟨_, rfl⟩
    have h : s = max (x + c) 0 • ![1, θ, θ, 1] := by rw [hs, hθ, hx]; rfl
    have h' : s' = max (-x + c) 0 • ![1, θ, θ, 1] := by rw [hs', hθ, ← abs_neg x, ← hx']; rfl
    have hθ0 : 0 < θ := by
      rw [hθ]
      rcases hrs with h | h
      · exact lt_max_of_lt_left (div_pos (abs_pos.2 h) (by positivity))
      · exact lt_max_of_lt_right h
    rw [h, h']
    have e1 : 0 < max (x + c) 0 * 1 + max (-x + c) 0 * 1 := by linarith
    have e2 : 0 < max (x + c) 0 * θ + max (-x + c) 0 * θ := by
      rw [← add_mul]
      exact mul_pos hmm hθ0
    exact ⟨e1, e2, e2, e1⟩
  | roe =>
    have h : s = ![|x - c|, |x|, |x|, |x + c|] := by
      rw [hs, vec_four (Riemann.sigma _ _ _ _), hx]; rfl
    have h' : s' = ![|-x - c|, |-x|, |-x|, |-x + c|] := by
      rw [hs', vec_four (Riemann.sigma _ _ _ _), ← hx']; rfl
    obtain ⟨a1, a2⟩ := hrs
    have b1 : 0 < |x - c| := abs_pos.2 fun e => a2 (by
      rw [sub_eq_zero.1 e, abs_of_pos c0])
    have b2 : 0 < |x + c| := abs_pos.2 fun e => a2 (by
      rw [eq_neg_of_add_eq_zero_left e, abs_neg, abs_of_pos c0])
    have b3 := abs_pos.2 a1
    rw [h, h']
    exact ⟨add_pos_of_pos_of_nonneg b1 (abs_nonneg _), add_pos_of_pos_of_nonneg b3 (abs_nonneg _),
      add_pos_of_pos_of_nonneg b3 (abs_nonneg _), add_pos_of_pos_of_nonneg b2 (abs_nonneg _)⟩
  | upwind =>
    have h : s = ![max (x - c) 0, max x 0, max x 0, max (x + c) 0] := by
      rw [hs, vec_four (Riemann.sigma _ _ _ _), hx]; rfl
    have h' : s' = ![max (-x - c) 0, max (-x) 0, max (-x) 0, max (-x + c) 0] := by
      rw [hs', vec_four (Riemann.sigma _ _ _ _), ← hx']; rfl
    obtain ⟨a1, a2⟩ := hrs
    have key : ∀ y z : ℝ, y ≠ 0 → z = -y → 0 < max y 0 + max z 0 := by
      intro y z hy hz
      rcases lt_or_gt_of_ne hy with h | h
      · exact add_pos_of_nonneg_of_pos (le_max_right _ _) (lt_max_of_lt_left (by linarith))
      · exact add_pos_of_pos_of_nonneg (lt_max_of_lt_left h) (le_max_right _ _)
    rw [h, h']
    refine ⟨key (x - c) (-x + c) (fun e => a2 ?_) (by ring), key x (-x) a1 rfl, key x (-x) a1 rfl,
      key (x + c) (-x - c) (fun e => a2 ?_) (by ring)⟩
    · rw [sub_eq_zero.1 e, abs_of_pos c0]
    · rw [eq_neg_of_add_eq_zero_left e, abs_neg, abs_of_pos c0]

theorem conj_injective {P Q : Matrix (Fin 4) (Fin 4) ℝ} (h1 : P * Q = 1) {s : Fin 4 → ℝ}
    (hs : ∀ i, s i ≠ 0) {v : Fin 4 → ℝ} (h : (P * diagonal s * Q) *ᵥ v = 0) : v = 0 := by
  have h2 : Q * P = 1 := mul_eq_one_comm.1 h1
  have e1 : diagonal s *ᵥ (Q *ᵥ v) = 0 := by
    calc diagonal s *ᵥ (Q *ᵥ v) = (Q * P) *ᵥ (diagonal s *ᵥ (Q *ᵥ v)) := by rw [h2, one_mulVec]
      _ = Q *ᵥ ((P * diagonal s * Q) *ᵥ v) := by simp only [mulVec_mulVec, Matrix.mul_assoc]
      _ = 0 := by rw [h, mulVec_zero]
  have e2 : Q *ᵥ v = 0 := by
    funext i
    have := congrFun e1 i
    rw [mulVec_diagonal] at this
    exact (mul_eq_zero.1 this).resolve_left (hs i)
  calc v = (P * Q) *ᵥ v := by rw [h1, one_mulVec]
    _ = P *ᵥ (Q *ᵥ v) := (mulVec_mulVec _ _ _).symm
    _ = 0 := by rw [e2, mulVec_zero]

theorem tauOf_sum_injective (hγ : 1 < γ) {rs : Riemann} {d : Fin 2 → ℝ} (hd : d ⬝ᵥ d = 1)
    {w : Fin 4 → ℝ} (hw : GasVec (n := 2) w)
    (hrs : rs.Damps (normalOf (n := 2) d w) (soundOf (n := 2) γ w)) {v : Fin 4 → ℝ}
    (h : (tauOf γ rs d w + tauOf γ rs (-d) w) *ᵥ v = 0) : v = 0 := by
  have hd' : d 0 ^ 2 + d 1 ^ 2 = 1 := by
    simpa [dotProduct, Fin.sum_univ_two, sq] using hd
  obtain ⟨p0, p1, p2, p3⟩ := sigma_sum_pos hγ hw hrs rfl rfl
  rw [tauOf_sum rs d w rfl rfl] at h
  refine conj_injective (P_mul_Pinv hw.1.ne' (soundOf_pos hγ hw).ne' (by linarith) hd') ?_ h
  intro i
  fin_cases i
  · exact p0.ne'
  · exact p1.ne'
  · exact p2.ne'
  · exact p3.ne'

/-- The facet equations determine the facet unknowns. -/
theorem stab_inj (hγ : 1 < γ) {rs : Riemann} {P : HdgSpaces 2 4 V B} {M : HdgMesh 2 V B}
    {mask : B → ℝ} (hP : P.Fits M mask) (hPs : P.Straight M mask) {w : Fin 4 → ℝ}
    (hw : GasVec (n := 2) w)
    (hrs : ∀ b, mask b = 1 → rs.Damps (normalOf (n := 2) (M.normal b) w) (soundOf (n := 2) γ w))
    {ζ : B → Fin 4 → ℝ} (hζ : ζ ∈ P.facet)
    (h : ∀ ψ ∈ P.facet, (∑ b, M.wB b * (-mask b * ((fluxJac (n := 2) γ (M.normal b) w (ζ b)
        - tauL (tauOf γ rs (M.normal b) w) (ζ b)) ⬝ᵥ ψ b)))
      + (∑ b, M.wB b * ((1 - mask b) * (ζ b ⬝ᵥ ψ b))) = 0) : ζ = 0 := by
  classical
  obtain ⟨T, hT⟩ : ∃ T : (Fin 2 → ℝ) → Matrix (Fin 4) (Fin 4) ℝ,
    T = fun d => tauOf γ rs d w + tauOf γ rs (-d) w := ⟨_, rfl⟩
  have hTn : ∀ d, T (-d) = T d := fun d => by simp only [hT, neg_neg, add_comm]
  have h1 := h _ (hPs (fun d m => if m = 1 then T d else 1)
    (fun d m => by simp only [hTn]) ζ hζ)
  have hA := partner_sum hP (q := fun d x => fluxJac (n := 2) γ d w x ⬝ᵥ (T d *ᵥ x))
    (fun d x => by
      rw [fluxJac_neg, hTn]
      simp) hζ
  have hB := partner_sum hP (q := fun d x => ((tauOf γ rs d w - tauOf γ rs (-d) w) *ᵥ x) ⬝ᵥ (T d *ᵥ x))
    (fun d x => by
      rw [hTn, neg_neg, ← neg_dotProduct, ← neg_mulVec, neg_sub]) hζ
  -- twice the form is a sum of squares
  have hsum : ∑ b, M.wB b * (mask b * ((T (M.normal b) *ᵥ ζ b) ⬝ᵥ (T (M.normal b) *ᵥ ζ b))
      + 2 * ((1 - mask b) * (ζ b ⬝ᵥ ζ b))) = 0 := by
    have e : ∀ b, M.wB b * (mask b * ((T (M.normal b) *ᵥ ζ b) ⬝ᵥ (T (M.normal b) *ᵥ ζ b))
        + 2 * ((1 - mask b) * (ζ b ⬝ᵥ ζ b)))
        = 2 * (M.wB b * (-mask b * ((fluxJac (n := 2) γ (M.normal b) w (ζ b)
            - tauL (tauOf γ rs (M.normal b) w) (ζ b)) ⬝ᵥ
            ((if mask b = 1 then T (M.normal b) else 1) *ᵥ ζ b))))
          + 2 * (M.wB b * ((1 - mask b) * (ζ b ⬝ᵥ
            ((if mask b = 1 then T (M.normal b) else 1) *ᵥ ζ b))))
          + 2 * (M.wB b * (mask b * (fluxJac (n := 2) γ (M.normal b) w (ζ b) ⬝ᵥ
            (T (M.normal b) *ᵥ ζ b))))
          - M.wB b * (mask b * (((tauOf γ rs (M.normal b) w - tauOf γ rs (-M.normal b) w) *ᵥ ζ b) ⬝ᵥ
            (T (M.normal b) *ᵥ ζ b))) := by
      intro b
      rcases hP.mask01 b with hb | hb
      · simp [hb]
        ring
      · have hTb : T (M.normal b) *ᵥ ζ b = tauOf γ rs (M.normal b) w *ᵥ ζ b
            + tauOf γ rs (-M.normal b) w *ᵥ ζ b := by rw [hT, ← add_mulVec]
        simp only [hb, if_true, tauL_apply, sub_dotProduct, sub_mulVec]
        have e2 : (T (M.normal b) *ᵥ ζ b) ⬝ᵥ (T (M.normal b) *ᵥ ζ b)
            = (tauOf γ rs (M.normal b) w *ᵥ ζ b) ⬝ᵥ (T (M.normal b) *ᵥ ζ b)
              + (tauOf γ rs (-M.normal b) w *ᵥ ζ b) ⬝ᵥ (T (M.normal b) *ᵥ ζ b) := by
          conv_lhs => rw [hTb, add_dotProduct, ← hTb]
        rw [e2]
        ring
    simp only [e, Finset.sum_sub_distrib, Finset.sum_add_distrib, ← Finset.mul_sum]
    rw [hA, hB, ← mul_add, h1]
    ring
  have hdot : ∀ v : Fin 4 → ℝ, 0 ≤ v ⬝ᵥ v := fun v => by
    simp only [dotProduct]
    exact Finset.sum_nonneg fun i _ => mul_self_nonneg _
  have hterm : ∀ b, mask b * ((T (M.normal b) *ᵥ ζ b) ⬝ᵥ (T (M.normal b) *ᵥ ζ b))
      + 2 * ((1 - mask b) * (ζ b ⬝ᵥ ζ b)) = 0 := by
    have hnn : ∀ b ∈ Finset.univ, 0 ≤ M.wB b * (mask b * ((T (M.normal b) *ᵥ ζ b) ⬝ᵥ
        (T (M.normal b) *ᵥ ζ b)) + 2 * ((1 - mask b) * (ζ b ⬝ᵥ ζ b))) := by
      intro b _
      refine mul_nonneg (hP.boundary b).le ?_
      have p1 := hdot (T (M.normal b) *ᵥ ζ b)
      have p2 := hdot (ζ b)
      rcases hP.mask01 b with e | e <;> rw [e] <;> linarith
    intro b
    have := (Finset.sum_eq_zero_iff_of_nonneg hnn).1 hsum b (Finset.mem_univ b)
    exact (mul_eq_zero.1 this).resolve_left (hP.boundary b).ne'
  funext b
  have := hterm b
  rcases hP.mask01 b with hb | hb
  · rw [hb] at this
    exact dotProduct_self_eq_zero.1 (by linarith)
  · rw [hb] at this
    have h2 : T (M.normal b) *ᵥ ζ b = 0 := dotProduct_self_eq_zero.1 (by linarith)
    rw [hT] at h2
    exact tauOf_sum_injective hγ (hP.unit b) hw (hrs b hb) h2

/-- Every Riemann solver that acts on all waves fits. -/
theorem fits_of_damps {rs : Riemann} {P : HdgSpaces 2 4 V B} {M : HdgMesh 2 V B}
    {mask : B → ℝ} (hP : P.Fits M mask) (hPs : P.Straight M mask) {S : GasState 2}
    (hS : IdealGas γ S) (hrs : ∀ b, mask b = 1 → rs.Damps (S.u ⬝ᵥ M.normal b) S.c) :
    FluxFits (n := 2) γ rs P M mask (consVec S.rho S.rho_u S.rho_E)
      (fun b => stabFlux γ rs (M.normal b))
      (fun b => tauL (tauOf γ rs (M.normal b) (consVec S.rho S.rho_u S.rho_E))) := by
  have hγ := hS.gamma
  have hg := gasVec_of hS
  have hn : ∀ d, normalOf d (consVec S.rho S.rho_u S.rho_E) = S.u ⬝ᵥ d := fun d => by
    have e : mom (consVec S.rho S.rho_u S.rho_E) = S.rho_u := by funext i; simp
    rw [normalOf, e, consVec_zero, hS.momentum, smul_dotProduct, smul_eq_mul,
      mul_div_cancel_left₀ _ hS.rho_pos.ne']
  have hc : soundOf γ (consVec S.rho S.rho_u S.rho_E) = S.c := by
    have h1 := pressure_of_cons hS
    have hr := hS.rho_pos
    have e : mom (consVec S.rho S.rho_u S.rho_E) = S.rho_u := by funext i; simp
    have e2 : γ * (γ - 1) * innerOf (consVec S.rho S.rho_u S.rho_E) = S.c ^ 2 := by
      rw [innerOf, e, consVec_zero, consVec_last, hS.sound, ← h1]
      field_simp
    rw [soundOf, e2, Real.sqrt_sq hS.sound_pos.le]
  exact
    { eq := fun b u _ h => stabFlux_eq hγ rs (hP.unit b) u h
      strict := fun b => stabFlux_strict hγ rs (M.normal b) hg
      same := fun b => by simp only [stabFlux, sub_self, mulVec_zero, add_zero]
      inj := fun ζ hζ h => stab_inj hγ hP hPs hg (fun b hb => by
        have := hrs b hb
        rwa [← hn, ← hc] at this) hζ h }

/-! ### Runs -/

/-- **C97** Near every uniform flow in two dimensions, with every Riemann solver that acts on all waves
that cross the interior facets: short steps and runs of any length can be computed, stay near the
flow, and are the only ones that do. The conclusion is that of `C94_runs`. -/
theorem C97_runs {rs : Riemann} {S : GasState 2} (hS : IdealGas γ S)
    {P : HdgSpaces 2 4 V B} {M : HdgMesh 2 V B} {mask : B → ℝ} (hP : P.Fits M mask)
    (hPs : P.Straight M mask) (hrs : ∀ b, mask b = 1 → rs.Damps (S.u ⬝ᵥ M.normal b) S.c)
    {cond : B → FacetCond 2} (hc : ∀ b, mask b = 0 → (cond b).Admits S (M.normal b)) (σ : V → ℝ)
    (T : ℝ) :
    ∃ dt₀ > 0, ∃ δ > 0, ∃ C, ∃ r > 0, C * δ ≤ r ∧ ∀ (s : Scheme) (dt : ℝ), 0 < dt → dt ≤ dt₀ →
      ∀ ts : List ℚ, dt * ts.length ≤ T → ∀ η, 0 ≤ η → η ≤ δ →
      ∀ prev cur : HdgState 2 4 V B, (∃ a ∈ P.element, prev.U = a.2.1) →
      (∃ a ∈ P.element, cur.U = a.2.1) →
      (∀ v i, |prev.U v i - consVec S.rho S.rho_u S.rho_E i| ≤ η) →
      (∀ v i, |cur.U v i - consVec S.rho S.rho_u S.rho_E i| ≤ η) →
      ∃ xs, Satisfies (hdgStep M mask P.tests (s.quotient dt)) prev cur ts xs ∧
        (∀ x ∈ xs, x.NearFlow γ rs P M mask cond σ (conservativeDict S)
          (consVec S.rho S.rho_u S.rho_E) (C * η)) ∧
        ∀ ys, Satisfies (hdgStep M mask P.tests (s.quotient dt)) prev cur ts ys →
          (∀ y ∈ ys, y.NearFlow γ rs P M mask cond σ (conservativeDict S)
            (consVec S.rho S.rho_u S.rho_E) r) → ys = xs :=
  runs_of_fits (n := 2) hS hP hc σ (fits_of_damps hP hPs hS hrs) T

/-- **C97** These runs converge to the flow in continuous time. The conclusion is that of
`C96_converges`. -/
theorem C97_converges {rs : Riemann} {S : GasState 2} (hS : IdealGas γ S)
    {P : HdgSpaces 2 4 V B} {M : HdgMesh 2 V B} {mask : B → ℝ} (hP : P.Fits M mask)
    (hPs : P.Straight M mask) (hrs : ∀ b, mask b = 1 → rs.Damps (S.u ⬝ᵥ M.normal b) S.c)
    {cond : B → FacetCond 2} (hc : ∀ b, mask b = 0 → (cond b).Admits S (M.normal b)) (σ : V → ℝ)
    {T : ℝ} (hT : 0 < T) :
    ∃ dt₀ > 0, ∃ δ > 0, ∃ C, ∃ r > 0, C * δ ≤ r ∧ ∀ η, 0 ≤ η → η ≤ δ →
      ∀ x₀ : HdgState 2 4 V B, (∃ a ∈ P.element, x₀.U = a.2.1) →
      (∀ v i, |x₀.U v i - consVec S.rho S.rho_u S.rho_E i| ≤ η) →
      ∃ y, IsEvolution γ rs P M mask cond σ (conservativeDict S) (consVec S.rho S.rho_u S.rho_E)
          (C * η) T y ∧ (y 0).U = x₀.U ∧
        (∀ z, IsEvolution γ rs P M mask cond σ (conservativeDict S)
          (consVec S.rho S.rho_u S.rho_E) r T z → (z 0).U = x₀.U → ∀ t ∈ Icc 0 T, z t = y t) ∧
        ∀ (s : Scheme) (dt : ℝ), 0 < dt → dt ≤ dt₀ → ∀ ts : List ℚ, dt * ts.length ≤ T →
          (∃ xs, Satisfies (hdgStep M mask P.tests (s.quotient dt)) x₀ x₀ ts xs ∧
            ∀ x ∈ xs, x.NearFlow γ rs P M mask cond σ (conservativeDict S)
              (consVec S.rho S.rho_u S.rho_E) (C * η)) ∧
          ∀ xs, Satisfies (hdgStep M mask P.tests (s.quotient dt)) x₀ x₀ ts xs →
            (∀ x ∈ xs, x.NearFlow γ rs P M mask cond σ (conservativeDict S)
              (consVec S.rho S.rho_u S.rho_E) r) →
            ∀ i (hi : i < xs.length), ∀ v j,
              |xs[i].U v j - (y ((i + 1) * dt)).U v j| ≤ C * η * dt :=
  converges_of_fits (n := 2) hS hP hc σ (fits_of_damps hP hPs hS hrs) hT

/-- The solution of a step determines the facet unknowns. -/
theorem facets_of_fits {n : ℕ} {rs : Riemann} {S : GasState n} (hS : IdealGas γ S)
    {P : HdgSpaces n (n + 2) V B} {M : HdgMesh n V B} {mask : B → ℝ} (hP : P.Fits M mask)
    {cond : B → FacetCond n} (hc : ∀ b, mask b = 0 → (cond b).Admits S (M.normal b)) (σ : V → ℝ)
    {N : B → (Fin (n + 2) → ℝ) × (Fin (n + 2) → ℝ) → Fin (n + 2) → ℝ}
    {τ : B → (Fin (n + 2) → ℝ) →L[ℝ] (Fin (n + 2) → ℝ)}
    (hN : FluxFits γ rs P M mask (consVec S.rho S.rho_u S.rho_E) N τ) :
    ∃ r > 0, ∀ (s : Scheme) (dt : ℝ), 0 < dt → ∀ (t : ℚ) (x cur prev : HdgState n (n + 2) V B),
      (∃ a ∈ P.element, prev.U = a.2.1) → (∃ a ∈ P.element, cur.U = a.2.1) →
      hdgStep M mask P.tests (s.quotient dt) t x cur prev →
      (∀ v i, |x.U v i - consVec S.rho S.rho_u S.rho_E i| ≤ r) → ∀ a ∈ P.element, ∀ ζ ∈ P.facet,
      ∀ ζ' ∈ P.facet, x.IsFlow γ rs M mask cond σ (conservativeDict S) a ζ →
      x.IsFlow γ rs M mask cond σ (conservativeDict S) a ζ' →
      (∀ b i, |ζ b i - consVec S.rho S.rho_u S.rho_E i| ≤ r) →
      (∀ b i, |ζ' b i - consVec S.rho S.rho_u S.rho_E i| ≤ r) → ζ = ζ' := by
  obtain ⟨w, hw⟩ : ∃ w, w = consVec S.rho S.rho_u S.rho_E := ⟨_, rfl⟩
  rw [← hw] at hN ⊢
  obtain ⟨x0, hx0⟩ : ∃ x0 : P.element, x0 = ⟨(0, fun _ => w, fun _ => w), hP.constant w⟩ := ⟨_, rfl⟩
  obtain ⟨ζ0, hζ0⟩ : ∃ ζ0 : P.facet, ζ0 = ⟨fun _ => w, hP.constantHat w⟩ := ⟨_, rfl⟩
  obtain ⟨r, hr, ρ, hρ, K, L, Kv, h, Ψ, st, hKv, hK, h0, hL, hΨ0, hhρ, hv1, hv2, hstU, hst, hstep, -⟩ :=
    flow_reduction (rs := rs) hS hP hc σ hw hN hx0 hζ0
  have hKv0 : (0 : ℝ) < Kv := hKv
  have hz1 : ∀ ζ : P.facet, ‖ζ.1 - fun _ => w‖ = ‖ζ - ζ0‖ := fun ζ => by rw [hζ0]; rfl
  have hR0 : 0 < min (r / Kv) ρ := lt_min (div_pos hr hKv0) hρ
  refine ⟨min (r / Kv) ρ, hR0, ?_⟩
  rintro s dt hdt t x cur prev ⟨p, hp, hpU⟩ ⟨c, hcm, hcU⟩ hx hxn a ha ζ hζ ζ' hζ' hf hf' hn hn'
  rw [near_iff hR0.le] at hxn hn hn'
  rw [hf.values] at hxn
  have har : ‖(⟨a, ha⟩ : P.element) - x0‖ ≤ r := by
    refine (hv1 ⟨a, ha⟩).trans ?_
    calc (Kv : ℝ) * ‖a.2.1 - fun _ => w‖ ≤ Kv * (r / Kv) :=
          mul_le_mul_of_nonneg_left (hxn.trans (min_le_left _ _)) hKv0.le
      _ = r := mul_div_cancel₀ r hKv0.ne'
  have key : ∀ ξ (hξ : ξ ∈ P.facet), x.IsFlow γ rs M mask cond σ (conservativeDict S) a ξ →
      ‖ξ - fun _ => w‖ ≤ min (r / Kv) ρ → (⟨ξ, hξ⟩ : P.facet) = h ⟨a, ha⟩ := by
    intro ξ hξ hfl hnξ
    have hzr : ‖(⟨ξ, hξ⟩ : P.facet) - ζ0‖ ≤ ρ := by
      rw [← hz1]
      exact hnξ.trans (min_le_right _ _)
    have hy := (hst ⟨a, ha⟩ ⟨ξ, hξ⟩ har hzr x).1 hfl
    rw [hy] at hx
    exact ((hstep s dt hdt t ⟨a, ha⟩ ⟨ξ, hξ⟩ har hzr cur prev ⟨c, hcm⟩ ⟨p, hp⟩ hcU hpU).1 hx).2
  have := (key ζ hζ hf hn).trans (key ζ' hζ' hf' hn').symm
  exact congrArg Subtype.val this

/-- **C97** The facet unknowns are determined: there is a radius `r` within which the solution `x` of a
step, of any length, belongs to one facet function only. -/
theorem C97_facets {rs : Riemann} {S : GasState 2} (hS : IdealGas γ S)
    {P : HdgSpaces 2 4 V B} {M : HdgMesh 2 V B} {mask : B → ℝ} (hP : P.Fits M mask)
    (hPs : P.Straight M mask) (hrs : ∀ b, mask b = 1 → rs.Damps (S.u ⬝ᵥ M.normal b) S.c)
    {cond : B → FacetCond 2} (hc : ∀ b, mask b = 0 → (cond b).Admits S (M.normal b)) (σ : V → ℝ) :
    ∃ r > 0, ∀ (s : Scheme) (dt : ℝ), 0 < dt → ∀ (t : ℚ) (x cur prev : HdgState 2 4 V B),
      (∃ a ∈ P.element, prev.U = a.2.1) → (∃ a ∈ P.element, cur.U = a.2.1) →
      hdgStep M mask P.tests (s.quotient dt) t x cur prev →
      (∀ v i, |x.U v i - consVec S.rho S.rho_u S.rho_E i| ≤ r) → ∀ a ∈ P.element, ∀ ζ ∈ P.facet,
      ∀ ζ' ∈ P.facet, x.IsFlow γ rs M mask cond σ (conservativeDict S) a ζ →
      x.IsFlow γ rs M mask cond σ (conservativeDict S) a ζ' →
      (∀ b i, |ζ b i - consVec S.rho S.rho_u S.rho_E i| ≤ r) →
      (∀ b i, |ζ' b i - consVec S.rho S.rho_u S.rho_E i| ≤ r) → ζ = ζ' :=
  facets_of_fits (n := 2) hS hP hc σ (fits_of_damps hP hPs hS hrs)

/-! ### Roe and Upwind along the flow -/

/-- The direction of a jump in density at constant velocity and pressure. -/
def contactVec (u : Fin 2 → ℝ) : Fin 4 → ℝ := consVec 1 u ((u ⬝ᵥ u) / 2)

theorem contact_eq {S : GasState 2} (hS : IdealGas γ S) (f : ℝ) :
    consVec S.rho S.rho_u S.rho_E + f • contactVec S.u
      = consVec (S.rho + f) ((S.rho + f) • S.u) (S.rho_E + f * ((S.u ⬝ᵥ S.u) / 2)) := by
  refine cons_ext ?_ (fun i => ?_) ?_
  · simp [contactVec]
  · simp [contactVec, hS.momentum]
    ring
  · simp only [Pi.add_apply, Pi.smul_apply, contactVec, consVec_last, smul_eq_mul]

theorem Pinv_contact (rho c : ℝ) (u d : Fin 2 → ℝ) (hr : rho ≠ 0) :
    matPinv γ rho c u d *ᵥ contactVec u = ![0, c ^ 2, 0, 0] := by
  have hv : contactVec u = ![1, u 0, u 1, (u ⬝ᵥ u) / 2] := by
    funext i
    fin_cases i <;> rfl
  rw [hv]
  funext i
  fin_cases i <;> simp [matPinv, mulVec, dotProduct, Fin.sum_univ_succ] <;> field_simp <;> ring

theorem sigma_keeps {rs : Riemann} (hrs : rs.Keeps) {c : ℝ} {u d : Fin 2 → ℝ} (h : u ⬝ᵥ d = 0) :
    rs.sigma c u d 1 = 0 := by
  rcases hrs with rfl | rfl | ⟨θ₀, h0, rfl⟩
  · simp [Riemann.sigma, lams, h]
  · simp [Riemann.sigma, lams, h]
  · simp [Riemann.sigma, h, h0]

theorem stabFlux_contact {rs : Riemann} (hrs : rs.Keeps) {S : GasState 2} (hS : IdealGas γ S)
    {d : Fin 2 → ℝ} (h : S.u ⬝ᵥ d = 0) {f : ℝ} (hf : 0 < S.rho + f) :
    stabFlux γ rs d (consVec S.rho S.rho_u S.rho_E,
        consVec S.rho S.rho_u S.rho_E + f • contactVec S.u)
      = eulerFluxOf (n := 2) γ d (consVec S.rho S.rho_u S.rho_E) := by
  have hm : ∀ (a e : ℝ) (m : Fin 2 → ℝ), mom (consVec a m e) = m := fun a e m => by funext i; simp
  have hr := hS.rho_pos.ne'
  rw [stabFlux]
  have e1 : eulerFluxOf (n := 2) γ d (consVec S.rho S.rho_u S.rho_E + f • contactVec S.u)
      = eulerFluxOf (n := 2) γ d (consVec S.rho S.rho_u S.rho_E) := by
    rw [contact_eq hS, hS.momentum]
    simp only [eulerFluxOf]
    have q1 : (fun i : Fin 2 => consVec (S.rho + f) ((S.rho + f) • S.u)
      (S.rho_E + f * ((S.u ⬝ᵥ S.u) / 2)) i.castSucc.succ) = (S.rho + f) • S.u := hm _ _ _
    have q2 : (fun i : Fin 2 => consVec S.rho (S.rho • S.u) S.rho_E i.castSucc.succ)
      = S.rho • S.u := hm _ _ _
    rw [q1, q2]
    simp only [eulerFlux, consVec_zero, smul_dotProduct, dotProduct_smul, h, smul_eq_mul, mul_zero,
      zero_div, zero_add]
    have q3 : S.rho_E + f * ((S.u ⬝ᵥ S.u) / 2) - (S.rho + f) * ((S.rho + f) * (S.u ⬝ᵥ S.u))
        / (2 * (S.rho + f)) = S.rho_E - S.rho * (S.rho * (S.u ⬝ᵥ S.u)) / (2 * S.rho) := by
      field_simp
      ring
    rw [consVec_last, consVec_last, q3]
  have e2 : tauOf γ rs d (consVec S.rho S.rho_u S.rho_E + f • contactVec S.u) *ᵥ contactVec S.u = 0 := by
    have hu : velOf (consVec S.rho S.rho_u S.rho_E + f • contactVec S.u) = S.u := by
      rw [contact_eq hS, velOf, hm, consVec_zero, inv_smul_smul₀ hf.ne']
    have h0 : (consVec S.rho S.rho_u S.rho_E + f • contactVec S.u) 0 = S.rho + f := by
      rw [contact_eq hS, consVec_zero]
    rw [tauOf, hu, h0, Matrix.mul_assoc, ← mulVec_mulVec, ← mulVec_mulVec, Pinv_contact _ _ _ _ hf.ne']
    have q : diagonal (rs.sigma (soundOf (n := 2) γ
        (consVec S.rho S.rho_u S.rho_E + f • contactVec S.u)) S.u d) *ᵥ
        ![0, soundOf (n := 2) γ (consVec S.rho S.rho_u S.rho_E + f • contactVec S.u) ^ 2, 0, 0] = 0 := by
      funext i
      rw [mulVec_diagonal]
      fin_cases i
      · exact mul_zero _
      · show rs.sigma _ S.u d 1 * _ = 0
        rw [sigma_keeps hrs h, zero_mul]
      · exact mul_zero _
      · exact mul_zero _
    rw [q, mulVec_zero]
  rw [e1]
  show _ + _ *ᵥ (consVec S.rho S.rho_u S.rho_E - (consVec S.rho S.rho_u S.rho_E + f • contactVec S.u)) = _
  rw [sub_add_cancel_left, mulVec_neg, mulVec_smul, e2, smul_zero, neg_zero, add_zero]

/-- A jump in density at constant velocity and pressure leaves a gas. -/
theorem contact_gas {S : GasState 2} (hS : IdealGas γ S) {f : ℝ} (hp : 0 < S.rho + f) :
    GasVec (n := 2) (consVec (S.rho + f) ((S.rho + f) • S.u) (S.rho_E + f * ((S.u ⬝ᵥ S.u) / 2))) := by
  have hγ := hS.gamma
  have hm : mom (consVec (S.rho + f) ((S.rho + f) • S.u)
    (S.rho_E + f * ((S.u ⬝ᵥ S.u) / 2))) = (S.rho + f) • S.u := by funext i; simp
  refine ⟨hp, ?_⟩
  have h1 := pressure_of_cons hS
  have h2 := hS.p_pos
  have hr := hS.rho_pos
  rw [innerOf, hm, consVec_zero, consVec_last]
  have e : (S.rho_E + f * ((S.u ⬝ᵥ S.u) / 2)) / (S.rho + f)
      - ((S.rho + f) • S.u ⬝ᵥ (S.rho + f) • S.u) / (2 * (S.rho + f) ^ 2)
      = S.p / ((γ - 1) * (S.rho + f)) := by
    rw [← h1, hS.momentum]
    simp only [smul_dotProduct, dotProduct_smul, smul_eq_mul]
    have hg1 : γ - 1 ≠ 0 := by linarith
    field_simp
    ring
  rw [e]
  exact div_pos h2 (mul_pos (by linarith) hp)

/-- **C97** Where the gas flows along an interior facet (or is at rest), Roe, Upwind and HLLEM without
threshold leave the density on the facet undetermined: uniform flow solves the equations of every step
with every facet function that differs from it there by a jump in density at constant velocity and
pressure, no matter how small. -/
theorem C97_fails_facets {rs : Riemann} (hrs : rs.Keeps) {S : GasState 2} (hS : IdealGas γ S)
    {P : HdgSpaces 2 4 V B} {M : HdgMesh 2 V B} {mask : B → ℝ} (hP : P.Fits M mask)
    {cond : B → FacetCond 2} (hc : ∀ b, mask b = 0 → (cond b).Admits S (M.normal b)) (σ : V → ℝ) :
    ∃ x : HdgState 2 4 V B, (∀ v, x.U v = consVec S.rho S.rho_u S.rho_E) ∧
      (∀ (s : Scheme) (dt : ℝ), 0 < dt → ∀ t : ℚ,
        hdgStep M mask P.tests (s.quotient dt) t x x x) ∧
      ∀ f : B → ℝ, (∀ b, f b ≠ 0 → mask b = 1 ∧ S.u ⬝ᵥ M.normal b = 0) → (∀ b, 0 < S.rho + f b) →
        x.IsFlow γ rs M mask cond σ (conservativeDict S)
          (0, fun _ => consVec S.rho S.rho_u S.rho_E, fun _ => consVec S.rho S.rho_u S.rho_E)
          (fun b => consVec (S.rho + f b) ((S.rho + f b) • S.u)
            (S.rho_E + f b * ((S.u ⬝ᵥ S.u) / 2))) := by
  classical
  have hγ := hS.gamma
  have hg := gasVec_of hS
  obtain ⟨w, hw⟩ : ∃ w : Fin 4 → ℝ, w = consVec S.rho S.rho_u S.rho_E := ⟨_, rfl⟩
  obtain ⟨a, ha⟩ : ∃ a : ElementFn 2 4 V B, a = (0, fun _ => w, fun _ => w) := ⟨_, rfl⟩
  have hsame : ∀ b, stabFlux γ rs (M.normal b) (w, w) = eulerFluxOf (n := 2) γ (M.normal b) w :=
    fun b => by simp only [stabFlux, sub_self, mulVec_zero, add_zero]
  refine ⟨dataState (n := 2) a (fluxDataN (n := 2) γ (fun b => stabFlux γ rs (M.normal b)) M mask cond σ w
    (a, fun _ => w)), fun v => by rw [← hw, ha]; rfl, ?_, ?_⟩
  · intro s dt hdt t
    rw [step_iff (n := 2) P M mask s hdt t a _ _ _ a a rfl rfl]
    constructor
    · intro φ hφ
      have e1 : a - s.extrapolate a a = 0 := by
        cases s
        · simp [Scheme.extrapolate]
        · simp only [Scheme.extrapolate]
          module
      rw [e1, map_zero, LinearMap.zero_apply, zero_add, ha,
        spatialN_uniform (n := 2) hS hP hc σ hw hsame hφ P.facet.zero_mem, mul_zero]
    · intro ψ hψ
      rw [ha]
      exact spatialN_uniform (n := 2) hS hP hc σ hw hsame P.element.zero_mem hψ
  · intro f hf hpos
    have hζ : ∀ b, GasVec (n := 2) (consVec (S.rho + f b) ((S.rho + f b) • S.u)
        (S.rho_E + f b * ((S.u ⬝ᵥ S.u) / 2))) := fun b => contact_gas hS (hpos b)
    have hiff := isFlowN_iff (n := 2) hγ (rs := rs) (M := M) (mask := mask)
      (N := fun b => stabFlux γ rs (M.normal b))
      (fun b u _ h => stabFlux_eq hγ rs (hP.unit b) u h) hP.mask01 hc σ (a := a)
      (ζ := fun b => consVec (S.rho + f b) ((S.rho + f b) • S.u)
        (S.rho_E + f b * ((S.u ⬝ᵥ S.u) / 2)))
      (fun v => by rw [ha, hw]; exact hg) (fun b => by rw [ha, hw]; exact hg) hζ
    rw [← hw, ← ha]
    refine (hiff _).2 ?_
    rw [← hw]
    congr 1
    have hb0 : ∀ b, f b = 0 → consVec (S.rho + f b) ((S.rho + f b) • S.u)
        (S.rho_E + f b * ((S.u ⬝ᵥ S.u) / 2)) = w := by
      intro b h0
      rw [h0, hw, hS.momentum]
      simp
    rw [ha]
    refine Prod.ext rfl (Prod.ext ?_ (Prod.ext ?_ rfl))
    · funext b
      show stabFlux γ rs (M.normal b) (w, w) = stabFlux γ rs (M.normal b) (w,
        consVec (S.rho + f b) ((S.rho + f b) • S.u) (S.rho_E + f b * ((S.u ⬝ᵥ S.u) / 2)))
      by_cases h0 : f b = 0
      · rw [hb0 b h0]
      · rw [hsame, ← contact_eq hS, hw, stabFlux_contact hrs hS (hf b h0).2 (hpos b)]
    · funext b
      simp only [fluxDataN]
      by_cases hb : mask b = 1
      · simp [hb]
      · have h0 : f b = 0 := by
          by_contra h
          exact hb (hf b h).1
        rw [hb0 b h0]

/-! ### Triangulations -/

variable {E : Type} [Fintype E] {K : Triangulation E} {R : VolumeRule} {S : SideRule}

/-- The sides of triangles are straight, and their polynomials independent. -/
theorem spaces_straight (hK : K.Conforming) {bcs : Conditions} (hc : K.Covered bcs) {k : ℕ}
    {order : E → ℕ} {orderHat : E × Fin 3 → ℕ} :
    (K.spaces k order orderHat R S).Straight (K.mesh R S) ((K.mesh R S).mask bcs) := by
  classical
  rintro A hA _ ⟨hat, hd, hs, rfl⟩
  let m : E × Fin 3 → ℝ := fun x => if K.across x = none then 0 else 1
  have hm : ∀ b : (E × Fin 3) × Fin S.n, (K.mesh R S).mask bcs b = m b.1 := by
    intro b
    by_cases h : K.across b.1 = none
    · rw [hc.mask_zero (R := R) b h]
      simp [m, h]
    · rw [hc.mask_one (R := R) b h]
      simp [m, h]
  refine ⟨fun x i => ∑ l, Polynomial.C (A (K.normal x) (m x) i l) * hat x l, ?_, ?_, ?_⟩
  · intro x i
    refine Polynomial.natDegree_sum_le_of_forall_le _ _ fun l _ => ?_
    exact (Polynomial.natDegree_C_mul_le _ _).trans (hd x l)
  · intro x y h i
    have hn := (across_normal hK h).2
    have hmm : m y = m x := by simp [m, h, hK.symm _ _ h]
    simp only [hn, hmm, hA, hs x y h]
    rw [← Polynomial.coe_compRingHom_apply, map_sum]
    refine Finset.sum_congr rfl fun l _ => ?_
    simp
  · funext b i
    rw [hm b]
    simp only [Polynomial.eval_finset_sum, Polynomial.eval_mul, Polynomial.eval_C]
    rfl

/-- **C97** On every conforming triangulation, with every Riemann solver that acts on all waves that
cross the inner sides. The conclusion is that of `C96_triangulation`. -/
theorem C97_triangulation (hK : K.Conforming) {bcs : Conditions} (hc : K.Covered bcs) {d : ℕ}
    (hd : 1 ≤ d) (hR : R.Exact d) (hS : S.Exact d) (hRw : ∀ q, 0 < R.w q) (hSw : ∀ q, 0 < S.w q)
    (hSs : S.Symmetric) {order : E → ℕ} {orderHat : E × Fin 3 → ℕ} (ho : ∀ e, 2 * order e ≤ d)
    {rs : Riemann} {W : GasState 2} (hW : IdealGas γ W)
    (hrs : ∀ x, K.across x ≠ none → rs.Damps (W.u ⬝ᵥ K.normal x) W.c)
    {cond : (E × Fin 3) × Fin S.n → FacetCond 2}
    (hcond : ∀ b, K.across b.1 = none → (cond b).Admits W (K.normal b.1))
    (σ : E × Fin R.n → ℝ) {T : ℝ} (hT : 0 < T) :
    ∃ dt₀ > 0, ∃ δ > 0, ∃ C, ∃ r > 0, C * δ ≤ r ∧ ∀ η, 0 ≤ η → η ≤ δ →
      ∀ p : E → Fin 4 → MvPolynomial (Fin 2) ℝ, (∀ e i, (p e i).totalDegree ≤ order e) →
      ∀ x₀ : HdgState 2 4 (E × Fin R.n) ((E × Fin 3) × Fin S.n),
      (∀ v i, x₀.U v i = MvPolynomial.eval (K.pos R v) (p v.1 i)) →
      (∀ v i, |x₀.U v i - consVec W.rho W.rho_u W.rho_E i| ≤ η) →
      ∃ y, IsEvolution γ rs (K.spaces 4 order orderHat R S) (K.mesh R S) ((K.mesh R S).mask bcs) cond σ
          (conservativeDict W) (consVec W.rho W.rho_u W.rho_E) (C * η) T y ∧ (y 0).U = x₀.U ∧
        (∀ z, IsEvolution γ rs (K.spaces 4 order orderHat R S) (K.mesh R S) ((K.mesh R S).mask bcs)
          cond σ (conservativeDict W) (consVec W.rho W.rho_u W.rho_E) r T z → (z 0).U = x₀.U →
          ∀ t ∈ Icc 0 T, z t = y t) ∧
        ∀ (s : Scheme) (dt : ℝ), 0 < dt → dt ≤ dt₀ → ∀ ts : List ℚ, dt * ts.length ≤ T →
          (∃ xs, Satisfies (hdgStep (K.mesh R S) ((K.mesh R S).mask bcs)
              (K.space 4 order orderHat R S) (s.quotient dt)) x₀ x₀ ts xs ∧
            ∀ x ∈ xs, x.NearFlow γ rs (K.spaces 4 order orderHat R S) (K.mesh R S)
              ((K.mesh R S).mask bcs) cond σ (conservativeDict W)
              (consVec W.rho W.rho_u W.rho_E) (C * η)) ∧
          ∀ xs, Satisfies (hdgStep (K.mesh R S) ((K.mesh R S).mask bcs)
              (K.space 4 order orderHat R S) (s.quotient dt)) x₀ x₀ ts xs →
            (∀ x ∈ xs, x.NearFlow γ rs (K.spaces 4 order orderHat R S) (K.mesh R S)
              ((K.mesh R S).mask bcs) cond σ (conservativeDict W)
              (consVec W.rho W.rho_u W.rho_E) r) →
            ∀ i (hi : i < xs.length), ∀ v j,
              |xs[i].U v j - (y ((i + 1) * dt)).U v j| ≤ C * η * dt := by
  have hcond' : ∀ b, (K.mesh R S).mask bcs b = 0 → (cond b).Admits W ((K.mesh R S).normal b) := by
    intro b hb
    refine hcond b ?_
    by_contra h
    rw [hc.mask_one (R := R) b h] at hb
    exact one_ne_zero hb
  have hrs' : ∀ b, (K.mesh R S).mask bcs b = 1 → rs.Damps (W.u ⬝ᵥ (K.mesh R S).normal b) W.c := by
    intro b hb
    refine hrs b.1 fun h => ?_
    rw [hc.mask_zero (R := R) b h] at hb
    exact zero_ne_one hb
  obtain ⟨dt₀, h1, δ, h2, C, r, h3, h4, h5⟩ :=
    C97_converges hW (spaces_fit (k := 4) (orderHat := orderHat) hK hc hd hR hS hRw hSw hSs ho)
      (spaces_straight hK hc) hrs' hcond' σ hT
  refine ⟨dt₀, h1, δ, h2, C, r, h3, h4, ?_⟩
  intro η hη hηδ p hp x₀ hxU hxn
  have := h5 η hη hηδ x₀ ⟨_, ⟨p, hp, rfl⟩, funext fun v => funext fun i => hxU v i⟩ hxn
  rwa [Triangulation.spaces_tests] at this

/-- **C97** On a triangulation: if the gas flows along one inner side, the facet unknowns of that side
are not determined, however small the radius `r` in which solutions are sought. -/
theorem C97_fails_triangulation (hK : K.Conforming) {bcs : Conditions} (hc : K.Covered bcs) {d : ℕ}
    (hd : 1 ≤ d) (hR : R.Exact d) (hS : S.Exact d) (hRw : ∀ q, 0 < R.w q) (hSw : ∀ q, 0 < S.w q)
    (hSs : S.Symmetric) {order : E → ℕ} {orderHat : E × Fin 3 → ℕ} (ho : ∀ e, 2 * order e ≤ d)
    {rs : Riemann} (hrs : rs.Keeps) {W : GasState 2} (hW : IdealGas γ W)
    {cond : (E × Fin 3) × Fin S.n → FacetCond 2}
    (hcond : ∀ b, K.across b.1 = none → (cond b).Admits W (K.normal b.1))
    (σ : E × Fin R.n → ℝ) {x₁ : E × Fin 3} (hx : K.across x₁ ≠ none) (hu : W.u ⬝ᵥ K.normal x₁ = 0)
    (q : Fin S.n) {r : ℝ} (hr : 0 < r) :
    ∃ x : HdgState 2 4 (E × Fin R.n) ((E × Fin 3) × Fin S.n),
      (∀ v, x.U v = consVec W.rho W.rho_u W.rho_E) ∧
      (∀ (s : Scheme) (dt : ℝ), 0 < dt → ∀ t : ℚ, hdgStep (K.mesh R S) ((K.mesh R S).mask bcs)
        (K.space 4 order orderHat R S) (s.quotient dt) t x x x) ∧
      ∃ a ∈ (K.spaces 4 order orderHat R S).element, ∃ ζ ∈ (K.spaces 4 order orderHat R S).facet,
      ∃ ζ' ∈ (K.spaces 4 order orderHat R S).facet,
        x.IsFlow γ rs (K.mesh R S) ((K.mesh R S).mask bcs) cond σ (conservativeDict W) a ζ ∧
        x.IsFlow γ rs (K.mesh R S) ((K.mesh R S).mask bcs) cond σ (conservativeDict W) a ζ' ∧
        (∀ b i, |ζ b i - consVec W.rho W.rho_u W.rho_E i| ≤ r) ∧
        (∀ b i, |ζ' b i - consVec W.rho W.rho_u W.rho_E i| ≤ r) ∧ ζ ≠ ζ' := by
  classical
  have hcond' : ∀ b, (K.mesh R S).mask bcs b = 0 → (cond b).Admits W ((K.mesh R S).normal b) := by
    intro b hb
    refine hcond b ?_
    by_contra h
    rw [hc.mask_one (R := R) b h] at hb
    exact one_ne_zero hb
  have hfit := spaces_fit (k := 4) (orderHat := orderHat) hK hc hd hR hS hRw hSw hSs ho
  obtain ⟨x, h1, h2, h3⟩ := C97_fails_facets hrs hW hfit hcond' σ
  rw [Triangulation.spaces_tests] at h2
  obtain ⟨y₁, hy⟩ := Option.ne_none_iff_exists'.1 hx
  have hy' := hK.symm _ _ hy
  obtain ⟨M, hM⟩ : ∃ M, M = ∑ i, |contactVec W.u i| := ⟨_, rfl⟩
  have hM0 : 0 ≤ M := hM ▸ Finset.sum_nonneg fun _ _ => abs_nonneg _
  have hMi : ∀ i, |contactVec W.u i| ≤ M := fun i => hM ▸
    Finset.single_le_sum (f := fun i => |contactVec W.u i|) (fun _ _ => abs_nonneg _) (Finset.mem_univ i)
  obtain ⟨ε, hε⟩ : ∃ ε, ε = r / (M + 1) := ⟨_, rfl⟩
  have hε0 : 0 < ε := hε ▸ div_pos hr (by positivity)
  have hεM : ∀ i, |ε * contactVec W.u i| ≤ r := by
    intro i
    rw [abs_mul, abs_of_pos hε0, hε, div_mul_eq_mul_div, div_le_iff₀ (by positivity)]
    have := hMi i
    exact mul_le_mul_of_nonneg_left (by linarith) hr.le
  let g : E × Fin 3 → ℝ := fun x => if x = x₁ ∨ x = y₁ then ε else 0
  have hg : ∀ x, g x = ε ∨ g x = 0 := fun x => by
    by_cases h : x = x₁ ∨ x = y₁
    · exact .inl (by simp [g, h])
    · exact .inr (by simp [g, h])
  have hga : ∀ x y, K.across x = some y → g y = g x := by
    intro x y h
    have e : (y = x₁ ∨ y = y₁) ↔ (x = x₁ ∨ x = y₁) := by
      have h' := hK.symm _ _ h
      constructor
      · rintro (rfl | rfl)
        · rw [hy] at h'
          exact .inr (Option.some.inj h').symm
        · rw [hy'] at h'
          exact .inl (Option.some.inj h').symm
      · rintro (rfl | rfl)
        · rw [hy] at h
          exact .inr (Option.some.inj h).symm
        · rw [hy'] at h
          exact .inl (Option.some.inj h).symm
    simp only [g, e]
  have hpos : ∀ x, 0 < W.rho + g x := fun x => by
    have := hW.rho_pos
    rcases hg x with h | h <;> rw [h] <;> linarith
  have f0 := h3 (fun _ => 0) (fun b h => absurd rfl h) (fun b => by simpa using hW.rho_pos)
  have f1 := h3 (fun b => g b.1) (fun b h => by
    have hb : b.1 = x₁ ∨ b.1 = y₁ := by
      by_contra hn
      exact h (by simp [g, hn])
    constructor
    · refine hc.mask_one (R := R) b ?_
      rcases hb with e | e
      · rwa [e]
      · rw [e, hy']
        simp
    · show W.u ⬝ᵥ K.normal b.1 = 0
      rcases hb with e | e
      · rwa [e]
      · rw [e, (across_normal hK hy).2, dotProduct_neg, hu, neg_zero]) (fun b => hpos b.1)
  have hz : consVec (W.rho + 0) ((W.rho + 0) • W.u) (W.rho_E + 0 * ((W.u ⬝ᵥ W.u) / 2))
      = consVec W.rho W.rho_u W.rho_E := by rw [hW.momentum]; simp
  simp only [hz] at f0
  have hv : ∀ b : (E × Fin 3) × Fin S.n, consVec (W.rho + g b.1) ((W.rho + g b.1) • W.u)
      (W.rho_E + g b.1 * ((W.u ⬝ᵥ W.u) / 2))
      = consVec W.rho W.rho_u W.rho_E + g b.1 • contactVec W.u := fun b => (contact_eq hW _).symm
  simp only [hv] at f1
  refine ⟨x, h1, h2, _, hfit.constant _, _, hfit.constantHat _, _, ?_, f0, f1, ?_, ?_, ?_⟩
  · refine ⟨fun x i => Polynomial.C ((consVec W.rho W.rho_u W.rho_E + g x • contactVec W.u) i), ?_, ?_, ?_⟩
    · intro x i
      rw [Polynomial.natDegree_C]
      exact Nat.zero_le _
    · intro x y h i
      simp only [hga x y h, Polynomial.C_comp]
    · funext b i
      simp
  · intro b i
    simp [hr.le]
  · intro b i
    rw [Pi.add_apply, add_sub_cancel_left, Pi.smul_apply, smul_eq_mul]
    rcases hg b.1 with h | h <;> rw [h]
    · exact hεM i
    · simpa using hr.le
  · intro h
    have e := congrFun (congrFun h (x₁, q)) 0
    have e1 : g x₁ = ε := by simp [g]
    simp only [Pi.add_apply, Pi.smul_apply, e1, contactVec, consVec_zero, smul_eq_mul, mul_one] at e
    linarith

/-! ### Concrete cases -/

/-- In the channel of `C94_triangulation` the gas flows across the diagonal, slower than sound. -/
theorem channel_damps (rs : Riemann) (x : Bool × Fin 3) (hx : (squareMesh false).across x ≠ none) :
    rs.Damps (channelState.u ⬝ᵥ (squareMesh false).normal x) channelState.c := by
  have h1 : channelState.c = 1 := by
    show √(7 / 5 * (7 / 5 - 1) * (25 / 14)) = 1
    rw [show (7 / 5 * (7 / 5 - 1) * (25 / 14) : ℝ) = 1 by norm_num, Real.sqrt_one]
  have h2 : (channelState.u ⬝ᵥ (squareMesh false).normal x) ^ 2 = 1 / 2 := by
    obtain ⟨_ | _, i⟩ := x <;> fin_cases i <;> simp [squareMesh] at hx
    all_goals
      simp [channelState, GasState.of, Triangulation.normal, Triangulation.start, Triangulation.stop,
        Triangulation.length, squareMesh, dotProduct, Fin.sum_univ_two]
      try norm_num [div_pow]
  have h3 : channelState.u ⬝ᵥ (squareMesh false).normal x ≠ 0 := fun h => by
    rw [h] at h2
    norm_num at h2
  have h4 : |channelState.u ⬝ᵥ (squareMesh false).normal x| ≠ channelState.c := fun h => by
    rw [h1] at h
    rw [← sq_abs, h] at h2
    norm_num at h2
  cases rs with
  | laxFriedrich => trivial
  | hll => trivial
  | hllem θ₀ => exact .inl h3
  | roe => exact ⟨h3, h4⟩
  | upwind => exact ⟨h3, h4⟩

/-- C97, concrete instance: the channel with an initial density that varies linearly, for all Riemann
solvers. All hypotheses of `C97_triangulation` hold, and so all those of `C97_runs`, `C97_converges`
and `C97_facets`. -/
example (rs : Riemann) : ∃ (R : VolumeRule) (S : SideRule) (ε : ℝ),
    0 < ε ∧ ∃ dt₀ > 0, ∃ C, ∀ x : HdgState 2 4 (Bool × Fin R.n) ((Bool × Fin 3) × Fin S.n),
      (∀ v, x.U v = consVec (2 + ε * (squareMesh false).pos R v 0) ![2, 0] (32 / 7)) →
      ∃ y : ℝ → HdgState 2 4 (Bool × Fin R.n) ((Bool × Fin 3) × Fin S.n), (y 0).U = x.U ∧
      (∃ r, IsEvolution (7 / 5) rs ((squareMesh false).spaces 4 (fun _ => 2) (fun _ => 3) R S)
        ((squareMesh false).mesh R S) (((squareMesh false).mesh R S).mask (squareConditions false))
        (channelCond S) (fun _ => 1) (conservativeDict channelState)
        (consVec channelState.rho channelState.rho_u channelState.rho_E) r 3 y) ∧
      ∀ (s : Scheme) (dt : ℝ), 0 < dt → dt ≤ dt₀ → ∀ ts : List ℚ, dt * ts.length ≤ 3 →
      ∃ xs : List (HdgState 2 4 (Bool × Fin R.n) ((Bool × Fin 3) × Fin S.n)),
        Satisfies (hdgStep ((squareMesh false).mesh R S)
          (((squareMesh false).mesh R S).mask (squareConditions false))
          ((squareMesh false).space 4 (fun _ => 2) (fun _ => 3) R S) (s.quotient dt)) x x ts xs ∧
        ∀ i (hi : i < xs.length), ∀ v j, |xs[i].U v j - (y ((i + 1) * dt)).U v j| ≤ C * dt := by
  obtain ⟨⟨R, hR, hRw⟩, S, hS, hSw, hSs⟩ := C94_rules 4
  obtain ⟨dt₀, h1, δ, h2, C, r, h3, h4, h⟩ :=
    C97_triangulation (orderHat := fun _ => 3) (squareMesh_conforming false) (squareMesh_covered false)
      (d := 4) (by norm_num) hR hS hRw hSw hSs (order := fun _ => 2) (fun _ => le_rfl)
      channelState_ideal (channel_damps rs) (channel_admits S) (fun _ => 1) (T := 3) (by norm_num)
  obtain ⟨A, hA⟩ : ∃ A, A = ∑ v, |(squareMesh false).pos R v 0| := ⟨_, rfl⟩
  have hA0 : 0 ≤ A := hA ▸ Finset.sum_nonneg fun _ _ => abs_nonneg _
  have hAv : ∀ v, |(squareMesh false).pos R v 0| ≤ A := fun v => hA ▸
    Finset.single_le_sum (f := fun v => |(squareMesh false).pos R v 0|) (fun _ _ => abs_nonneg _)
      (Finset.mem_univ v)
  refine ⟨R, S, δ / (A + 1), by positivity, dt₀, h1, C * δ, fun x hx => ?_⟩
  have hw : consVec channelState.rho channelState.rho_u channelState.rho_E = ![2, 2, 0, 32 / 7] := by
    funext i
    fin_cases i
    · rfl
    · show (2 : ℝ) * 1 = 2
      norm_num
    · show (2 : ℝ) * 0 = 0
      norm_num
    · show (2 : ℝ) * (25 / 14 + (![1, 0] ⬝ᵥ ![1, 0]) / 2) = 32 / 7
      norm_num [dotProduct, Fin.sum_univ_two]
  have hU : ∀ v i, x.U v i = ![2 + δ / (A + 1) * (squareMesh false).pos R v 0, 2, 0, 32 / 7] i := by
    intro v i
    rw [hx v]
    fin_cases i <;> rfl
  have hpoly : ∀ v i, x.U v i = MvPolynomial.eval ((squareMesh false).pos R v)
      ((![MvPolynomial.C 2 + MvPolynomial.C (δ / (A + 1)) * MvPolynomial.X 0, MvPolynomial.C 2,
        0, MvPolynomial.C (32 / 7)] : Fin 4 → MvPolynomial (Fin 2) ℝ) i) := by
    intro v i
    rw [hU]
    fin_cases i <;> simp
  have hdeg : ∀ i, ((![MvPolynomial.C 2 + MvPolynomial.C (δ / (A + 1)) * MvPolynomial.X 0,
      MvPolynomial.C 2, 0, MvPolynomial.C (32 / 7)] : Fin 4 → MvPolynomial (Fin 2) ℝ) i).totalDegree
      ≤ 2 := by
    intro i
    fin_cases i
    · refine (MvPolynomial.totalDegree_add _ _).trans (max_le (by simp) ?_)
      exact (MvPolynomial.totalDegree_mul _ _).trans (by simp)
    all_goals simp
  have hnear : ∀ v i, |x.U v i - consVec channelState.rho channelState.rho_u channelState.rho_E i|
      ≤ δ := by
    intro v i
    rw [hU, hw]
    have h0 : |δ / (A + 1) * (squareMesh false).pos R v 0| ≤ δ := by
      rw [abs_mul, abs_of_pos (by positivity), div_mul_eq_mul_div, div_le_iff₀ (by positivity)]
      have := hAv v
      exact mul_le_mul_of_nonneg_left (by linarith) h2.le
    fin_cases i
    · simpa using h0
    all_goals simp [h2.le]
  obtain ⟨y, y1, y2, -, y4⟩ := h δ h2.le le_rfl _ (fun _ i => hdeg i) x hpoly hnear
  refine ⟨y, y2, ⟨_, y1⟩, fun s dt hdt hdt0 ts hT => ?_⟩
  obtain ⟨⟨xs, e1, e2⟩, e3⟩ := y4 s dt hdt hdt0 ts hT
  refine ⟨xs, e1, e3 xs e1 fun z hz => ?_⟩
  obtain ⟨a, ha, ζ, hζ, hf, n1, n2⟩ := e2 z hz
  exact ⟨a, ha, ζ, hζ, hf, fun v i => (n1 v i).trans h4, fun b i => (n2 b i).trans h4⟩

/-- C97, concrete instance of the failure: the square with gas at rest, the diagonal, walls, order 2. -/
example {rs : Riemann} (hrs : rs.Keeps) {r : ℝ} (hr : 0 < r) : ∃ (R : VolumeRule) (S : SideRule)
    (x : HdgState 2 4 (Bool × Fin R.n) ((Bool × Fin 3) × Fin S.n)) (a : _) (ζ ζ' : _), ζ ≠ ζ' ∧
      x.IsFlow (7 / 5) rs ((squareMesh false).mesh R S)
        (((squareMesh false).mesh R S).mask (squareConditions false)) (fun _ => .wall) (fun _ => 1)
        (conservativeDict (GasState.of (7 / 5) 2 0 (25 / 14))) a ζ ∧
      x.IsFlow (7 / 5) rs ((squareMesh false).mesh R S)
        (((squareMesh false).mesh R S).mask (squareConditions false)) (fun _ => .wall) (fun _ => 1)
        (conservativeDict (GasState.of (7 / 5) 2 0 (25 / 14))) a ζ' := by
  obtain ⟨⟨R, hR, hRw⟩, S, hS, hSw, hSs⟩ := C94_rules 4
  have hn : 0 < S.n := by
    by_contra h
    have h0 : S.n = 0 := by omega
    have := hS 1 (by simp)
    have hE : IsEmpty (Fin S.n) := by rw [h0]; infer_instance
    simp at this
  obtain ⟨x₁, hx₁⟩ : ∃ x₁, (squareMesh false).across x₁ ≠ none := by
    by_contra h
    push_neg at h
    have := h (false, 2)
    simp [squareMesh] at this
  obtain ⟨x, -, -, a, -, ζ, -, ζ', -, f0, f1, -, -, hne⟩ :=
    C97_fails_triangulation (orderHat := fun _ => 3) (squareMesh_conforming false)
      (squareMesh_covered false) (d := 4) (by norm_num) hR hS hRw hSw hSs (order := fun _ => 2)
      (fun _ => le_rfl) hrs (IdealGas.of (γ := 7 / 5) (rho := 2) (u := 0) (Ei := 25 / 14)
        (by norm_num) (by norm_num) (by norm_num)) (cond := fun _ => .wall)
      (fun b _ => zero_dotProduct _) (fun _ => 1) hx₁ (zero_dotProduct _) ⟨0, hn⟩ hr
  exact ⟨R, S, x, a, ζ, ζ', hne, f0, f1⟩

end Dream
