import Verif.Props.Newton

/-!
# C90: damping factors between one and two
-/

noncomputable section

namespace Dream

variable {X : Type} [NormedAddCommGroup X] [NormedSpace ℝ X] [FiniteDimensional ℝ X]
  {F : X → X} {F' : X → X →L[ℝ] X} {z : X} {β L R : ℝ}

theorem over_near {ω d : ℝ} (h0 : 1 ≤ ω) (hd : 0 ≤ d) (hβ : 0 < β) (hL : 0 < L)
    (hr : 4 * (β * L) * ω * d ≤ 2 - ω) : 4 * (β * L) * d ≤ 1 := by
  have hp : 0 ≤ 4 * (β * L) * d := by positivity
  nlinarith

/-- One step with a factor above one. -/
theorem over_step (h : RegularSolution F F' z β L R) (hβ : 0 < β) (hL : 0 < L) (hR : 0 ≤ R)
    {ω : ℝ} (h0 : 1 ≤ ω) {x δ : X} (hx : ‖x - z‖ ≤ R)
    (hr : 4 * (β * L) * ω * ‖x - z‖ ≤ 2 - ω) (hδ : F' x δ = F x) :
    ‖newtonUpdate ω x δ - z‖ ≤ ω / 2 * ‖x - z‖ := by
  have e : newtonUpdate ω x δ - z = (1 - ω) • (x - z) + ω • (x - z - δ) := by
    simp only [newtonUpdate, sub_smul, one_smul, smul_sub]
    abel
  rw [e]
  refine (norm_add_le _ _).trans ?_
  rw [norm_smul, norm_smul, Real.norm_of_nonpos (by linarith), Real.norm_of_nonneg (by linarith)]
  have h2 := newton_increment h hβ hL hR hx (over_near h0 (norm_nonneg _) hβ hL hr) hδ
  have h3 := mul_le_mul_of_nonneg_left h2 (by linarith : 0 ≤ ω)
  have h4 := mul_le_mul_of_nonneg_right hr (norm_nonneg (x - z))
  nlinarith

theorem over_loop (h : RegularSolution F F' z β L R) (hβ : 0 < β) (hL : 0 < L) (hR : 0 ≤ R)
    {lin : LinOracle X} {c : ℝ} (hc : 0 ≤ c) (hlin : SolvesSystems lin F F' c) {ω : ℝ} (h0 : 1 ≤ ω)
    (h1 : ω < 2) (crit : ℝ) (n it : ℕ) (st : NLState X) (hn : st.isNan = false)
    (hx : ‖st.u - z‖ ≤ R) (hr : 4 * (β * L) * ω * ‖st.u - z‖ ≤ 2 - ω) :
    let s := nlLoop lin (newtonUpdate ω) crit n it st
    s.isNan = false ∧ ∃ k, s.solves = st.solves + k ∧ k ≤ n ∧
      ‖s.u - z‖ ≤ (ω / 2) ^ k * ‖st.u - z‖ ∧
      (s.isConverged = false → st.isConverged = false → k = n ∧ ∀ m < n,
        crit ≤ c * (3 / 2 * (3 / 2 * (‖F' z‖ + L * R))) * ((ω / 2) ^ m * ‖st.u - z‖) ^ 2) := by
  induction n generalizing it st with
  | zero => exact ⟨hn, 0, rfl, le_refl _, by simp [nlLoop], by simp⟩
  | succ n ih =>
    have hr1 := over_near h0 (norm_nonneg _) hβ hL hr
    obtain ⟨δ, e, hl, hδ, he⟩ := hlin it st.u (regular_near h hβ hL hR hx hr1).1
    have hd := over_step h hβ hL hR h0 hx hr hδ
    have herr := newton_error h hβ hL hR hc hx hr1 hδ he
    have hle : ω / 2 * ‖st.u - z‖ ≤ ‖st.u - z‖ := by nlinarith [norm_nonneg (st.u - z)]
    simp only [nlLoop, hl, setIterationError, hn, Bool.false_eq_true, if_false]
    split_ifs with hcv
    · exact ⟨rfl, 1, rfl, by omega, by simpa using hd, fun h => by simp [hcv] at h⟩
    · obtain ⟨a, k, b1, b2, b3, b4⟩ := ih (it + 1)
        { u := newtonUpdate ω st.u δ, yields := st.yields ++ [it], solves := st.solves + 1,
          isNan := st.isNan, isConverged := decide (e < crit) } hn (hd.trans (hle.trans hx))
        ((mul_le_mul_of_nonneg_left (hd.trans hle) (by positivity)).trans hr)
      simp only [hn] at a b1 b3 b4
      have hstep : ∀ m : ℕ, (ω / 2) ^ m * ‖newtonUpdate ω st.u δ - z‖
          ≤ (ω / 2) ^ (m + 1) * ‖st.u - z‖ := fun m => by
        calc (ω / 2) ^ m * ‖newtonUpdate ω st.u δ - z‖
            ≤ (ω / 2) ^ m * (ω / 2 * ‖st.u - z‖) := by gcongr
          _ = _ := by ring
      refine ⟨a, k + 1, by rw [b1]; ring, by omega, b3.trans (hstep k), ?_⟩
      intro hs _
      obtain ⟨d1, d2⟩ := b4 hs (by simpa using hcv)
      refine ⟨by rw [d1], fun m hm => ?_⟩
      cases m with
      | zero =>
        rw [pow_zero, one_mul]
        exact (not_lt.1 (by simpa using hcv)).trans herr
      | succ m =>
        refine (d2 m (by omega)).trans ?_
        have hK : 0 ≤ ‖F' z‖ + L * R := by positivity
        refine mul_le_mul_of_nonneg_left ?_ (by positivity)
        exact pow_le_pow_left₀ (by positivity) (hstep m) 2

/-- **C90** Factors from 1 up to, but not including, 2 also converge, from a neighbourhood that
shrinks as the factor approaches 2: a nonlinear solve never ends in NaN, the distance shrinks at least
by the factor `damping / 2` with each linear solve, and convergence is reported, for every criterion,
if enough iterations are allowed. -/
theorem C90_overrelaxed (h : RegularSolution F F' z β L R) (hβ : 0 < β) (hL : 0 < L) (hR : 0 ≤ R)
    {c : ℝ} (hc : 0 ≤ c) (crit ω : ℝ) (hcrit : 0 < crit) (h0 : 1 ≤ ω) (h1 : ω < 2) :
    0 < (2 - ω) / (4 * β * L * ω) ∧
    ∃ m : ℤ, ∀ N : Newton X X, SolvesSystems (N.lin F) F F' c → N.damping = ω → N.crit = crit →
      ∀ x, ‖x - z‖ ≤ R → ‖x - z‖ ≤ (2 - ω) / (4 * β * L * ω) →
        (N.solve F x).isNan = false ∧
        ‖(N.solve F x).u - z‖ ≤ (ω / 2) ^ (N.solve F x).solves * ‖x - z‖ ∧
        (m ≤ N.maxIter → (N.solve F x).isConverged = true) := by
  have hw : 0 < ω := by linarith
  refine ⟨div_pos (by linarith) (by positivity), ?_⟩
  have hq : (ω / 2) ^ 2 < 1 := by nlinarith
  have hlim : Filter.Tendsto (fun m : ℕ => c * (3 / 2 * (3 / 2 * (‖F' z‖ + L * R)))
      * ((ω / 2) ^ m * R) ^ 2) Filter.atTop (nhds 0) := by
    have := (tendsto_pow_atTop_nhds_zero_of_lt_one (sq_nonneg (ω / 2)) hq).const_mul
      (c * (3 / 2 * (3 / 2 * (‖F' z‖ + L * R))) * R ^ 2)
    rw [mul_zero] at this
    refine this.congr fun m => ?_
    rw [mul_pow, ← pow_mul, ← pow_mul, mul_comm 2 m]
    ring
  obtain ⟨m, hm⟩ := (hlim.eventually (gt_mem_nhds hcrit)).exists
  refine ⟨m + 1, fun N hN hd hcr x hx hr => ?_⟩
  subst hd hcr
  have hr' : 4 * (β * L) * N.damping * ‖x - z‖ ≤ 2 - N.damping := by
    rw [le_div_iff₀ (by positivity)] at hr
    linarith
  obtain ⟨a, k, b1, b2, b3, b4⟩ := over_loop h hβ hL hR hc hN h0 h1 N.crit N.maxIter.toNat 0
    { u := x, yields := [], solves := 0, isNan := false, isConverged := false } rfl hx hr'
  have hk : (N.solve F x).solves = k := b1.trans (zero_add k)
  refine ⟨a, by rw [hk]; exact b3, fun hmax => ?_⟩
  by_contra hcv
  have hb := (b4 (Bool.eq_false_of_not_eq_true hcv) rfl).2 m (by omega)
  refine absurd (hb.trans ?_) (not_le.2 hm)
  have hK : 0 ≤ ‖F' z‖ + L * R := by positivity
  refine mul_le_mul_of_nonneg_left ?_ (by positivity)
  exact pow_le_pow_left₀ (by positivity) (by
    show (N.damping / 2) ^ m * ‖x - z‖ ≤ _
    gcongr) 2

/-- C90, concrete instance: `x² = 1` with the factor `3/2`, from `17/16`. -/
example : ∃ m : ℤ, ∀ m', m ≤ m' →
    ((squareNewton (3 / 2) m').solve (fun x => x ^ 2 - 1) (17 / 16)).isConverged = true := by
  obtain ⟨-, m, hm⟩ := C90_overrelaxed square_regular (by norm_num) (by norm_num) (by norm_num)
    zero_le_one (1 / 100000000) (3 / 2) (by norm_num) (by norm_num) (by norm_num)
  exact ⟨m, fun m' h => (hm (squareNewton (3 / 2) m') (square_solves _ _) rfl rfl (17 / 16)
    (by norm_num) (by norm_num)).2.2 h⟩

end Dream
