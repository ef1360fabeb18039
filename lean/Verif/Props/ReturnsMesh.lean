import Verif.Props.Returns
import Verif.Props.Stabilised
import Verif.Lemmas.EnergyPlanar

/-!
# C99 on triangulations, and a concrete case
-/

noncomputable section

namespace Dream
open Matrix _root_.Spec

section Solvers

variable {γ : ℝ} {V B : Type} [Fintype V] [Fintype B]

/-- **C99** In two dimensions the same holds with every Riemann solver that acts on all waves that
cross the interior facets; walls admit all solvers but Upwind, and isothermal walls admit
Lax–Friedrichs, HLL and HLLEM with a positive threshold. -/
theorem C99_long_runs_solvers {rs : Riemann} {S : GasState 2} (hS : IdealGas γ S)
    {P : HdgSpaces 2 4 V B} {M : HdgMesh 2 V B} {mask : B → ℝ} (hP : P.Fits M mask)
    {cond : B → FacetCond 2} (hR : P.Rich M mask cond)
    (hrs : ∀ b, mask b = 1 → rs.Damps (S.u ⬝ᵥ M.normal b) S.c)
    (hc : ∀ b, mask b = 0 → (cond b).Dissipates rs ∧ (cond b).Admits S (M.normal b)) {σ : V → ℝ}
    (hσ : ∀ v, 0 ≤ σ v) :
    ∃ C, ∀ T, ∃ δ > 0, ∃ r > 0, C * δ ≤ r ∧ ∀ (s : Scheme) (dt : ℝ), 0 < dt →
      ∀ ts : List ℚ, dt * ts.length ≤ T → ∀ η, 0 ≤ η → η ≤ δ →
      ∀ prev cur : HdgState 2 4 V B, (∃ a ∈ P.element, prev.U = a.2.1) →
      (∃ a ∈ P.element, cur.U = a.2.1) →
      (∀ v i, |prev.U v i - consVec S.rho S.rho_u S.rho_E i| ≤ η) →
      (∀ v i, |cur.U v i - consVec S.rho S.rho_u S.rho_E i| ≤ η) →
      ∃ xs, Satisfies (hdgStep M mask P.tests (s.quotient dt)) prev cur ts xs ∧
        (∀ x ∈ xs, x.NearFlow γ rs P M mask cond σ (conservativeDict S)
          (consVec S.rho S.rho_u S.rho_E) (C * η)) ∧
        ∀ ys, Satisfies (hdgStep M mask P.tests (s.quotient dt)) prev cur ts ys →
          (∀ y ∈ ys, y.NearFlow γ rs P M mask cond σ (conservativeDict S)
            (consVec S.rho S.rho_u S.rho_E) r) → ys = xs :=
  long_of_energy hS hP hR (fun b hb => (hc b hb).2) hσ
    (fits_of_damps hP hR.straight hS hrs) (energyFits_planar hS hP hc)

/-- **C99** In two dimensions damped flows return with all these solvers. -/
theorem C99_returns_solvers {rs : Riemann} {S : GasState 2} (hS : IdealGas γ S)
    {P : HdgSpaces 2 4 V B} {M : HdgMesh 2 V B} {mask : B → ℝ} (hP : P.Fits M mask)
    {cond : B → FacetCond 2} (hR : P.Rich M mask cond)
    (hrs : ∀ b, mask b = 1 → rs.Damps (S.u ⬝ᵥ M.normal b) S.c)
    (hc : ∀ b, mask b = 0 → (cond b).Dissipates rs ∧ (cond b).Admits S (M.normal b)) {σ : V → ℝ} {σ₀ : ℝ}
    (hσ₀ : 0 < σ₀) (hσ : ∀ v, σ₀ ≤ σ v) :
    ∃ C, ∃ δ > 0, ∃ r > 0, C * δ ≤ r ∧ ∀ (s : Scheme) (dt : ℝ), 0 < dt → ∃ q, 0 < q ∧ q < 1 ∧
      ∀ ts : List ℚ, ∀ η, 0 ≤ η → η ≤ δ →
      ∀ prev cur : HdgState 2 4 V B, (∃ a ∈ P.element, prev.U = a.2.1) →
      (∃ a ∈ P.element, cur.U = a.2.1) →
      (∀ v i, |prev.U v i - consVec S.rho S.rho_u S.rho_E i| ≤ η) →
      (∀ v i, |cur.U v i - consVec S.rho S.rho_u S.rho_E i| ≤ η) →
      ∃ xs, Satisfies (hdgStep M mask P.tests (s.quotient dt)) prev cur ts xs ∧
        (∀ (i : ℕ) x, xs[i]? = some x → x.NearFlow γ rs P M mask cond σ (conservativeDict S)
          (consVec S.rho S.rho_u S.rho_E) (C * q ^ (i + 1) * η)) ∧
        ∀ ys, Satisfies (hdgStep M mask P.tests (s.quotient dt)) prev cur ts ys →
          (∀ y ∈ ys, y.NearFlow γ rs P M mask cond σ (conservativeDict S)
            (consVec S.rho S.rho_u S.rho_E) r) → ys = xs :=
  returns_of_energy hS hP hR (fun b hb => (hc b hb).2) hσ₀ hσ
    (fits_of_damps hP hR.straight hS hrs) (energyFits_planar hS hP hc)

end Solvers

variable {γ : ℝ} {E : Type} [Fintype E] {K : Triangulation E} {R : VolumeRule} {S : SideRule}

/-- Piecewise polynomials admit the energy estimate if the rules are exact for products of two of
them and the facet functions of boundary sides have at least the order of the triangle. -/
theorem spaces_rich (hK : K.Conforming) {bcs : Conditions} (hc : K.Covered bcs) {d k : ℕ} (hd : 1 ≤ d)
    (hR : R.Exact d) (hS : S.Exact d) {order : E → ℕ} {orderHat : E × Fin 3 → ℕ}
    (ho : ∀ e, 2 * order e ≤ d) (hoh : ∀ x, K.across x = none → order x.1 ≤ orderHat x)
    (cond : E × Fin 3 → FacetCond 2) :
    (K.spaces k order orderHat R S).Rich (K.mesh R S) ((K.mesh R S).mask bcs) (fun b => cond b.1) where
  parts := by
    rintro _ ⟨V, hV, rfl⟩ _ ⟨W, hW, rfl⟩ i l j
    obtain ⟨m, rfl⟩ : ∃ m, d = m + 1 := ⟨d - 1, by omega⟩
    have h := mesh_divergence hK (exact_mono (Nat.le_succ m) hR) hS (fun e => V e i * W e l)
      (fun e => (MvPolynomial.totalDegree_mul _ _).trans (by
        have h1 := hV e i
        have h2 := hW e l
        have h3 := ho e
        omega)) j
    simp only [MvPolynomial.pderiv_mul, map_add, map_mul] at h
    refine Eq.trans (Finset.sum_congr rfl fun v _ => ?_) h
    simp only [Triangulation.elementFn]
    ring
  combine := by
    rintro A _ ⟨V, hV, rfl⟩
    refine ⟨fun e i => ∑ l, MvPolynomial.C (A i l) * V e l, fun e i => ?_, ?_⟩
    · refine (MvPolynomial.totalDegree_finsetSum_le fun l _ => ?_)
      refine (MvPolynomial.totalDegree_mul _ _).trans ?_
      simpa using hV e l
    · refine Prod.ext ?_ (Prod.ext ?_ ?_) <;> funext <;>
        simp [Triangulation.elementFn, mulVec, dotProduct, MvPolynomial.pderiv_mul]
  straight := spaces_straight hK hc
  traces := by
    classical
    rintro A _ ⟨V, hV, rfl⟩
    have hside := fun (x : E × Fin 3) (i : Fin k) => 
      exists_sidePoly K x (V x.1 i)
    choose r hr1 hr2 using hside
    obtain ⟨hat, e1, e2⟩ : ∃ hat : E × Fin 3 → Fin k → Polynomial ℝ,
        (∀ x i, K.across x = none →
          hat x i = ∑ l, Polynomial.C (A (cond x) (K.normal x) i l) * r x l) ∧
        ∀ x i, K.across x ≠ none → hat x i = 0 :=
      ⟨fun x i => if K.across x = none then
        ∑ l, Polynomial.C (A (cond x) (K.normal x) i l) * r x l else 0,
        fun x i h => by simp [h], fun x i h => by simp [h]⟩
    refine ⟨hat, fun x i => ?_, ?_, ?_⟩
    · by_cases h : K.across x = none
      · rw [e1 x i h]
        refine Polynomial.natDegree_sum_le_of_forall_le _ _ fun l _ => ?_
        exact (Polynomial.natDegree_C_mul_le _ _).trans (((hr1 x l).trans (hV x.1 l)).trans (hoh x h))
      · rw [e2 x i h]
        simp
    · intro x y h i
      rw [e2 x i (by simp [h]), e2 y i (by simp [hK.symm x y h])]
      simp
    · funext b i
      by_cases h : K.across b.1 = none
      · rw [hc.mask_zero (R := R) b h, e1 _ _ h]
        simp only [sub_zero, one_smul, mulVec, dotProduct, Polynomial.eval_finset_sum,
          Polynomial.eval_mul, Polynomial.eval_C, hr2]
        rfl
      · rw [hc.mask_one (R := R) b h, e2 _ _ h]
        simp

/-- **C99** On every triangulation, with elements of any orders, facets of at least these orders on the
boundary, and exact quadrature: flows in a closed domain are not amplified, however long the steps
are. -/
theorem C99_triangulation_long (hK : K.Conforming) {bcs : Conditions} (hc : K.Covered bcs) {d : ℕ}
    (hd : 1 ≤ d) (hR : R.Exact d) (hS : S.Exact d) (hRw : ∀ q, 0 < R.w q) (hSw : ∀ q, 0 < S.w q)
    (hSs : S.Symmetric) {order : E → ℕ} {orderHat : E × Fin 3 → ℕ} (ho : ∀ e, 2 * order e ≤ d)
    (hoh : ∀ x, K.across x = none → order x.1 ≤ orderHat x) {rs : Riemann} {W : GasState 2}
    (hW : IdealGas γ W) (hrs : ∀ x, K.across x ≠ none → rs.Damps (W.u ⬝ᵥ K.normal x) W.c)
    {cond : E × Fin 3 → FacetCond 2}
    (hcond : ∀ x, K.across x = none → (cond x).Dissipates rs ∧ (cond x).Admits W (K.normal x))
    {σ : E × Fin R.n → ℝ} (hσ : ∀ v, 0 ≤ σ v) :
    ∃ C, ∀ T, ∃ δ > 0, ∃ r > 0, C * δ ≤ r ∧ ∀ (s : Scheme) (dt : ℝ), 0 < dt →
      ∀ ts : List ℚ, dt * ts.length ≤ T → ∀ η, 0 ≤ η → η ≤ δ →
      ∀ p q' : E → Fin 4 → MvPolynomial (Fin 2) ℝ, (∀ e i, (p e i).totalDegree ≤ order e) →
      (∀ e i, (q' e i).totalDegree ≤ order e) →
      ∀ prev cur : HdgState 2 4 (E × Fin R.n) ((E × Fin 3) × Fin S.n),
      (∀ v i, prev.U v i = MvPolynomial.eval (K.pos R v) (p v.1 i)) →
      (∀ v i, cur.U v i = MvPolynomial.eval (K.pos R v) (q' v.1 i)) →
      (∀ v i, |prev.U v i - consVec W.rho W.rho_u W.rho_E i| ≤ η) →
      (∀ v i, |cur.U v i - consVec W.rho W.rho_u W.rho_E i| ≤ η) →
      ∃ xs, Satisfies (hdgStep (K.mesh R S) ((K.mesh R S).mask bcs)
          (K.space 4 order orderHat R S) (s.quotient dt)) prev cur ts xs ∧
        (∀ x ∈ xs, x.NearFlow γ rs (K.spaces 4 order orderHat R S) (K.mesh R S)
          ((K.mesh R S).mask bcs) (fun b => cond b.1) σ (conservativeDict W)
          (consVec W.rho W.rho_u W.rho_E) (C * η)) ∧
        ∀ ys, Satisfies (hdgStep (K.mesh R S) ((K.mesh R S).mask bcs)
          (K.space 4 order orderHat R S) (s.quotient dt)) prev cur ts ys →
          (∀ y ∈ ys, y.NearFlow γ rs (K.spaces 4 order orderHat R S) (K.mesh R S)
          ((K.mesh R S).mask bcs) (fun b => cond b.1) σ (conservativeDict W)
            (consVec W.rho W.rho_u W.rho_E) r) → ys = xs := by
  have hcond' : ∀ b : (E × Fin 3) × Fin S.n, (K.mesh R S).mask bcs b = 0 →
      (cond b.1).Dissipates rs ∧ (cond b.1).Admits W ((K.mesh R S).normal b) := by
    intro b hb
    refine hcond b.1 ?_
    by_contra h
    rw [hc.mask_one (R := R) b h] at hb
    exact one_ne_zero hb
  have hrs' : ∀ b, (K.mesh R S).mask bcs b = 1 → rs.Damps (W.u ⬝ᵥ (K.mesh R S).normal b) W.c := by
    intro b hb
    refine hrs b.1 fun h => ?_
    rw [hc.mask_zero (R := R) b h] at hb
    exact zero_ne_one hb
  obtain ⟨C, hC⟩ := C99_long_runs_solvers hW
    (spaces_fit (k := 4) (orderHat := orderHat) hK hc hd hR hS hRw hSw hSs ho)
    (spaces_rich hK hc hd hR hS ho hoh cond) hrs' hcond' hσ
  refine ⟨C, fun T => ?_⟩
  obtain ⟨δ, h1, r, h2, h3, h5⟩ := hC T
  refine ⟨δ, h1, r, h2, h3, ?_⟩
  intro s dt hdt ts hT η hη hηδ p q hp hq prev cur hpU hcU hpn hcn
  have := h5 s dt hdt ts hT η hη hηδ prev cur
    ⟨_, ⟨p, hp, rfl⟩, funext fun v => funext fun i => hpU v i⟩
    ⟨_, ⟨q, hq, rfl⟩, funext fun v => funext fun i => hcU v i⟩ hpn hcn
  rwa [Triangulation.spaces_tests] at this

/-- **C99** On every triangulation damped flows in a closed domain return to uniform flow. -/
theorem C99_triangulation_returns (hK : K.Conforming) {bcs : Conditions} (hc : K.Covered bcs) {d : ℕ}
    (hd : 1 ≤ d) (hR : R.Exact d) (hS : S.Exact d) (hRw : ∀ q, 0 < R.w q) (hSw : ∀ q, 0 < S.w q)
    (hSs : S.Symmetric) {order : E → ℕ} {orderHat : E × Fin 3 → ℕ} (ho : ∀ e, 2 * order e ≤ d)
    (hoh : ∀ x, K.across x = none → order x.1 ≤ orderHat x) {rs : Riemann} {W : GasState 2}
    (hW : IdealGas γ W) (hrs : ∀ x, K.across x ≠ none → rs.Damps (W.u ⬝ᵥ K.normal x) W.c)
    {cond : E × Fin 3 → FacetCond 2}
    (hcond : ∀ x, K.across x = none → (cond x).Dissipates rs ∧ (cond x).Admits W (K.normal x))
    {σ : E × Fin R.n → ℝ} {σ₀ : ℝ} (hσ₀ : 0 < σ₀) (hσ : ∀ v, σ₀ ≤ σ v) :
    ∃ C, ∃ δ > 0, ∃ r > 0, C * δ ≤ r ∧ ∀ (s : Scheme) (dt : ℝ), 0 < dt → ∃ q, 0 < q ∧ q < 1 ∧
      ∀ ts : List ℚ, ∀ η, 0 ≤ η → η ≤ δ →
      ∀ p q' : E → Fin 4 → MvPolynomial (Fin 2) ℝ, (∀ e i, (p e i).totalDegree ≤ order e) →
      (∀ e i, (q' e i).totalDegree ≤ order e) →
      ∀ prev cur : HdgState 2 4 (E × Fin R.n) ((E × Fin 3) × Fin S.n),
      (∀ v i, prev.U v i = MvPolynomial.eval (K.pos R v) (p v.1 i)) →
      (∀ v i, cur.U v i = MvPolynomial.eval (K.pos R v) (q' v.1 i)) →
      (∀ v i, |prev.U v i - consVec W.rho W.rho_u W.rho_E i| ≤ η) →
      (∀ v i, |cur.U v i - consVec W.rho W.rho_u W.rho_E i| ≤ η) →
      ∃ xs, Satisfies (hdgStep (K.mesh R S) ((K.mesh R S).mask bcs)
          (K.space 4 order orderHat R S) (s.quotient dt)) prev cur ts xs ∧
        (∀ (i : ℕ) x, xs[i]? = some x → x.NearFlow γ rs (K.spaces 4 order orderHat R S) (K.mesh R S)
          ((K.mesh R S).mask bcs) (fun b => cond b.1) σ (conservativeDict W)
          (consVec W.rho W.rho_u W.rho_E) (C * q ^ (i + 1) * η)) ∧
        ∀ ys, Satisfies (hdgStep (K.mesh R S) ((K.mesh R S).mask bcs)
          (K.space 4 order orderHat R S) (s.quotient dt)) prev cur ts ys →
          (∀ y ∈ ys, y.NearFlow γ rs (K.spaces 4 order orderHat R S) (K.mesh R S)
          ((K.mesh R S).mask bcs) (fun b => cond b.1) σ (conservativeDict W)
            (consVec W.rho W.rho_u W.rho_E) r) → ys = xs := by
  have hcond' : ∀ b : (E × Fin 3) × Fin S.n, (K.mesh R S).mask bcs b = 0 →
      (cond b.1).Dissipates rs ∧ (cond b.1).Admits W ((K.mesh R S).normal b) := by
    intro b hb
    refine hcond b.1 ?_
    by_contra h
    rw [hc.mask_one (R := R) b h] at hb
    exact one_ne_zero hb
  have hrs' : ∀ b, (K.mesh R S).mask bcs b = 1 → rs.Damps (W.u ⬝ᵥ (K.mesh R S).normal b) W.c := by
    intro b hb
    refine hrs b.1 fun h => ?_
    rw [hc.mask_zero (R := R) b h] at hb
    exact zero_ne_one hb
  obtain ⟨C, δ, h1, r, h2, h3, h4⟩ := C99_returns_solvers hW
    (spaces_fit (k := 4) (orderHat := orderHat) hK hc hd hR hS hRw hSw hSs ho)
    (spaces_rich hK hc hd hR hS ho hoh cond) hrs' hcond' hσ₀ hσ
  refine ⟨C, δ, h1, r, h2, h3, fun s dt hdt => ?_⟩
  obtain ⟨κ, k0, k1, h5⟩ := h4 s dt hdt
  refine ⟨κ, k0, k1, ?_⟩
  intro ts η hη hηδ p q hp hq prev cur hpU hcU hpn hcn
  have := h5 ts η hη hηδ prev cur
    ⟨_, ⟨p, hp, rfl⟩, funext fun v => funext fun i => hpU v i⟩
    ⟨_, ⟨q, hq, rfl⟩, funext fun v => funext fun i => hcU v i⟩ hpn hcn
  rwa [Triangulation.spaces_tests] at this

/-! ### A concrete case -/

/-- Gas that flows from left to right, slower than sound. -/
def tubeState : GasState 2 := GasState.of (7 / 5) 2 ![1 / 2, 0] (25 / 14)

theorem tubeState_ideal : IdealGas (7 / 5) tubeState :=
  IdealGas.of (by norm_num) (by norm_num) (by norm_num)

theorem tube_closed {rs : Riemann} (hrs : rs ≠ .upwind) (x : Bool × Fin 3)
    (hx : (squareMesh true).across x = none) :
    (FacetCond.wall (n := 2)).Dissipates rs ∧
      (FacetCond.wall (n := 2)).Admits tubeState ((squareMesh true).normal x) := by
  refine ⟨hrs, ?_⟩
  obtain ⟨_ | _, i⟩ := x <;> fin_cases i <;> simp [squareMesh] at hx
  all_goals
    simp [squareMesh, FacetCond.Admits, Triangulation.normal, tubeState, GasState.of,
      Triangulation.start, Triangulation.stop, dotProduct, Fin.sum_univ_two]

theorem tube_damps (rs : Riemann) (x : Bool × Fin 3) (hx : (squareMesh true).across x ≠ none) :
    rs.Damps (tubeState.u ⬝ᵥ (squareMesh true).normal x) tubeState.c := by
  have h1 : tubeState.c = 1 := by
    show √(7 / 5 * (7 / 5 - 1) * (25 / 14)) = 1
    rw [show (7 / 5 * (7 / 5 - 1) * (25 / 14) : ℝ) = 1 by norm_num, Real.sqrt_one]
  have h2 : (tubeState.u ⬝ᵥ (squareMesh true).normal x) ^ 2 = 1 / 8 ∨
      (tubeState.u ⬝ᵥ (squareMesh true).normal x) ^ 2 = 1 / 4 := by
    obtain ⟨_ | _, i⟩ := x <;> fin_cases i <;> simp [squareMesh] at hx
    all_goals
      simp [tubeState, GasState.of, Triangulation.normal, Triangulation.start, Triangulation.stop,
        Triangulation.length, squareMesh, dotProduct, Fin.sum_univ_two]
      try norm_num [div_pow, mul_pow]
  have h3 : tubeState.u ⬝ᵥ (squareMesh true).normal x ≠ 0 := fun h => by
    rw [h] at h2
    norm_num at h2
  have h4 : |tubeState.u ⬝ᵥ (squareMesh true).normal x| ≠ tubeState.c := fun h => by
    rw [h1] at h
    rw [← sq_abs, h] at h2
    norm_num at h2
  cases rs with
  | laxFriedrich => trivial
  | hll => trivial
  | hllem θ₀ => exact .inl h3
  | roe => exact ⟨h3, h4⟩
  | upwind => exact ⟨h3, h4⟩

/-- C99, concrete instance: a periodic channel made of two triangles with walls below and above,
elements of order 2, facets of order 3, a sponge layer everywhere, and an initial density that varies
linearly. All hypotheses of `C99_triangulation_returns` hold, and so all those of
`C99_triangulation_long`, `C99_returns_solvers` and `C99_long_runs_solvers`, and for Lax-Friedrichs
and HLL all those of `C99_returns` and `C99_long_runs`. -/
example {rs : Riemann} (hrs : rs ≠ .upwind) : ∃ (R : VolumeRule) (S : SideRule) (ε C : ℝ),
    0 < ε ∧ ∀ (s : Scheme) (dt : ℝ), 0 < dt → ∃ q < 1, ∀ ts : List ℚ,
      ∀ x : HdgState 2 4 (Bool × Fin R.n) ((Bool × Fin 3) × Fin S.n),
      (∀ v, x.U v = consVec (2 + ε * (squareMesh true).pos R v 0) ![1, 0] (107 / 28)) →
      ∃ xs, Satisfies (hdgStep ((squareMesh true).mesh R S)
          (((squareMesh true).mesh R S).mask (squareConditions true))
          ((squareMesh true).space 4 (fun _ => 2) (fun _ => 3) R S) (s.quotient dt)) x x ts xs ∧
        ∀ (i : ℕ) y, xs[i]? = some y → ∀ v, |y.U v 0 - 2| ≤ C * q ^ (i + 1) := by
  obtain ⟨⟨R, hR, hRw⟩, S, hS, hSw, hSs⟩ := C94_rules 4
  obtain ⟨C, δ, h2, r, h3, -, h⟩ :=
    C99_triangulation_returns (orderHat := fun _ => 3) (squareMesh_conforming true)
      (squareMesh_covered true) (d := 4) (by norm_num) hR hS hRw hSw hSs (order := fun _ => 2)
      (fun _ => le_rfl) (fun _ _ => by norm_num) tubeState_ideal (tube_damps rs) (cond := fun _ => .wall)
      (tube_closed hrs) (σ := fun _ => 1) one_pos (fun _ => le_rfl)
  obtain ⟨A, hA⟩ : ∃ A, A = ∑ v, |(squareMesh true).pos R v 0| := ⟨_, rfl⟩
  have hA0 : 0 ≤ A := hA ▸ Finset.sum_nonneg fun _ _ => abs_nonneg _
  have hAv : ∀ v, |(squareMesh true).pos R v 0| ≤ A := fun v => hA ▸
    Finset.single_le_sum (f := fun v => |(squareMesh true).pos R v 0|) (fun _ _ => abs_nonneg _)
      (Finset.mem_univ v)
  refine ⟨R, S, δ / (A + 1), C * δ, by positivity, fun s dt hdt => ?_⟩
  obtain ⟨q, q0, q1, hq⟩ := h s dt hdt
  refine ⟨q, q1, fun ts x hx => ?_⟩
  have hw : consVec tubeState.rho tubeState.rho_u tubeState.rho_E = ![2, 1, 0, 107 / 28] := by
    funext i
    fin_cases i
    · rfl
    · show (2 : ℝ) * (1 / 2) = 1
      norm_num
    · show (2 : ℝ) * 0 = 0
      norm_num
    · show (2 : ℝ) * (25 / 14 + (![1 / 2, 0] ⬝ᵥ ![1 / 2, 0]) / 2) = 107 / 28
      norm_num [dotProduct, Fin.sum_univ_two]
  have hU : ∀ v i, x.U v i = ![2 + δ / (A + 1) * (squareMesh true).pos R v 0, 1, 0, 107 / 28] i := by
    intro v i
    rw [hx v]
    fin_cases i <;> rfl
  have hpoly : ∀ v i, x.U v i = MvPolynomial.eval ((squareMesh true).pos R v)
      ((![MvPolynomial.C 2 + MvPolynomial.C (δ / (A + 1)) * MvPolynomial.X 0, MvPolynomial.C 1,
        0, MvPolynomial.C (107 / 28)] : Fin 4 → MvPolynomial (Fin 2) ℝ) i) := by
    intro v i
    rw [hU]
    fin_cases i <;> simp
  have hdeg : ∀ i, ((![MvPolynomial.C 2 + MvPolynomial.C (δ / (A + 1)) * MvPolynomial.X 0,
      MvPolynomial.C 1, 0, MvPolynomial.C (107 / 28)] : Fin 4 → MvPolynomial (Fin 2) ℝ) i).totalDegree
      ≤ 2 := by
    intro i
    fin_cases i
    · refine (MvPolynomial.totalDegree_add _ _).trans (max_le (by simp) ?_)
      exact (MvPolynomial.totalDegree_mul _ _).trans (by simp)
    all_goals simp
  have hnear : ∀ v i, |x.U v i - consVec tubeState.rho tubeState.rho_u tubeState.rho_E i| ≤ δ := by
    intro v i
    rw [hU, hw]
    have h0 : |δ / (A + 1) * (squareMesh true).pos R v 0| ≤ δ := by
      rw [abs_mul, abs_of_pos (by positivity), div_mul_eq_mul_div, div_le_iff₀ (by positivity)]
      have := hAv v
      exact mul_le_mul_of_nonneg_left (by linarith) h2.le
    fin_cases i
    · simpa using h0
    all_goals simp [h2.le]
  obtain ⟨xs, e1, e2, -⟩ := hq ts δ h2.le le_rfl _ _ (fun _ i => hdeg i) (fun _ i => hdeg i) x x
    hpoly hpoly hnear hnear
  refine ⟨xs, e1, fun i y hy v => ?_⟩
  obtain ⟨a, -, ζ, -, -, n1, -⟩ := e2 i y hy
  have := n1 v 0
  rw [show C * δ * q ^ (i + 1) = C * q ^ (i + 1) * δ by ring]
  exact this

end Dream
