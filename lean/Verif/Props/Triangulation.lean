import Verif.Lemmas.PolyTriangle
import Verif.Props.Consistency
import Verif.Props.FreestreamViscous
import Mathlib.LinearAlgebra.Lagrange

/-!
# C84: the discretisation on triangulations
-/

noncomputable section

namespace Dream

open Matrix Spec MeasureTheory

variable {E : Type} [Fintype E] {K : Triangulation E} {R : VolumeRule} {S : SideRule}

/-- The boundary conditions cover the boundary of the mesh: every side without neighbour belongs to
a region with a condition that is not periodic, and every side with a neighbour is an interior
side or belongs to a region with a periodic condition. -/
structure Triangulation.Covered (K : Triangulation E) (bcs : Conditions) : Prop where
  nodup : bcs.regions.Nodup
  boundary : ∀ x, K.across x = none → ∃ r l c, K.region x = some r ∧ bcs.data.get? r = some l ∧
    c ∈ l ∧ ∀ c' ∈ l, c'.isA .periodic = false
  interior : ∀ x, K.across x ≠ none → K.region x = none ∨ ∃ r l c, K.region x = some r ∧
    bcs.data.get? r = some l ∧ c ∈ l ∧ c.isA .periodic = true

theorem Triangulation.Covered.mask_zero {bcs : Conditions} (h : K.Covered bcs)
    (b : (E × Fin 3) × Fin S.n) (hb : K.across b.1 = none) : (K.mesh R S).mask bcs b = 0 :=
  (C68_mask (K.mesh R S) bcs h.nodup b).2.2 (h.boundary _ hb)

theorem Triangulation.Covered.mask_one {bcs : Conditions} (h : K.Covered bcs)
    (b : (E × Fin 3) × Fin S.n) (hb : K.across b.1 ≠ none) : (K.mesh R S).mask bcs b = 1 := by
  obtain ⟨h1, h2⟩ := C68_mask (K.mesh R S) bcs h.nodup b
  refine h1.resolve_left fun h0 => ?_
  obtain ⟨r, l, c, e1, e2, -, hn⟩ := h2.1 h0
  rcases h.interior _ hb with h3 | ⟨r', l', c', e1', e2', hc', hp⟩
  · change K.region b.1 = some r at e1
    rw [h3] at e1
    cases e1
  · change K.region b.1 = some r at e1
    rw [e1'] at e1
    cases e1
    rw [e2'] at e2
    cases e2
    rw [hn c' hc'] at hp
    cases hp

/-- Facet polynomials cancel between the two sides. -/
theorem facet_cancel (hK : K.Conforming) {bcs : Conditions} (hc : K.Covered bcs) {d : ℕ}
    (hS : S.Exact d) (r : E × Fin 3 → Polynomial ℝ) (hd : ∀ x, (r x).natDegree ≤ d)
    (hr : ∀ x y, K.across x = some y → r y = (r x).comp (1 - Polynomial.X)) (j : Fin 2) :
    ∑ b, (K.mesh R S).wB b * ((K.mesh R S).mask bcs b * ((r b.1).eval (S.pt b.2) * K.normal b.1 j))
      = 0 := by
  have hx : ∀ x, ∑ q, (K.mesh R S).wB (x, q) * ((K.mesh R S).mask bcs (x, q)
        * ((r x).eval (S.pt q) * K.normal x j))
      = if K.across x = none then 0 else
          scaledNormal (K.start x) (K.stop x) j * ∫ s in (0 : ℝ)..1, (r x).eval s := by
    intro x
    split_ifs with h
    · exact Finset.sum_eq_zero fun q _ => by rw [hc.mask_zero (R := R) (x, q) h]; ring
    · rw [← hS _ (hd x), ← length_normal K hK, Finset.mul_sum]
      refine Finset.sum_congr rfl fun q _ => ?_
      rw [hc.mask_one (R := R) (x, q) h]
      simp only [Triangulation.mesh]
      ring
  rw [Fintype.sum_prod_type, Finset.sum_congr rfl fun x _ => hx x]
  refine Finset.sum_involution (fun x _ => (K.across x).getD x) ?_ ?_ (by simp) ?_
  · intro x _
    cases h : K.across x with
    | none => simp [h]
    | some y =>
      have hy := hK.symm x y h
      obtain ⟨v, h1, h2⟩ := hK.fits x y h
      have hi : ∫ s in (0 : ℝ)..1, (r y).eval s = ∫ s in (0 : ℝ)..1, (r x).eval s := by
        have := intervalIntegral.integral_comp_sub_left (a := 0) (b := 1)
          (fun s : ℝ => (r x).eval s) 1
        rw [sub_self, sub_zero] at this
        rw [← this, hr x y h]
        simp
      simp only [Option.getD_some, hy, reduceCtorEq, if_false, hi]
      have hn : scaledNormal (K.start y) (K.stop y) j = -scaledNormal (K.start x) (K.stop x) j := by
        rw [h1, h2]
        fin_cases j <;> simp [scaledNormal]
      rw [hn]
      ring
  · intro x _ hne he
    cases h : K.across x with
    | none => simp [h] at hne
    | some y =>
      rw [h, Option.getD_some] at he
      subst he
      obtain ⟨v, h1, h2⟩ := hK.fits y y h
      have hl := length_pos K hK y
      rw [Triangulation.length] at hl
      have h3 : ∀ i, K.stop y i = K.start y i := by
        intro i
        have a1 := congrFun h1 i
        have a2 := congrFun h2 i
        simp only [Pi.add_apply] at a1 a2
        linarith
      simp [h3] at hl
  · intro x _
    cases h : K.across x with
    | none => simp [h]
    | some y => simp [hK.symm x y h]

/-- The divergence theorem for a family of polynomials, one per triangle. -/
theorem mesh_divergence (hK : K.Conforming) {d : ℕ} (hR : R.Exact d) (hS : S.Exact (d + 1))
    (V : E → MvPolynomial (Fin 2) ℝ) (hV : ∀ e, (V e).totalDegree ≤ d + 1) (j : Fin 2) :
    ∑ v, (K.mesh R S).wV v * MvPolynomial.eval (K.pos R v) (MvPolynomial.pderiv j (V v.1))
      = ∑ b, (K.mesh R S).wB b * (MvPolynomial.eval (K.posB S b) (V b.1.1) * K.normal b.1 j) := by
  rw [Fintype.sum_prod_type, Fintype.sum_prod_type, Fintype.sum_prod_type]
  exact Finset.sum_congr rfl fun e _ => element_divergence K hK hR hS e (hV e) j

/-- **C84** On every conforming triangulation, of any size and for every order (also different
orders in different triangles), the discrete divergence theorem holds for all test functions,
provided the quadrature rules are exact for polynomials of the order and every boundary has a
condition. -/
theorem C84_gauss (hK : K.Conforming) {bcs : Conditions} (hc : K.Covered bcs) {d k : ℕ}
    (hR : R.Exact d) (hS : S.Exact (d + 1)) {order : E → ℕ} {orderHat : E × Fin 3 → ℕ}
    (ho : ∀ e, order e ≤ d + 1) (ho' : ∀ x, orderHat x ≤ d + 1) :
    Gauss (K.mesh R S) ((K.mesh R S).mask bcs) (K.space k order orderHat R S) := by
  constructor
  · rintro _ ⟨φ, rfl⟩ i j
    exact mesh_divergence hK hR hS (fun e => φ.V e i) (fun e => (φ.degree e i).trans (ho e)) j
  · rintro _ ⟨φ, rfl⟩ i j
    exact facet_cancel hK hc hS (fun x => φ.hat x i) (fun x => (φ.degreeHat x i).trans (ho' x))
      (fun x y h => φ.single x y h i) j

/-- **C84** Likewise for the mixed variables. -/
theorem C84_gauss_mixed (hK : K.Conforming) {d : ℕ} (hR : R.Exact d) (hS : S.Exact (d + 1))
    {order : E → ℕ} (ho : ∀ e, order e ≤ d + 1) :
    GaussMixed (K.mesh R S) (K.mixedSpace order R S) := by
  rintro _ ⟨V, hV, rfl⟩ i j
  exact mesh_divergence hK hR hS (fun e => V e i) (fun e => (hV e i).trans (ho e)) j

/-- **C84** Constants are test functions, whatever the orders. -/
theorem C84_constants (hK : K.Conforming) {bcs : Conditions} (hc : K.Covered bcs) {k : ℕ}
    (order : E → ℕ) (orderHat : E × Fin 3 → ℕ) :
    HasConstants ((K.mesh R S).mask bcs) (K.space k order orderHat R S) := by
  intro i
  refine ⟨⟨fun _ => Pi.single i 1, fun x => if K.across x = none then 0 else Pi.single i 1,
    ?_, ?_, ?_⟩, ?_⟩
  · intro e i'
    by_cases h : i' = i
    · subst h; simp
    · simp [Pi.single_eq_of_ne h]
  · intro x i'
    split_ifs
    · simp
    · by_cases h : i' = i
      · subst h; simp
      · simp [Pi.single_eq_of_ne h]
  · intro x y h i'
    rw [if_neg (by rw [hK.symm x y h]; exact Option.some_ne_none _),
      if_neg (by rw [h]; exact Option.some_ne_none _)]
    by_cases h : i' = i
    · subst h; simp
    · simp [Pi.single_eq_of_ne h]
  · have hs : ∀ (y : Fin 2 → ℝ) i', MvPolynomial.eval y
        ((Pi.single i 1 : Fin k → MvPolynomial (Fin 2) ℝ) i') = (Pi.single i 1 : Fin k → ℝ) i' := by
      intro y i'
      by_cases h : i' = i
      · subst h; simp
      · simp [Pi.single_eq_of_ne h]
    have hg : ∀ (y : Fin 2 → ℝ) i' (j : Fin 2), MvPolynomial.eval y (MvPolynomial.pderiv j
        ((Pi.single i 1 : Fin k → MvPolynomial (Fin 2) ℝ) i')) = 0 := by
      intro y i' j
      by_cases h : i' = i
      · subst h; simp
      · simp [Pi.single_eq_of_ne h]
    simp only [PolyTest.toTest, constantTest, HdgTest.mk.injEq]
    refine ⟨?_, ?_, ?_, ?_⟩
    · funext v
      ext i' j
      exact hg _ i' j
    · funext v i'
      exact hs _ i'
    · funext b i'
      exact hs _ i'
    · funext b i'
      by_cases h : K.across b.1 = none
      · simp [h, hc.mask_zero (R := R) b h]
      · rw [hc.mask_one (R := R) b h, if_neg h, one_smul]
        by_cases h' : i' = i
        · subst h'; simp
        · simp [Pi.single_eq_of_ne h']

/-- The normals of the mesh are unit vectors. -/
theorem mesh_normal (hK : K.Conforming) (b : (E × Fin 3) × Fin S.n) :
    (K.mesh R S).normal b 0 ^ 2 + (K.mesh R S).normal b 1 ^ 2 = 1 := normal_unit K hK b.1

/-- **C84** The total amount of a conserved quantity, as the quadrature computes it, is its integral
over the domain: for a piecewise polynomial state the sum of the (Lebesgue) integrals over the
triangles. -/
theorem C84_total (hK : K.Conforming) {d k : ℕ} (hR : R.Exact d)
    (W : E → Fin k → MvPolynomial (Fin 2) ℝ) (hW : ∀ e i, (W e i).totalDegree ≤ d)
    (x : HdgState 2 k (E × Fin R.n) ((E × Fin 3) × Fin S.n))
    (hU : ∀ v i, x.U v i = MvPolynomial.eval (K.pos R v) (W v.1 i)) (i : Fin k) :
    x.total (K.mesh R S) i = ∑ e, ∫ y in triangle (K.corner e 0) (K.corner e 1) (K.corner e 2),
      MvPolynomial.eval y (W e i) := by
  rw [HdgState.total, Fintype.sum_prod_type]
  refine Finset.sum_congr rfl fun e _ => ?_
  rw [← triangleIntegral_eq (hK.oriented e) (poly_continuous _).continuousOn,
    ← volume_exact K hR e (hW e i)]
  exact Finset.sum_congr rfl fun q _ => by rw [hU]; rfl

variable {γ : ℝ}

/-- **C84** Uniform flow on a triangulation, inviscid: no assumption on the quadrature is left
except the exactness of its rules for polynomials. -/
theorem C84_uniform (hK : K.Conforming) {bcs : Conditions} (hc : K.Covered bcs) {d : ℕ}
    (hR : R.Exact d) (hS : S.Exact (d + 1)) {order : E → ℕ} {orderHat : E × Fin 3 → ℕ}
    (ho : ∀ e, order e ≤ d + 1) (ho' : ∀ x, orderHat x ≤ d + 1)
    {G : GasState 2} (hG : IdealGas γ G) (rs : Riemann) (s : Scheme) (dt : ℝ) (ts : List ℚ)
    (x : HdgState 2 4 (E × Fin R.n) ((E × Fin 3) × Fin S.n)) (hU : ∀ v, x.U v = gasVec G)
    (hx : x.IsEuler γ rs (K.mesh R S) (fun _ => gasVec G) (fun _ => gasVec G))
    (hB : ∀ b, Matching γ G (K.normal b.1) (x.R b))
    (σ : E × Fin R.n → ℝ) (hσ : ∀ v, spongeResidual γ (σ v) (conservativeDict G) (x.U v)
      = .ok (x.source v)) :
    Satisfies (hdgStep (K.mesh R S) ((K.mesh R S).mask bcs) (K.space 4 order orderHat R S)
      (s.quotient dt)) x x ts (List.replicate ts.length x) :=
  C69_run hG rs (K.mesh R S) (mesh_normal hK) _ _ (C84_gauss hK hc hR hS ho ho') s dt ts x hU hx
    hB σ hσ

/-- **C84** Uniform flow on a triangulation, viscous. -/
theorem C84_uniform_viscous (hK : K.Conforming) {bcs : Conditions} (hc : K.Covered bcs) {d : ℕ}
    (hR : R.Exact d) (hS : S.Exact (d + 1)) {order : E → ℕ} {orderHat : E × Fin 3 → ℕ}
    (ho : ∀ e, order e ≤ d + 1) (ho' : ∀ x, orderHat x ≤ d + 1)
    {cfg : FlowCfg} (ha : cfg.Accepted) (hv : cfg.visc ≠ .inviscid) (hM : 0 < cfg.Ma)
    {G : GasState 2} (hG : IdealGas cfg.γ G) (rs : Riemann) (s : Scheme) (dt : ℝ) (t : ℚ)
    (x : HdgState 2 4 (E × Fin R.n) ((E × Fin 3) × Fin S.n)) (hU : ∀ v, x.U v = gasVec G)
    (hx : x.IsNavierStokes cfg rs (K.mesh R S) (fun _ => gasVec G) (fun _ => gasVec G) 0 0)
    (hB : ∀ b, MatchingViscous cfg G (K.normal b.1) (x.R b))
    (σ : E × Fin R.n → ℝ) (hσ : ∀ v, spongeResidual cfg.γ (σ v) (conservativeDict G) (x.U v)
      = .ok (x.source v)) :
    hdgStep (K.mesh R S) ((K.mesh R S).mask bcs) (K.space 4 order orderHat R S) (s.quotient dt) t
        x x x ∧
      ∀ P ∈ K.mixedSpace order R S, mixedForm (K.mesh R S) 0 (fun _ => G.u) (fun _ => G.T)
        (fun _ => G.u) (fun _ => G.T) P = 0 :=
  C69_viscous ha hv hM hG rs (K.mesh R S) (mesh_normal hK) _ _ (C84_gauss hK hc hR hS ho ho') _
    (C84_gauss_mixed hK hR hS ho) s dt t x hU hx hB σ hσ

/-- **C84** Conservation on a triangulation: inviscid flow in a container, with any Riemann solver
but Upwind; mass and energy, integrated over the domain, are the same after every step. The
states are piecewise polynomials `W n` of degree at most `d`. -/
theorem C84_container (hK : K.Conforming) {bcs : Conditions} (hc : K.Covered bcs) {d : ℕ}
    (hR : R.Exact d) {order : E → ℕ} {orderHat : E × Fin 3 → ℕ} (rs : Riemann)
    (hrs : rs ≠ .upwind) (s : Scheme) (dt : ℝ) (hdt : dt ≠ 0) (ts : List ℚ)
    (x0 : HdgState 2 4 (E × Fin R.n) ((E × Fin 3) × Fin S.n))
    (xs : List (HdgState 2 4 (E × Fin R.n) ((E × Fin 3) × Fin S.n)))
    (hB : ∀ x ∈ xs, ∀ b, (K.mesh R S).mask bcs b = 1 → x.R b = 0)
    (hG : ∀ x ∈ xs, ∀ b, x.Gn b = 0) (hsrc : ∀ x ∈ xs, ∀ v, x.source v = 0)
    (hwall : ∀ x ∈ xs, ∀ b, K.across b.1 = none → AtWall γ rs (K.normal b.1) (x.Fn b))
    (h : Satisfies (hdgStep (K.mesh R S) ((K.mesh R S).mask bcs) (K.space 4 order orderHat R S)
      (s.quotient dt)) x0 x0 ts xs)
    (x : HdgState 2 4 (E × Fin R.n) ((E × Fin 3) × Fin S.n)) (hx : x ∈ xs)
    (W0 W : E → Fin 4 → MvPolynomial (Fin 2) ℝ) (hW0 : ∀ e i, (W0 e i).totalDegree ≤ d)
    (hW : ∀ e i, (W e i).totalDegree ≤ d)
    (hU0 : ∀ v i, x0.U v i = MvPolynomial.eval (K.pos R v) (W0 v.1 i))
    (hU : ∀ v i, x.U v i = MvPolynomial.eval (K.pos R v) (W v.1 i)) (i : Fin 4)
    (hi : i = 0 ∨ i = 3) :
    ∑ e, ∫ y in triangle (K.corner e 0) (K.corner e 1) (K.corner e 2), MvPolynomial.eval y (W e i)
      = ∑ e, ∫ y in triangle (K.corner e 0) (K.corner e 1) (K.corner e 2),
        MvPolynomial.eval y (W0 e i) := by
  rw [← C84_total hK hR W hW x hU i, ← C84_total hK hR W0 hW0 x0 hU0 i]
  have := C66_container (γ := γ) rs hrs (K.mesh R S) (mesh_normal hK) bcs hc.nodup _
    (C84_constants hK hc order orderHat) s dt hdt ts x0 xs hB hG hsrc
    (fun x hx b hb => hwall x hx b (by
      by_contra hne
      rw [hc.mask_one (R := R) b hne] at hb
      exact one_ne_zero hb)) h x hx
  rcases hi with rfl | rfl
  · exact this.1
  · exact this.2

/-- A matrix of polynomials at a point. -/
def evalTensor (F : Fin 4 → Fin 2 → MvPolynomial (Fin 2) ℝ) (y : Fin 2 → ℝ) :
    Matrix (Fin 4) (Fin 2) ℝ := Matrix.of fun i j => MvPolynomial.eval y (F i j)

/-- **C84** The quadrature integrates by parts exactly against every polynomial flux whose degree,
together with that of the test functions, is within the exactness of the rules. Across a periodic
boundary the flux must be periodic. -/
theorem C84_defect (hK : K.Conforming) {bcs : Conditions} (hc : K.Covered bcs) {d m : ℕ}
    (hR : R.Exact d) (hS : S.Exact (d + 1)) {order : E → ℕ} {orderHat : E × Fin 3 → ℕ}
    (ho : ∀ e, m + order e ≤ d + 1) (ho' : ∀ x, m + orderHat x ≤ d + 1)
    (F : Fin 4 → Fin 2 → MvPolynomial (Fin 2) ℝ) (hF : ∀ i j, (F i j).totalDegree ≤ m)
    (hper : ∀ x y, K.across x = some y → ∀ s i j, MvPolynomial.eval (K.sidePoint y s) (F i j)
      = MvPolynomial.eval (K.sidePoint x (1 - s)) (F i j))
    {Φ : (Fin 2 → ℝ) → Matrix (Fin 4) (Fin 2) ℝ} (hΦ : ∀ v, Φ (K.pos R v) = evalTensor F (K.pos R v))
    (hΦB : ∀ b, Φ (K.posB S b) = evalTensor F (K.posB S b)) {δ : (Fin 2 → ℝ) → Fin 4 → ℝ}
    (hδ : ∀ v i, δ (K.pos R v) i
      = ∑ j, MvPolynomial.eval (K.pos R v) (MvPolynomial.pderiv j (F i j)))
    {φ : HdgTest 2 4 (E × Fin R.n) ((E × Fin 3) × Fin S.n)}
    (hφ : φ ∈ K.space 4 order orderHat R S) :
    quadratureDefect (K.mesh R S) ((K.mesh R S).mask bcs) (K.pos R) (K.posB S) Φ δ φ = 0 := by
  obtain ⟨φ, rfl⟩ := hφ
  have hdiv : ∀ i j, ∑ v, (K.mesh R S).wV v * MvPolynomial.eval (K.pos R v)
        (MvPolynomial.pderiv j (F i j * φ.V v.1 i))
      = ∑ b, (K.mesh R S).wB b * (MvPolynomial.eval (K.posB S b) (F i j * φ.V b.1.1 i)
        * K.normal b.1 j) := by
    intro i j
    exact mesh_divergence hK hR hS (fun e => F i j * φ.V e i) (fun e =>
      (MvPolynomial.totalDegree_mul _ _).trans
        ((add_le_add (hF i j) (φ.degree e i)).trans (ho e))) j
  choose r hr hre using fun (i : Fin 4) (j : Fin 2) (x : E × Fin 3) => exists_sidePoly K x (F i j)
  have hcan : ∀ i j, ∑ b, (K.mesh R S).wB b * ((K.mesh R S).mask bcs b
      * (MvPolynomial.eval (K.posB S b) (F i j) * (φ.hat b.1 i).eval (S.pt b.2)
        * K.normal b.1 j)) = 0 := by
    intro i j
    have := facet_cancel (R := R) hK hc hS (fun x => r i j x * φ.hat x i) (fun x =>
      Polynomial.natDegree_mul_le.trans ((add_le_add ((hr i j x).trans (hF i j))
        (φ.degreeHat x i)).trans (ho' x))) (fun x y h => by
        rw [φ.single x y h i, Polynomial.mul_comp]
        congr 1
        refine Polynomial.funext fun s => ?_
        rw [hre, hper x y h, Polynomial.eval_comp, hre]
        simp) j
    simp only [Polynomial.eval_mul, hre] at this
    exact this
  have e1 : (∑ b, (K.mesh R S).wB b * ∑ i, (∑ j, Φ (K.posB S b) i j * (K.mesh R S).normal b j)
        * (φ.toTest R S).trace b i)
      = ∑ i, ∑ j, ∑ b, (K.mesh R S).wB b
        * (MvPolynomial.eval (K.posB S b) (F i j * φ.V b.1.1 i) * K.normal b.1 j) := by
    simp only [hΦB, evalTensor, of_apply, Finset.mul_sum, Finset.sum_mul]
    rw [Finset.sum_comm]
    refine Finset.sum_congr rfl fun i _ => ?_
    rw [Finset.sum_comm]
    refine Finset.sum_congr rfl fun j _ => Finset.sum_congr rfl fun b _ => ?_
    rw [map_mul]
    simp only [PolyTest.toTest, Triangulation.mesh]
    ring
  have e2 : (∑ b, (K.mesh R S).wB b * ((K.mesh R S).mask bcs b
        * ∑ i, (∑ j, Φ (K.posB S b) i j * (K.mesh R S).normal b j) * (φ.toTest R S).hat b i)) = 0 := by
    have : (∑ b, (K.mesh R S).wB b * ((K.mesh R S).mask bcs b
        * ∑ i, (∑ j, Φ (K.posB S b) i j * (K.mesh R S).normal b j) * (φ.toTest R S).hat b i))
        = ∑ i, ∑ j, ∑ b, (K.mesh R S).wB b * ((K.mesh R S).mask bcs b
          * (MvPolynomial.eval (K.posB S b) (F i j) * (φ.hat b.1 i).eval (S.pt b.2)
            * K.normal b.1 j)) := by
      simp only [hΦB, evalTensor, of_apply, Finset.mul_sum, Finset.sum_mul]
      rw [Finset.sum_comm]
      refine Finset.sum_congr rfl fun i _ => ?_
      rw [Finset.sum_comm]
      refine Finset.sum_congr rfl fun j _ => Finset.sum_congr rfl fun b _ => ?_
      simp only [PolyTest.toTest, Triangulation.mesh]
      ring
    rw [this]
    simp only [hcan, Finset.sum_const_zero]
  have e3 : (∑ v, (K.mesh R S).wV v * ∑ i, ∑ j, Φ (K.pos R v) i j * (φ.toTest R S).grad v i j)
        + (∑ v, (K.mesh R S).wV v * ∑ i, δ (K.pos R v) i * (φ.toTest R S).val v i)
      = ∑ i, ∑ j, ∑ v, (K.mesh R S).wV v * MvPolynomial.eval (K.pos R v)
        (MvPolynomial.pderiv j (F i j * φ.V v.1 i)) := by
    rw [← Finset.sum_add_distrib]
    simp only [hΦ, hδ, evalTensor, of_apply, ← mul_add, ← Finset.sum_add_distrib, Finset.mul_sum,
      Finset.sum_mul]
    rw [Finset.sum_comm]
    refine Finset.sum_congr rfl fun i _ => ?_
    rw [Finset.sum_comm]
    refine Finset.sum_congr rfl fun j _ => Finset.sum_congr rfl fun v _ => ?_
    rw [MvPolynomial.pderiv_mul, map_add, map_mul, map_mul]
    simp only [PolyTest.toTest, of_apply]
    ring
  rw [quadratureDefect, e1, e2, sub_zero, sub_sub, e3]
  simp only [hdiv, sub_self]

theorem poly_hasDerivAt (p : MvPolynomial (Fin 2) ℝ) (y : Fin 2 → ℝ) (j : Fin 2) :
    HasDerivAt (fun s : ℝ => MvPolynomial.eval (y + s • Pi.single j 1) p)
      (MvPolynomial.eval y (MvPolynomial.pderiv j p)) 0 := by
  have h1 : HasDerivAt (fun s : ℝ => y + s • (Pi.single j 1 : Fin 2 → ℝ)) (Pi.single j 1) 0 := by
    simpa using ((hasDerivAt_id (0 : ℝ)).smul_const (Pi.single j 1 : Fin 2 → ℝ)).const_add y
  have h2 : HasFDerivAt (fun z => MvPolynomial.eval z p) (polyDeriv p y)
      (y + (0 : ℝ) • (Pi.single j 1 : Fin 2 → ℝ)) := by
    rw [zero_smul, add_zero]
    exact poly_hasFDerivAt p y
  have := h2.comp_hasDerivAt (0 : ℝ) h1
  rwa [polyDeriv_single] at this

/-- The divergence of a flux that is polynomial in an open set. -/
theorem poly_divergence {Ω : Set (Fin 2 → ℝ)} (hΩ : IsOpen Ω)
    {Φ : (Fin 2 → ℝ) → Matrix (Fin 4) (Fin 2) ℝ} {F : Fin 4 → Fin 2 → MvPolynomial (Fin 2) ℝ}
    (hΦ : ∀ y ∈ Ω, Φ y = evalTensor F y) {y : Fin 2 → ℝ} (hy : y ∈ Ω) {δ : Fin 4 → ℝ}
    (h : IsDivergence Φ y δ) (i : Fin 4) :
    δ i = ∑ j, MvPolynomial.eval y (MvPolynomial.pderiv j (F i j)) := by
  obtain ⟨D, hD, hδ⟩ := h
  have hj : ∀ j, D i j = MvPolynomial.eval y (MvPolynomial.pderiv j (F i j)) := by
    intro j
    refine (hD i j).unique ((poly_hasDerivAt (F i j) y j).congr_of_eventuallyEq ?_)
    have hc : Filter.Tendsto (fun s : ℝ => y + s • (Pi.single j 1 : Fin 2 → ℝ)) (nhds 0) (nhds y) := by
      have : Continuous fun s : ℝ => y + s • (Pi.single j 1 : Fin 2 → ℝ) := by fun_prop
      simpa using this.tendsto 0
    filter_upwards [hc (hΩ.mem_nhds hy)] with s hs
    rw [hΦ _ hs]
    rfl
  rw [hδ i, Fin.sum_univ_two, hj, hj]

/-- **C84** Exact steady flows with polynomial flux are exact solutions of the discrete equations on
every triangulation: for every Riemann solver, scheme and time step, with rules that are exact for
the degree of the flux plus the order. -/
theorem C84_steady (hK : K.Conforming) {bcs : Conditions} (hc : K.Covered bcs) {d m : ℕ}
    (hR : R.Exact d) (hS : S.Exact (d + 1)) {order : E → ℕ} {orderHat : E × Fin 3 → ℕ}
    (ho : ∀ e, m + order e ≤ d + 1) (ho' : ∀ x, m + orderHat x ≤ d + 1)
    {Ω : Set (Fin 2 → ℝ)} (hΩ : IsOpen Ω) {W : (Fin 2 → ℝ) → GasState 2}
    (hW : SolvesEuler γ (fun _ => Ω) (fun _ => W) 0)
    (F : Fin 4 → Fin 2 → MvPolynomial (Fin 2) ℝ) (hF : ∀ i j, (F i j).totalDegree ≤ m)
    (hWF : ∀ y ∈ Ω, eulerTensor γ (W y) = evalTensor F y)
    (hper : ∀ x y, K.across x = some y → ∀ s i j, MvPolynomial.eval (K.sidePoint y s) (F i j)
      = MvPolynomial.eval (K.sidePoint x (1 - s)) (F i j))
    (hp : ∀ v, K.pos R v ∈ Ω) (hb : ∀ b, K.posB S b ∈ Ω) (rs : Riemann)
    (x : HdgState 2 4 (E × Fin R.n) ((E × Fin 3) × Fin S.n))
    (hU : ∀ v, x.U v = conserved (W (K.pos R v)))
    (hx : x.IsEuler γ rs (K.mesh R S) (fun b => conserved (W (K.posB S b)))
      (fun b => conserved (W (K.posB S b))))
    (hB : ∀ b, Matching γ (W (K.posB S b)) (K.normal b.1) (x.R b))
    (σ : E × Fin R.n → ℝ)
    (hσ : ∀ v, spongeResidual γ (σ v) (conservativeDict (W (K.pos R v))) (x.U v)
      = .ok (x.source v)) (s : Scheme) (dt : ℝ) (t : ℚ) :
    hdgStep (K.mesh R S) ((K.mesh R S).mask bcs) (K.space 4 order orderHat R S) (s.quotient dt) t
      x x x := by
  refine C80_steady rs (K.mesh R S) (mesh_normal hK) _ hW (K.pos R) hp (K.posB S) hb x hU hx hB σ hσ
    _ (fun φ hφ => ?_) s dt t
  refine C84_defect hK hc hR hS ho ho' F hF hper (fun v => hWF _ (hp v)) (fun b => hWF _ (hb b))
    (fun v i => ?_) hφ
  have h := (hW.balance 0 _ (hp v)).2
  have e : (-(0 : ℝ → (Fin 2 → ℝ) → Fin 4 → ℝ) 0 (K.pos R v)) = 0 := by
    funext i; simp
  rw [e] at h
  exact poly_divergence hΩ hWF (hp v) h i

end Dream
