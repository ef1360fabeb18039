import Verif.Props.ShortSteps
import Verif.Props.TriangulationMixed
import Verif.Props.TriangulationFlows
import Verif.Lemmas.PositiveRule

/-!
# C94 on triangulations, and a concrete case
-/

noncomputable section

namespace Dream
open Matrix _root_.Spec

variable {E : Type} [Fintype E] {K : Triangulation E} {R : VolumeRule} {S : SideRule}

/-- What the integrals see of polynomials, one vector per triangle. -/
def Triangulation.elementFn (K : Triangulation E) {k : ℕ} (R : VolumeRule) (S : SideRule)
    (V : E → Fin k → MvPolynomial (Fin 2) ℝ) :
    ElementFn 2 k (E × Fin R.n) ((E × Fin 3) × Fin S.n) :=
  (fun v i j => MvPolynomial.eval (K.pos R v) (MvPolynomial.pderiv j (V v.1 i)),
    fun v i => MvPolynomial.eval (K.pos R v) (V v.1 i),
    fun b i => MvPolynomial.eval (K.posB S b) (V b.1.1 i))

/-- The spaces of piecewise polynomials of a triangulation
(dream/compressible/formulations/conservative.py:401-418). -/
def Triangulation.spaces (K : Triangulation E) (k : ℕ) (order : E → ℕ) (orderHat : E × Fin 3 → ℕ)
    (R : VolumeRule) (S : SideRule) : HdgSpaces 2 k (E × Fin R.n) ((E × Fin 3) × Fin S.n) where
  element :=
    { carrier := {a | ∃ V : E → Fin k → MvPolynomial (Fin 2) ℝ,
        (∀ e i, (V e i).totalDegree ≤ order e) ∧ a = K.elementFn R S V}
      zero_mem' := ⟨fun _ _ => 0, by simp, by
        refine Prod.ext ?_ (Prod.ext ?_ ?_) <;> funext <;> simp [Triangulation.elementFn]⟩
      add_mem' := by
        rintro _ _ ⟨V, hV, rfl⟩ ⟨W, hW, rfl⟩
        refine ⟨fun e i => V e i + W e i, fun e i => (MvPolynomial.totalDegree_add _ _).trans
          (max_le (hV e i) (hW e i)), ?_⟩
        refine Prod.ext ?_ (Prod.ext ?_ ?_) <;> funext <;> simp [Triangulation.elementFn]
      smul_mem' := by
        rintro c _ ⟨V, hV, rfl⟩
        refine ⟨fun e i => c • V e i, fun e i => (MvPolynomial.totalDegree_smul_le _ _).trans
          (hV e i), ?_⟩
        refine Prod.ext ?_ (Prod.ext ?_ ?_) <;> funext <;> simp [Triangulation.elementFn] }
  facet :=
    { carrier := {ζ | ∃ hat : E × Fin 3 → Fin k → Polynomial ℝ,
        (∀ x i, (hat x i).natDegree ≤ orderHat x) ∧
        (∀ x y, K.across x = some y → ∀ i, hat y i = (hat x i).comp (1 - Polynomial.X)) ∧
        ζ = fun b i => (hat b.1 i).eval (S.pt b.2)}
      zero_mem' := ⟨fun _ _ => 0, by simp, by simp, by funext; simp⟩
      add_mem' := by
        rintro _ _ ⟨V, hV, hV', rfl⟩ ⟨W, hW, hW', rfl⟩
        refine ⟨fun x i => V x i + W x i, fun x i => (Polynomial.natDegree_add_le _ _).trans
          (max_le (hV x i) (hW x i)), fun x y h i => ?_, by funext; simp⟩
        show V y i + W y i = (V x i + W x i).comp (1 - Polynomial.X)
        rw [hV' x y h, hW' x y h, Polynomial.add_comp]
      smul_mem' := by
        rintro c _ ⟨V, hV, hV', rfl⟩
        refine ⟨fun x i => c • V x i, fun x i => (Polynomial.natDegree_smul_le _ _).trans
          (hV x i), fun x y h i => ?_, by funext; simp⟩
        show c • V y i = (c • V x i).comp (1 - Polynomial.X)
        rw [hV' x y h, Polynomial.smul_comp] }

/-- Their test functions are those of the finite element space. -/
theorem Triangulation.spaces_tests (k : ℕ) (order : E → ℕ) (orderHat : E × Fin 3 → ℕ) :
    (K.spaces k order orderHat R S).tests = K.space k order orderHat R S := by
  ext φ
  constructor
  · rintro ⟨⟨V, hV, h1⟩, hat, hh, hs, h2⟩
    refine ⟨⟨V, hat, hV, hh, hs⟩, ?_⟩
    obtain ⟨g, v, t, z⟩ := φ
    simp only [Triangulation.elementFn, Prod.mk.injEq] at h1
    obtain ⟨e1, e2, e3⟩ := h1
    simp only [PolyTest.toTest, HdgTest.mk.injEq]
    refine ⟨?_, e2.symm, e3.symm, h2.symm⟩
    funext v
    ext i j
    exact (congrFun (congrFun (congrFun e1 v) i) j).symm
  · rintro ⟨φ, rfl⟩
    exact ⟨⟨φ.V, φ.degree, rfl⟩, φ.hat, φ.degreeHat, φ.single, rfl⟩

/-- The rule does not change if the segment is run through backwards, as Gauss rules. -/
def SideRule.Symmetric (S : SideRule) : Prop :=
  ∃ rev : Fin S.n → Fin S.n, (∀ q, rev (rev q) = q) ∧ (∀ q, S.pt (rev q) = 1 - S.pt q) ∧
    ∀ q, S.w (rev q) = S.w q

/-- Values at the points of a rule that is exact for squares determine a polynomial. -/
theorem poly_determined (hK : K.Conforming) {d : ℕ} (hR : R.Exact d) {e : E}
    {p : MvPolynomial (Fin 2) ℝ} (hp : 2 * p.totalDegree ≤ d)
    (h0 : ∀ q, MvPolynomial.eval (K.pos R (e, q)) p = 0) : p = 0 := by
  have hd : (p * p).totalDegree ≤ d := (MvPolynomial.totalDegree_mul _ _).trans (by omega)
  have h1 : p * p = 0 := by
    refine poly_zero_of_integral (hK.oriented e) (fun x => ?_) ?_
    · rw [map_mul]
      exact mul_self_nonneg _
    · rw [← volume_exact K hR e hd]
      refine Finset.sum_eq_zero fun q _ => ?_
      have : MvPolynomial.eval (K.point e (R.pt q)) p = 0 := h0 q
      rw [map_mul, this]
      ring
  exact mul_self_eq_zero.1 h1

theorem exact_mono {d d' : ℕ} (h : d' ≤ d) (hR : R.Exact d) : R.Exact d' :=
  fun p hp => hR p (hp.trans h)

/-- The normals and lengths of the two sides of a facet. -/
theorem across_normal (hK : K.Conforming) {x y : E × Fin 3} (h : K.across x = some y) :
    K.length y = K.length x ∧ K.normal y = -K.normal x := by
  obtain ⟨v, h1, h2⟩ := hK.fits x y h
  have hl : K.length y = K.length x := by
    simp only [Triangulation.length, h1, h2, Pi.add_apply]
    congr 1
    ring
  refine ⟨hl, ?_⟩
  funext j
  fin_cases j
  · simp only [Triangulation.normal, hl, h1, h2, Pi.add_apply, Pi.neg_apply]
    simp
    ring
  · simp only [Triangulation.normal, hl, h1, h2, Pi.add_apply, Pi.neg_apply]
    simp
    ring

/-- Piecewise polynomials and quadrature rules of a triangulation fit together. -/
theorem spaces_fit (hK : K.Conforming) {bcs : Conditions} (hc : K.Covered bcs) {d k : ℕ} (hd : 1 ≤ d)
    (hR : R.Exact d) (hS : S.Exact d) (hRw : ∀ q, 0 < R.w q) (hSw : ∀ q, 0 < S.w q)
    (hSs : S.Symmetric) {order : E → ℕ} {orderHat : E × Fin 3 → ℕ} (ho : ∀ e, 2 * order e ≤ d) :
    (K.spaces k order orderHat R S).Fits (K.mesh R S) ((K.mesh R S).mask bcs) where
  volume := fun v => mul_pos (hK.oriented v.1) (hRw v.2)
  boundary := fun b => mul_pos (length_pos K hK b.1) (hSw b.2)
  unit := fun b => by
    have := mesh_normal (R := R) hK b
    simp only [dotProduct, Fin.sum_univ_two]
    linarith
  mask01 := fun b => (C68_mask (K.mesh R S) bcs hc.nodup b).1
  determined := by
    rintro _ ⟨V, hV, rfl⟩ h
    have h0 : ∀ e i, V e i = 0 := fun e i =>
      poly_determined hK hR (e := e) ((Nat.mul_le_mul_left 2 (hV e i)).trans (ho e)) fun q =>
        congrFun (congrFun h (e, q)) i
    refine Prod.ext ?_ (Prod.ext ?_ ?_) <;> funext <;> simp [Triangulation.elementFn, h0]
  constant := fun w => ⟨fun _ i => MvPolynomial.C (w i), by simp, by
    refine Prod.ext ?_ (Prod.ext ?_ ?_) <;> funext <;> simp [Triangulation.elementFn]⟩
  constantHat := fun w => ⟨fun _ i => Polynomial.C (w i), by simp, by simp, by funext; simp⟩
  divergence := by
    rintro _ ⟨V, hV, rfl⟩ i j
    obtain ⟨m, rfl⟩ : ∃ m, d = m + 1 := ⟨d - 1, by omega⟩
    exact mesh_divergence hK (exact_mono (Nat.le_succ m) hR) hS (fun e => V e i)
      (fun e => (hV e i).trans (by have := ho e; omega)) j
  partner := by
    obtain ⟨rev, hr1, hr2, hr3⟩ := hSs
    refine ⟨fun b => ((K.across b.1).getD b.1, rev b.2), fun b hb => ?_⟩
    have ha : K.across b.1 ≠ none := fun h => by
      rw [hc.mask_zero (R := R) b h] at hb
      exact zero_ne_one hb
    obtain ⟨y, hy⟩ := Option.ne_none_iff_exists'.1 ha
    have hy' := hK.symm _ _ hy
    obtain ⟨hl, hn⟩ := across_normal hK hy
    simp only [hy, Option.getD_some]
    refine ⟨hc.mask_one (R := R) _ (by simp [hy']), ?_, ?_, hn, ?_⟩
    · simp [hy', hr1]
    · show K.length y * S.w (rev b.2) = K.length b.1 * S.w b.2
      rw [hl, hr3]
    · rintro _ ⟨hat, -, hs, rfl⟩
      funext i
      show (hat y i).eval (S.pt (rev b.2)) = (hat b.1 i).eval (S.pt b.2)
      rw [hs _ _ hy, hr2]
      simp

variable {γ : ℝ}

/-- **C94** On every conforming triangulation, of any size and for every order (also different orders
in different triangles and on different sides), with quadrature rules that are exact for products of
two element functions and have positive weights, and with walls, isothermal walls and outflows that
admit the uniform flow `W`: implicit runs up to the time `T` that start near `W` can be computed, if
the time steps are short enough, stay near it, and are the only ones that do. -/
theorem C94_triangulation (hK : K.Conforming) {bcs : Conditions} (hc : K.Covered bcs) {d : ℕ}
    (hd : 1 ≤ d) (hR : R.Exact d) (hS : S.Exact d) (hRw : ∀ q, 0 < R.w q) (hSw : ∀ q, 0 < S.w q)
    (hSs : S.Symmetric) {order : E → ℕ} {orderHat : E × Fin 3 → ℕ} (ho : ∀ e, 2 * order e ≤ d)
    {rs : Riemann} (hrs : rs.AnyDim) {W : GasState 2} (hW : IdealGas γ W)
    {cond : (E × Fin 3) × Fin S.n → FacetCond 2}
    (hcond : ∀ b, K.across b.1 = none → (cond b).Admits W (K.normal b.1))
    (σ : E × Fin R.n → ℝ) (T : ℝ) :
    ∃ dt₀ > 0, ∃ δ > 0, ∃ C, ∃ r > 0, C * δ ≤ r ∧ ∀ (s : Scheme) (dt : ℝ), 0 < dt → dt ≤ dt₀ →
      ∀ ts : List ℚ, dt * ts.length ≤ T → ∀ η, 0 ≤ η → η ≤ δ →
      ∀ p q : E → Fin 4 → MvPolynomial (Fin 2) ℝ, (∀ e i, (p e i).totalDegree ≤ order e) →
      (∀ e i, (q e i).totalDegree ≤ order e) →
      ∀ prev cur : HdgState 2 4 (E × Fin R.n) ((E × Fin 3) × Fin S.n),
      (∀ v i, prev.U v i = MvPolynomial.eval (K.pos R v) (p v.1 i)) →
      (∀ v i, cur.U v i = MvPolynomial.eval (K.pos R v) (q v.1 i)) →
      (∀ v i, |prev.U v i - consVec W.rho W.rho_u W.rho_E i| ≤ η) →
      (∀ v i, |cur.U v i - consVec W.rho W.rho_u W.rho_E i| ≤ η) →
      ∃ xs, Satisfies (hdgStep (K.mesh R S) ((K.mesh R S).mask bcs)
          (K.space 4 order orderHat R S) (s.quotient dt)) prev cur ts xs ∧
        (∀ x ∈ xs, x.NearFlow γ rs (K.spaces 4 order orderHat R S) (K.mesh R S)
          ((K.mesh R S).mask bcs) cond σ (conservativeDict W)
          (consVec W.rho W.rho_u W.rho_E) (C * η)) ∧
        ∀ ys, Satisfies (hdgStep (K.mesh R S) ((K.mesh R S).mask bcs)
          (K.space 4 order orderHat R S) (s.quotient dt)) prev cur ts ys →
          (∀ y ∈ ys, y.NearFlow γ rs (K.spaces 4 order orderHat R S) (K.mesh R S)
            ((K.mesh R S).mask bcs) cond σ (conservativeDict W)
            (consVec W.rho W.rho_u W.rho_E) r) → ys = xs := by
  have hcond' : ∀ b, (K.mesh R S).mask bcs b = 0 → (cond b).Admits W ((K.mesh R S).normal b) := by
    intro b hb
    refine hcond b ?_
    by_contra h
    rw [hc.mask_one (R := R) b h] at hb
    exact one_ne_zero hb
  obtain ⟨dt₀, h1, δ, h2, C, r, h3, h4, h5⟩ :=
    C94_runs hrs hW (spaces_fit (k := 4) (orderHat := orderHat) hK hc hd hR hS hRw hSw hSs ho) hcond' σ T
  refine ⟨dt₀, h1, δ, h2, C, r, h3, h4, ?_⟩
  intro s dt hdt hdt0 ts hT η hη hηδ p q hp hq prev cur hpU hcU hpn hcn
  have := h5 s dt hdt hdt0 ts hT η hη hηδ prev cur
    ⟨_, ⟨p, hp, rfl⟩, funext fun v => funext fun i => hpU v i⟩
    ⟨_, ⟨q, hq, rfl⟩, funext fun v => funext fun i => hcU v i⟩ hpn hcn
  rwa [Triangulation.spaces_tests] at this

/-- **C94** Such quadrature rules exist, of every degree of exactness. -/
theorem C94_rules (d : ℕ) : (∃ R : VolumeRule, R.Exact d ∧ ∀ q, 0 < R.w q) ∧
    ∃ S : SideRule, S.Exact d ∧ (∀ q, 0 < S.w q) ∧ S.Symmetric :=
  ⟨positive_volume_rule d, positive_side_rule d⟩

/-! ### A concrete case -/

/-- Gas that flows from left to right. -/
def channelState : GasState 2 := GasState.of (7 / 5) 2 ![1, 0] (25 / 14)

theorem channelState_ideal : IdealGas (7 / 5) channelState :=
  IdealGas.of (by norm_num) (by norm_num) (by norm_num)

/-- Walls below and above, outflows with the pressure of the gas at the left and right. -/
def channelCond (S : SideRule) (b : (Bool × Fin 3) × Fin S.n) : FacetCond 2 :=
  if (squareMesh false).region b.1 = some "w".toList then .wall else .outflow { p := some channelState.p }

theorem channel_admits (S : SideRule) (b : (Bool × Fin 3) × Fin S.n)
    (hb : (squareMesh false).across b.1 = none) :
    (channelCond S b).Admits channelState ((squareMesh false).normal b.1) := by
  obtain ⟨⟨_ | _, i⟩, q⟩ := b <;> fin_cases i <;> simp [squareMesh] at hb
  all_goals
    simp [channelCond, squareMesh, FacetCond.Admits, Triangulation.normal, channelState, GasState.of,
      Triangulation.start, Triangulation.stop, dotProduct, Fin.sum_univ_two]

/-- C94, concrete instance: a channel made of two triangles, elements of order 2 and facets of order
3, a sponge layer everywhere, and initial densities that vary linearly. All hypotheses of
`C94_triangulation` hold, and so all those of `C94_runs`. -/
example {rs : Riemann} (hrs : rs.AnyDim) (T : ℝ) : ∃ (R : VolumeRule) (S : SideRule) (ε : ℝ),
    0 < ε ∧ ∃ dt₀ > 0, ∀ (s : Scheme) (dt : ℝ), 0 < dt → dt ≤ dt₀ → ∀ ts : List ℚ,
      dt * ts.length ≤ T → ∀ x : HdgState 2 4 (Bool × Fin R.n) ((Bool × Fin 3) × Fin S.n),
      (∀ v, x.U v = consVec (2 + ε * (squareMesh false).pos R v 0) ![2, 0] (32 / 7)) →
      ∃ xs, Satisfies (hdgStep ((squareMesh false).mesh R S)
          (((squareMesh false).mesh R S).mask (squareConditions false))
          ((squareMesh false).space 4 (fun _ => 2) (fun _ => 3) R S) (s.quotient dt)) x x ts xs ∧
        ∀ y ∈ xs, ∃ a ζ, y.IsFlow (7 / 5) rs ((squareMesh false).mesh R S)
          (((squareMesh false).mesh R S).mask (squareConditions false)) (channelCond S) (fun _ => 1)
          (conservativeDict channelState) a ζ := by
  obtain ⟨⟨R, hR, hRw⟩, S, hS, hSw, hSs⟩ := C94_rules 4
  obtain ⟨dt₀, h1, δ, h2, C, r, h3, -, h⟩ :=
    C94_triangulation (orderHat := fun _ => 3) (squareMesh_conforming false) (squareMesh_covered false)
      (d := 4) (by norm_num) hR hS hRw hSw hSs (order := fun _ => 2) (fun _ => le_rfl) hrs
      channelState_ideal (channel_admits S) (fun _ => 1) T
  obtain ⟨A, hA⟩ : ∃ A, A = ∑ v, |(squareMesh false).pos R v 0| := ⟨_, rfl⟩
  have hA0 : 0 ≤ A := hA ▸ Finset.sum_nonneg fun _ _ => abs_nonneg _
  have hAv : ∀ v, |(squareMesh false).pos R v 0| ≤ A := fun v => hA ▸
    Finset.single_le_sum (f := fun v => |(squareMesh false).pos R v 0|) (fun _ _ => abs_nonneg _)
      (Finset.mem_univ v)
  refine ⟨R, S, δ / (A + 1), by positivity, dt₀, h1, fun s dt hdt hdt0 ts hT x hx => ?_⟩
  have hw : consVec channelState.rho channelState.rho_u channelState.rho_E = ![2, 2, 0, 32 / 7] := by
    funext i
    fin_cases i
    · rfl
    · show (2 : ℝ) * 1 = 2
      norm_num
    · show (2 : ℝ) * 0 = 0
      norm_num
    · show (2 : ℝ) * (25 / 14 + (![1, 0] ⬝ᵥ ![1, 0]) / 2) = 32 / 7
      norm_num [dotProduct, Fin.sum_univ_two]
  have hU : ∀ v i, x.U v i = ![2 + δ / (A + 1) * (squareMesh false).pos R v 0, 2, 0, 32 / 7] i := by
    intro v i
    rw [hx v]
    fin_cases i <;> rfl
  have hpoly : ∀ v i, x.U v i = MvPolynomial.eval ((squareMesh false).pos R v)
      ((![MvPolynomial.C 2 + MvPolynomial.C (δ / (A + 1)) * MvPolynomial.X 0, MvPolynomial.C 2,
        0, MvPolynomial.C (32 / 7)] : Fin 4 → MvPolynomial (Fin 2) ℝ) i) := by
    intro v i
    rw [hU]
    fin_cases i <;> simp
  have hdeg : ∀ i, ((![MvPolynomial.C 2 + MvPolynomial.C (δ / (A + 1)) * MvPolynomial.X 0,
      MvPolynomial.C 2, 0, MvPolynomial.C (32 / 7)] : Fin 4 → MvPolynomial (Fin 2) ℝ) i).totalDegree
      ≤ 2 := by
    intro i
    fin_cases i
    · refine (MvPolynomial.totalDegree_add _ _).trans (max_le (by simp) ?_)
      exact (MvPolynomial.totalDegree_mul _ _).trans (by simp)
    all_goals simp
  have hnear : ∀ v i, |x.U v i - consVec channelState.rho channelState.rho_u channelState.rho_E i|
      ≤ δ := by
    intro v i
    rw [hU, hw]
    have h0 : |δ / (A + 1) * (squareMesh false).pos R v 0| ≤ δ := by
      rw [abs_mul, abs_of_pos (by positivity), div_mul_eq_mul_div, div_le_iff₀ (by positivity)]
      have := hAv v
      exact mul_le_mul_of_nonneg_left (by linarith) h2.le
    fin_cases i
    · simpa using h0
    all_goals simp [h2.le]
  obtain ⟨xs, e1, e2, -⟩ := h s dt hdt hdt0 ts hT δ h2.le le_rfl _ _ (fun _ i => hdeg i)
    (fun _ i => hdeg i) x x hpoly hpoly hnear hnear
  refine ⟨xs, e1, fun y hy => ?_⟩
  obtain ⟨a, -, ζ, -, hf, -⟩ := e2 y hy
  exact ⟨a, ζ, hf⟩

end Dream
