import Verif.Props.Mirror
import Verif.Props.TriangulationFlows
import Mathlib.Analysis.SpecialFunctions.Integrals.Basic

/-!
# C93 on triangulations with piecewise polynomials
-/

noncomputable section

namespace Dream
open Matrix Spec Polynomial

set_option linter.unusedSectionVars false

variable {γ : ℝ} {E : Type} [Fintype E] [DecidableEq E] {K : Triangulation E} {R : VolumeRule}
  {S : SideRule} {d : Fin 2 → ℝ}

/-- A plane side of the domain of a triangulation with a condition, seen by a rule with positive
weights. -/
theorem triangulation_plane (hK : K.Conforming) {bcs : Conditions} {r : Name}
    (hd : d 0 ^ 2 + d 1 ^ 2 = 1) (hr : r ∈ bcs.getDomainBoundaries)
    (hp : ∀ x, K.region x = some r → K.normal x = d) (hS : ∀ q, 0 < S.w q) :
    PlaneBoundary d r (K.mesh R S) bcs where
  unit := hd
  condition := hr
  plane := fun b hb => hp b.1 hb
  weights := fun b _ => mul_pos (length_pos K hK b.1) (hS b.2)

/-- Facet functions on an outer boundary that are polynomials on each side are test functions. -/
theorem facetTest_mem (hK : K.Conforming) {r : Name} {order : E → ℕ} {orderHat : E × Fin 3 → ℕ}
    (ho : ∀ x, K.region x = some r → K.across x = none) (h : E × Fin 3 → Fin 4 → ℝ[X])
    (hdeg : ∀ x, K.region x = some r → ∀ i, (h x i).natDegree ≤ orderHat x)
    {f : (E × Fin 3) × Fin S.n → Fin 4 → ℝ}
    (hf : ∀ b, K.region b.1 = some r → ∀ i, f b i = (h b.1 i).eval (S.pt b.2)) :
    facetTest r (K.mesh R S) f ∈ K.space 4 order orderHat R S := by
  refine ⟨⟨fun _ _ => 0, fun x i => if K.region x = some r then h x i else 0, ?_, ?_, ?_⟩, ?_⟩
  · simp
  · intro x i
    split_ifs with hx
    · exact hdeg x hx i
    · simp
  · intro x y hxy i
    rw [if_neg, if_neg]
    · simp
    · intro hx
      rw [ho x hx] at hxy
      exact absurd hxy (by simp)
    · intro hy
      have := hK.symm x y hxy
      rw [ho y hy] at this
      exact absurd this (by simp)
  · simp only [PolyTest.toTest, facetTest, HdgTest.mk.injEq]
    refine ⟨?_, ?_, ?_, ?_⟩
    · funext v
      ext i j
      simp
    · funext v i
      simp
    · funext v i
      simp
    · funext b i
      by_cases hb : K.region b.1 = some r
      · have hb' : (K.mesh R S).region b = some r := hb
        simp only [hb, hb', if_true]
        exact (hf b hb i).symm
      · have hb' : ¬ (K.mesh R S).region b = some r := hb
        simp [hb, hb']

/-- The unknowns `U` and `Uhat` are piecewise polynomials, as the test functions; on the boundary
`r` the order of the facets is not lower than that of the triangles. The state is inviscid, and on
`r` it has the residual of the condition `Symmetry`. -/
structure PolySymmetry (γ : ℝ) (rs : Riemann) (r : Name) (K : Triangulation E) (R : VolumeRule)
    (S : SideRule) {order : E → ℕ} {orderHat : E × Fin 3 → ℕ} (u : PolyTest K 4 order orderHat)
    (x : HdgState 2 4 (E × Fin R.n) ((E × Fin 3) × Fin S.n)) : Prop where
  euler : x.IsEuler γ rs (K.mesh R S) (u.toTest R S).trace (u.toTest R S).hat
  values : ∀ v, x.U v = (u.toTest R S).val v
  residual : ∀ b, K.region b.1 = some r → ∃ W, IdealGas γ W ∧ (u.toTest R S).trace b = gasVec W ∧
    inviscidWallResidual γ (K.normal b.1) (conservativeDict W) ((u.toTest R S).hat b) = .ok (x.R b)

theorem PolySymmetry.atSymmetry (hK : K.Conforming) {rs : Riemann} {r : Name} {order : E → ℕ}
    {orderHat : E × Fin 3 → ℕ} (ho : ∀ x, K.region x = some r → K.across x = none)
    (hord : ∀ x, K.region x = some r → order x.1 ≤ orderHat x)
    {u : PolyTest K 4 order orderHat} {x : HdgState 2 4 (E × Fin R.n) ((E × Fin 3) × Fin S.n)}
    (h : PolySymmetry γ rs r K R S u x) :
    AtSymmetry γ r (K.mesh R S) (K.space 4 order orderHat R S) x (u.toTest R S).trace
      (u.toTest R S).hat := by
  refine ⟨h.residual, ?_⟩
  choose p hp hpe using fun (y : E × Fin 3) (i : Fin 4) => exists_sidePoly K y (u.V y.1 i)
  let n : E × Fin 3 → ℝ[X] := fun y => C (K.normal y 0) * p y 1 + C (K.normal y 1) * p y 2
  refine facetTest_mem hK ho (fun y => ![u.hat y 0 - p y 0,
    u.hat y 1 - (p y 1 - C (K.normal y 0) * n y), u.hat y 2 - (p y 2 - C (K.normal y 1) * n y),
    u.hat y 3 - p y 3]) ?_ ?_
  · intro y hy i
    have a : ∀ i, (u.hat y i).natDegree ≤ orderHat y := u.degreeHat y
    have b : ∀ i, (p y i).natDegree ≤ orderHat y := fun i =>
      (hp y i).trans ((u.degree y.1 i).trans (hord y hy))
    have c : ∀ (z : ℝ) (q : ℝ[X]), q.natDegree ≤ orderHat y → (C z * q).natDegree ≤ orderHat y :=
      fun z q hq => (natDegree_C_mul_le z q).trans hq
    have e : (n y).natDegree ≤ orderHat y :=
      natDegree_add_le_of_degree_le (c _ _ (b 1)) (c _ _ (b 2))
    fin_cases i
    · exact natDegree_sub_le_of_le (a 0) (b 0) |>.trans (by simp)
    · exact natDegree_sub_le_of_le (a 1) (natDegree_sub_le_of_le (b 1) (c _ _ e)) |>.trans (by simp)
    · exact natDegree_sub_le_of_le (a 2) (natDegree_sub_le_of_le (b 2) (c _ _ e)) |>.trans (by simp)
    · exact natDegree_sub_le_of_le (a 3) (b 3) |>.trans (by simp)
  · intro b hb i
    obtain ⟨W, hW, h1, h2⟩ := h.residual b hb
    obtain ⟨e1, e2, e3⟩ := dictState γ W
    simp only [inviscidWallResidual, e1, e2, e3, bind, Except.bind, Except.ok.injEq] at h2
    have t : ∀ i, gasVec W i = (p b.1 i).eval (S.pt b.2) := by
      intro i
      rw [← h1, hpe]
      rfl
    have m0 : W.rho_u 0 = (p b.1 1).eval (S.pt b.2) := t 1
    have m1 : W.rho_u 1 = (p b.1 2).eval (S.pt b.2) := t 2
    have hn : (n b.1).eval (S.pt b.2) = W.rho_u ⬝ᵥ K.normal b.1 := by
      simp only [n, eval_add, eval_mul, eval_C, dotProduct, Fin.sum_univ_two, m0, m1]
      ring
    rw [← h2]
    fin_cases i
    · show (u.hat b.1 0).eval (S.pt b.2) - W.rho = (u.hat b.1 0 - p b.1 0).eval (S.pt b.2)
      rw [eval_sub, ← t 0]
      rfl
    · show (u.hat b.1 1).eval (S.pt b.2)
        - (W.rho_u 0 - (W.rho_u ⬝ᵥ K.normal b.1) * K.normal b.1 0)
        = (u.hat b.1 1 - (p b.1 1 - C (K.normal b.1 0) * n b.1)).eval (S.pt b.2)
      simp only [eval_sub, eval_mul, eval_C, hn, m0]
      ring
    · show (u.hat b.1 2).eval (S.pt b.2)
        - (W.rho_u 1 - (W.rho_u ⬝ᵥ K.normal b.1) * K.normal b.1 1)
        = (u.hat b.1 2 - (p b.1 2 - C (K.normal b.1 1) * n b.1)).eval (S.pt b.2)
      simp only [eval_sub, eval_mul, eval_C, hn, m1]
      ring
    · show (u.hat b.1 3).eval (S.pt b.2) - W.rho_E = (u.hat b.1 3 - p b.1 3).eval (S.pt b.2)
      rw [eval_sub, ← t 3]
      rfl

/-- **C93** On every triangulation with a plane symmetry boundary, with piecewise polynomials of any
orders and quadrature rules with positive weights, any Riemann solver but Upwind: the states of a
run, each together with its mirror image, satisfy the equations on the doubled domain. -/
theorem C93_triangulation_partial (hK : K.Conforming) {rs : Riemann} (hrs : rs ≠ .upwind)
    {bcs : Conditions} {r : Name} (hd : d 0 ^ 2 + d 1 ^ 2 = 1) (hr : r ∈ bcs.getDomainBoundaries)
    (hp : ∀ x, K.region x = some r → K.normal x = d)
    (ho : ∀ x, K.region x = some r → K.across x = none) (hS : ∀ q, 0 < S.w q)
    {order : E → ℕ} {orderHat : E × Fin 3 → ℕ}
    (hord : ∀ x, K.region x = some r → order x.1 ≤ orderHat x) (s : Scheme) (dt : ℝ)
    (ts : List ℚ) (xs : List (HdgState 2 4 (E × Fin R.n) ((E × Fin 3) × Fin S.n)))
    (prev cur : HdgState 2 4 (E × Fin R.n) ((E × Fin 3) × Fin S.n))
    (hx : ∀ x ∈ xs, ∃ u : PolyTest K 4 order orderHat, PolySymmetry γ rs r K R S u x)
    (h : Satisfies (hdgStep (K.mesh R S) ((K.mesh R S).mask bcs) (K.space 4 order orderHat R S)
      (s.quotient dt)) prev cur ts xs) :
    Satisfies (hdgStep (doubleMesh d r (K.mesh R S)) ((doubleMesh d r (K.mesh R S)).mask bcs)
      (doubleTests d r (K.mesh R S) (K.space 4 order orderHat R S)) (s.quotient dt))
      (doubleState d r (K.mesh R S) prev) (doubleState d r (K.mesh R S) cur) ts
      (xs.map (doubleState d r (K.mesh R S))) :=
  C93_run_partial hrs (triangulation_plane hK hd hr hp hS) _ s dt ts xs prev cur
    (fun x hx' => by
      obtain ⟨u, hu⟩ := hx x hx'
      exact ⟨_, _, hu.euler, hu.atSymmetry hK ho hord⟩) h

/-- **C93** Conversely with the Lax-Friedrichs or HLL solver: if a state together with its mirror
image satisfies the equations of a step on the doubled domain, with one facet value on the
interface, it satisfies them on the domain with the symmetry boundary. -/
theorem C93_triangulation_restrict_partial (hK : K.Conforming) {rs : Riemann}
    (hrs : rs = .laxFriedrich ∨ rs = .hll)
    {bcs : Conditions} {r : Name} (hd : d 0 ^ 2 + d 1 ^ 2 = 1) (hr : r ∈ bcs.getDomainBoundaries)
    (hp : ∀ x, K.region x = some r → K.normal x = d)
    (ho : ∀ x, K.region x = some r → K.across x = none) (hS : ∀ q, 0 < S.w q)
    {order : E → ℕ} {orderHat : E × Fin 3 → ℕ}
    (hord : ∀ x, K.region x = some r → order x.1 ≤ orderHat x) (s : Scheme) (dt : ℝ) (t : ℚ)
    (x cur prev : HdgState 2 4 (E × Fin R.n) ((E × Fin 3) × Fin S.n))
    {u : PolyTest K 4 order orderHat} (hx : PolySymmetry γ rs r K R S u x)
    (hHat : ∀ b, K.region b.1 = some r → ∃ W, IdealGas γ W ∧ (u.toTest R S).hat b = gasVec W)
    (hone : ∀ b, K.region b.1 = some r → doubleVec d (u.toTest R S).hat (.inl b)
      = doubleVec d (u.toTest R S).hat (.inr b))
    (h : hdgStep (doubleMesh d r (K.mesh R S)) ((doubleMesh d r (K.mesh R S)).mask bcs)
      (doubleTests d r (K.mesh R S) (K.space 4 order orderHat R S)) (s.quotient dt) t
      (doubleState d r (K.mesh R S) x) (doubleState d r (K.mesh R S) cur)
      (doubleState d r (K.mesh R S) prev)) :
    hdgStep (K.mesh R S) ((K.mesh R S).mask bcs) (K.space 4 order orderHat R S) (s.quotient dt) t
      x cur prev := by
  refine C93_restrict_partial hrs (triangulation_plane hK hd hr hp hS) _ ?_ s dt t hx.euler
    (hx.atSymmetry hK ho hord) hHat hone h
  rintro _ ⟨φ, rfl⟩
  refine facetTest_mem hK ho (fun y => ![φ.hat y 0,
    φ.hat y 1 - C (2 * d 0) * (C (d 0) * φ.hat y 1 + C (d 1) * φ.hat y 2),
    φ.hat y 2 - C (2 * d 1) * (C (d 0) * φ.hat y 1 + C (d 1) * φ.hat y 2), φ.hat y 3]) ?_ ?_
  · intro y hy i
    have a : ∀ i, (φ.hat y i).natDegree ≤ orderHat y := φ.degreeHat y
    have c : ∀ (z : ℝ) (q : ℝ[X]), q.natDegree ≤ orderHat y → (C z * q).natDegree ≤ orderHat y :=
      fun z q hq => (natDegree_C_mul_le z q).trans hq
    have e : (C (d 0) * φ.hat y 1 + C (d 1) * φ.hat y 2).natDegree ≤ orderHat y :=
      natDegree_add_le_of_degree_le (c _ _ (a 1)) (c _ _ (a 2))
    fin_cases i
    · exact a 0
    · exact natDegree_sub_le_of_le (a 1) (c _ _ e) |>.trans (by simp)
    · exact natDegree_sub_le_of_le (a 2) (c _ _ e) |>.trans (by simp)
    · exact a 3
  · intro b hb i
    rw [rotVec_mirror_apply]
    fin_cases i
    · show (φ.hat b.1 0).eval (S.pt b.2) - _ * 0 = (φ.hat b.1 0).eval (S.pt b.2)
      ring
    · show (φ.hat b.1 1).eval (S.pt b.2) - 2 * ((φ.hat b.1 1).eval (S.pt b.2) * d 0
          + (φ.hat b.1 2).eval (S.pt b.2) * d 1) * d 0
        = (φ.hat b.1 1 - C (2 * d 0) * (C (d 0) * φ.hat b.1 1 + C (d 1) * φ.hat b.1 2)).eval
          (S.pt b.2)
      simp only [eval_sub, eval_add, eval_mul, eval_C]
      ring
    · show (φ.hat b.1 2).eval (S.pt b.2) - 2 * ((φ.hat b.1 1).eval (S.pt b.2) * d 0
          + (φ.hat b.1 2).eval (S.pt b.2) * d 1) * d 1
        = (φ.hat b.1 2 - C (2 * d 1) * (C (d 0) * φ.hat b.1 1 + C (d 1) * φ.hat b.1 2)).eval
          (S.pt b.2)
      simp only [eval_sub, eval_add, eval_mul, eval_C]
      ring
    · show (φ.hat b.1 3).eval (S.pt b.2) - _ * 0 = (φ.hat b.1 3).eval (S.pt b.2)
      ring

section Instances

/-- The midpoint rule. -/
def midpointRule : SideRule where
  n := 1
  pt := fun _ => 1 / 2
  w := fun _ => 1

theorem midpoint_exact : midpointRule.Exact 1 := by
  intro p hp
  obtain ⟨a, b, rfl⟩ := Polynomial.exists_eq_X_add_C_of_natDegree_le_one hp
  have e : ∀ s : ℝ, (C a * X + C b).eval s = a * s + b := fun s => by simp
  have h1 : ∑ q, midpointRule.w q * (C a * X + C b).eval (midpointRule.pt q)
      = 1 * (C a * X + C b).eval (1 / 2) := by
    show ∑ q : Fin 1, (1 : ℝ) * (C a * X + C b).eval (1 / 2) = _
    simp
  have h2 : (∫ s in (0 : ℝ)..1, (a * s + b)) = a * (1 / 2) + b := by
    rw [intervalIntegral.integral_add (Continuous.intervalIntegrable (by fun_prop) _ _)
      (continuous_const.intervalIntegrable _ _), intervalIntegral.integral_const_mul, integral_id]
    norm_num
  rw [h1]
  simp only [e]
  rw [h2, one_mul]

/-- Outflow above, below and at the left, a symmetry plane at the right. -/
def symmetryConditions : Conditions where
  data := [("w".toList, [⟨0, .outflow⟩]), ("r".toList, [⟨1, .symmetry⟩]),
    ("l".toList, [⟨2, .outflow⟩])]
  options := []
  next := 3

theorem symmetry_covered : (squareMesh false).Covered symmetryConditions := by
  constructor
  · decide
  · rintro ⟨_ | _, i⟩ h <;> fin_cases i <;> simp [squareMesh] at h
    all_goals first
      | exact ⟨"w".toList, _, _, rfl, rfl, List.mem_singleton_self _, by decide⟩
      | exact ⟨"r".toList, _, _, rfl, rfl, List.mem_singleton_self _, by decide⟩
      | exact ⟨"l".toList, _, _, rfl, rfl, List.mem_singleton_self _, by decide⟩
  · rintro ⟨_ | _, i⟩ h <;> fin_cases i <;> simp [squareMesh] at h
    all_goals exact .inl rfl

theorem square_right {x : Bool × Fin 3} (h : (squareMesh false).region x = some "r".toList) :
    x = (false, 1) := by
  revert h
  obtain ⟨_ | _, i⟩ := x <;> fin_cases i <;> simp [squareMesh]

/-- C93, concrete instance: gas that flows along the symmetry plane at the right side of the square,
with linear elements. All hypotheses of `C93_triangulation_partial` and of
`C93_triangulation_restrict_partial` hold. -/
example {rs : Riemann} (hrs : rs = .laxFriedrich ∨ rs = .hll) (s : Scheme) (dt : ℝ) (t : ℚ)
    (ts : List ℚ) : ∃ (R : VolumeRule) (S : SideRule)
    (x : HdgState 2 4 (Bool × Fin R.n) ((Bool × Fin 3) × Fin S.n)),
    let K := squareMesh false
    let M := K.mesh R S
    let D := doubleMesh ![1, 0] "r".toList M
    let T := doubleTests ![1, 0] "r".toList M (K.space 4 (fun _ => 1) (fun _ => 1) R S)
    let y := doubleState ![1, 0] "r".toList M x
    Satisfies (hdgStep D (D.mask symmetryConditions) T (s.quotient dt)) y y ts
      ((List.replicate ts.length x).map (doubleState ![1, 0] "r".toList M)) ∧
    (hdgStep D (D.mask symmetryConditions) T (s.quotient dt) t y y y →
      hdgStep M (M.mask symmetryConditions) (K.space 4 (fun _ => 1) (fun _ => 1) R S)
        (s.quotient dt) t x x x) := by
  obtain ⟨R, hR⟩ := C84_volume_rules 0
  let G := GasState.of (7 / 5) 2 ![0, 1] 1
  have hK := squareMesh_conforming false
  have hG : IdealGas (7 / 5) G := IdealGas.of (by norm_num) two_pos one_pos
  have hx := eulerSample_isEuler rs ((squareMesh false).mesh R midpointRule) (mesh_normal hK)
    ((squareMesh false).pos R) ((squareMesh false).posB midpointRule) (W := fun _ => G)
    (fun _ => hG) fun _ => hG
  let x := eulerSample (7 / 5) ((squareMesh false).mesh R midpointRule) ((squareMesh false).pos R)
    ((squareMesh false).posB midpointRule) fun _ => G
  let u : PolyTest (squareMesh false) 4 (fun _ => 1) (fun _ => 1) :=
    ⟨fun _ i => MvPolynomial.C (gasVec G i), fun _ i => C (gasVec G i), fun _ _ => by simp,
      fun _ _ => by simp, fun _ _ _ _ => by simp⟩
  have ut : (u.toTest R midpointRule).trace = fun _ => gasVec G := by
    funext b i
    simp [u, PolyTest.toTest]
  have uh : (u.toTest R midpointRule).hat = fun _ => gasVec G := by
    funext b i
    simp [u, PolyTest.toTest]
  have hn : ∀ y, (squareMesh false).region y = some "r".toList →
      (squareMesh false).normal y = ![1, 0] := by
    intro y hy
    rw [square_right hy]
    simp [squareMesh, Triangulation.normal, Triangulation.length, Triangulation.start,
      Triangulation.stop]
  have ho : ∀ y, (squareMesh false).region y = some "r".toList →
      (squareMesh false).across y = none := by
    intro y hy
    rw [square_right hy]
    simp [squareMesh]
  have hd : (![1, 0] : Fin 2 → ℝ) 0 ^ 2 + (![1, 0] : Fin 2 → ℝ) 1 ^ 2 = 1 := by simp
  have hr : "r".toList ∈ symmetryConditions.getDomainBoundaries := by decide
  have hu : PolySymmetry (7 / 5) rs "r".toList (squareMesh false) R midpointRule u x := by
    refine ⟨by rw [ut, uh]; exact conserved_eq G ▸ hx, fun v => ?_, fun b hb => ⟨G, hG, ?_, ?_⟩⟩
    · refine (conserved_eq G).trans ?_
      funext i
      simp [u, PolyTest.toTest]
    · rw [ut]
    · obtain ⟨e1, e2, e3⟩ := dictState (7 / 5) G
      rw [hn _ hb, uh]
      simp only [inviscidWallResidual, e1, e2, e3, bind, Except.bind, Except.ok.injEq]
      show gasVec G - _ = 0
      have : G.rho_u ⬝ᵥ ![1, 0] = 0 := by simp [G, GasState.of, dotProduct, Fin.sum_univ_two]
      rw [this, zero_smul, sub_zero]
      exact sub_self _
  refine ⟨R, midpointRule, x, ?_, ?_⟩
  · refine C93_triangulation_partial (γ := 7 / 5) (rs := rs) hK ?_ hd hr hn ho (fun _ => one_pos) (fun _ _ => le_rfl) s dt ts
      _ x x (fun y hy => ⟨u, ?_⟩) (C84_uniform hK symmetry_covered hR midpoint_exact
        (fun _ => le_rfl) (fun _ => le_rfl) hG rs s dt ts x (fun _ => conserved_eq _)
        (conserved_eq G ▸ hx) (fun _ => Matching.nothing) 0
        fun v => by simp [x, spongeResidual, stateVec_dict, bind, Except.bind, eulerSample])
    · rcases hrs with h | h <;> simp [h]
    · rw [List.eq_of_mem_replicate hy]
      exact hu
  · refine C93_triangulation_restrict_partial hK hrs hd hr hn ho (fun _ => one_pos)
      (fun _ _ => le_rfl) s dt t x x x hu (fun b _ => ⟨G, hG, by rw [uh]⟩) fun b _ => ?_
    rw [uh]
    show gasVec G = rotVec (mirror ![1, 0]) (gasVec G)
    rw [rotVec_mirror_apply]
    have : gasVec G 1 = 0 := by
      show G.rho_u 0 = 0
      simp [G, GasState.of]
    simp [this]

end Instances

end Dream
