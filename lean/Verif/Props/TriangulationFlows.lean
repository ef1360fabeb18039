import Verif.Props.Triangulation
import Verif.Props.ExactFlows
import Mathlib.Topology.Algebra.Polynomial

/-!
# C84: existence of rules, boundaries without condition, and flows on triangulations
-/

noncomputable section

namespace Dream

open Matrix Spec MeasureTheory Function

/-- **C84** There are rules on the segment of every degree of exactness. -/
theorem C84_side_rules (d : ℕ) : ∃ S : SideRule, S.Exact d := by
  let v : Fin (d + 1) → ℝ := fun k => (k : ℕ)
  have hv : Set.InjOn v (Finset.univ : Finset (Fin (d + 1))) := by
    intro a _ b _ h
    have h' : ((a : ℕ) : ℝ) = (b : ℕ) := h
    exact Fin.ext (by exact_mod_cast h')
  refine ⟨⟨d + 1, v, fun k => ∫ s in (0 : ℝ)..1, (Lagrange.basis Finset.univ v k).eval s⟩, ?_⟩
  intro p hp
  have h : p = Lagrange.interpolate Finset.univ v fun i => p.eval (v i) :=
    Lagrange.eq_interpolate hv (by
      refine (Polynomial.degree_le_natDegree).trans_lt ?_
      simp only [Finset.card_univ, Fintype.card_fin]
      exact_mod_cast Nat.lt_succ_of_le hp)
  have h2 : ∀ s, p.eval s = ∑ k, p.eval (v k) * (Lagrange.basis Finset.univ v k).eval s := by
    intro s
    conv_lhs => rw [h]
    rw [Lagrange.interpolate_apply, Polynomial.eval_finset_sum]
    simp
  have h3 : ∫ s in (0 : ℝ)..1, p.eval s
      = ∫ s in (0 : ℝ)..1, ∑ k, p.eval (v k) * (Lagrange.basis Finset.univ v k).eval s := by
    simp only [← h2]
  rw [h3, intervalIntegral.integral_finset_sum]
  · refine Finset.sum_congr rfl fun k _ => ?_
    rw [intervalIntegral.integral_const_mul, mul_comm]
  · intro k _
    exact (continuous_const.mul (Polynomial.continuous _)).intervalIntegrable _ _

/-- **C84** There are rules on the triangle of every degree of exactness. -/
theorem C84_volume_rules (d : ℕ) : ∃ R : VolumeRule, R.Exact d := by
  let v : Fin (d + 1) → ℝ := fun k => (k : ℕ)
  have hv : Set.InjOn v (Finset.univ : Finset (Fin (d + 1))) := by
    intro a _ b _ h
    have h' : ((a : ℕ) : ℝ) = (b : ℕ) := h
    exact Fin.ext (by exact_mod_cast h')
  let L : Fin (d + 1) → ℝ → ℝ := fun k s => (Lagrange.basis Finset.univ v k).eval s
  have hL : ∀ k, Continuous (L k) := fun k => by
    show Continuous fun s => (Lagrange.basis Finset.univ v k).eval s
    exact Polynomial.continuous _
  have hpow : ∀ n ≤ d, ∀ s : ℝ, s ^ n = ∑ k, v k ^ n * L k s := by
    intro n hn s
    have h : (Polynomial.X ^ n : Polynomial ℝ)
        = Lagrange.interpolate Finset.univ v fun i => (Polynomial.X ^ n : Polynomial ℝ).eval (v i) :=
      Lagrange.eq_interpolate hv (by
        rw [Polynomial.degree_X_pow]
        simp only [Finset.card_univ, Fintype.card_fin]
        exact_mod_cast Nat.lt_succ_of_le hn)
    have h2 := congrArg (Polynomial.eval s) h
    rw [Lagrange.interpolate_apply, Polynomial.eval_finset_sum] at h2
    simpa using h2
  let e := (finProdFinEquiv (m := d + 1) (n := d + 1)).symm
  refine ⟨⟨(d + 1) * (d + 1), fun q => ![v (e q).1, v (e q).2],
    fun q => ∫ x in (0 : ℝ)..1, ∫ y in (0 : ℝ)..(1 - x), L (e q).1 x * L (e q).2 y⟩, ?_⟩
  intro p hp
  have hexp : ∀ x y : ℝ, MvPolynomial.eval ![x, y] p = ∑ k : Fin (d + 1) × Fin (d + 1),
      MvPolynomial.eval ![v k.1, v k.2] p * (L k.1 x * L k.2 y) := by
    intro x y
    simp only [MvPolynomial.eval_eq', Fin.prod_univ_two, cons_val_zero, cons_val_one,
      Finset.sum_mul]
    rw [Finset.sum_comm]
    refine Finset.sum_congr rfl fun m hm => ?_
    have hdeg := MvPolynomial.le_totalDegree hm
    have h01 : m 0 + m 1 ≤ d := by
      refine le_trans (le_of_eq ?_) (hdeg.trans hp)
      rw [Finsupp.sum_fintype _ _ (by simp), Fin.sum_univ_two]
    rw [hpow (m 0) (by omega) x, hpow (m 1) (by omega) y, Fintype.sum_prod_type,
      Finset.sum_mul_sum, Finset.mul_sum]
    refine Finset.sum_congr rfl fun k _ => ?_
    rw [Finset.mul_sum]
    exact Finset.sum_congr rfl fun l _ => by ring
  have hc : ∀ k : Fin (d + 1) × Fin (d + 1),
      ContinuousOn (uncurry fun x y => L k.1 x * L k.2 y) refTri := fun k =>
    (((hL k.1).comp continuous_fst).mul ((hL k.2).comp continuous_snd)).continuousOn
  have hcp : ContinuousOn (uncurry fun x y => ∑ k : Fin (d + 1) × Fin (d + 1),
      MvPolynomial.eval ![v k.1, v k.2] p * (L k.1 x * L k.2 y)) refTri := by
    have : Continuous (uncurry fun x y => ∑ k : Fin (d + 1) × Fin (d + 1),
        MvPolynomial.eval ![v k.1, v k.2] p * (L k.1 x * L k.2 y)) := by
      refine continuous_finset_sum _ fun k _ => continuous_const.mul ?_
      exact ((hL k.1).comp continuous_fst).mul ((hL k.2).comp continuous_snd)
    exact this.continuousOn
  have hfun : (fun x y : ℝ => MvPolynomial.eval ![x, y] p)
      = fun x y => ∑ k : Fin (d + 1) × Fin (d + 1),
        MvPolynomial.eval ![v k.1, v k.2] p * (L k.1 x * L k.2 y) := by
    funext x y
    exact hexp x y
  show _ = ∫ x in (0 : ℝ)..1, ∫ y in (0 : ℝ)..(1 - x),
    (fun x y : ℝ => MvPolynomial.eval ![x, y] p) x y
  rw [hfun, ref_integral hcp]
  simp only [uncurry]
  rw [integral_finset_sum]
  · rw [← Equiv.sum_comp e]
    refine Finset.sum_congr rfl fun q _ => ?_
    rw [integral_const_mul, ref_integral (hc (e q)), mul_comm]
    rfl
  · intro k _
    exact ((hc k).integrableOn_compact refTri_compact).const_mul _

variable {E : Type} [Fintype E] {K : Triangulation E} {R : VolumeRule} {S : SideRule} {γ : ℝ}

/-- The flux of a gas through a face is never zero: there is always pressure. -/
theorem euler_flux_ne {G : GasState 2} (hG : IdealGas γ G) {d : Fin 2 → ℝ}
    (hd : d 0 ^ 2 + d 1 ^ 2 = 1) (h : eulerFlux γ d G.rho G.rho_u G.rho_E = 0) : False := by
  rw [euler_primitive hG] at h
  have h1 : G.rho * G.u 0 * (G.u ⬝ᵥ d) + G.p * d 0 = 0 := congrFun h 1
  have h2 : G.rho * G.u 1 * (G.u ⬝ᵥ d) + G.p * d 1 = 0 := congrFun h 2
  have e : G.u ⬝ᵥ d = G.u 0 * d 0 + G.u 1 * d 1 := by simp [dotProduct, Fin.sum_univ_two]
  have h3 : G.rho * (G.u ⬝ᵥ d) ^ 2 + G.p = 0 := by
    rw [e] at h1 h2 ⊢
    linear_combination d 0 * h1 + d 1 * h2 - G.p * hd
  have p0 := hG.p_pos
  have r0 := hG.rho_pos
  have : 0 ≤ G.rho * (G.u ⬝ᵥ d) ^ 2 := by positivity
  linarith

/-- **C84** If one side of the boundary of the triangulation has no condition, no uniform flow
solves the discrete equations, whatever the other sides have. -/
theorem C84_missing [DecidableEq E] (hK : K.Conforming) (bcs : Conditions)
    (hC : bcs.regions.Nodup) (x₀ : E × Fin 3) (hx₀ : K.across x₀ = none) (r : Name)
    (hr : K.region x₀ = some r) (hm : bcs.data.get? r = some []) {d : ℕ} (hS : S.Exact d)
    {order : E → ℕ} {orderHat : E × Fin 3 → ℕ}
    {G : GasState 2} (hG : IdealGas γ G) (rs : Riemann) (s : Scheme) (dt : ℝ) (t : ℚ)
    (x cur prev : HdgState 2 4 (E × Fin R.n) ((E × Fin 3) × Fin S.n)) (hR : ∀ q, x.R (x₀, q) = 0)
    (hx : x.IsEuler γ rs (K.mesh R S) (fun _ => gasVec G) (fun _ => gasVec G)) :
    ¬hdgStep (K.mesh R S) ((K.mesh R S).mask bcs) (K.space 4 order orderHat R S) (s.quotient dt) t
      x cur prev := by
  intro h
  have hmask : ∀ q, (K.mesh R S).mask bcs (x₀, q) = 1 := by
    intro q
    obtain ⟨h1, h2⟩ := C68_mask (K.mesh R S) bcs hC (x₀, q)
    refine h1.resolve_left fun h0 => ?_
    obtain ⟨r', l, c, e1, e2, hc, -⟩ := h2.1 h0
    change K.region x₀ = some r' at e1
    rw [hr] at e1
    cases e1
    rw [hm] at e2
    cases e2
    simp at hc
  have hF : ∀ q, x.Fn (x₀, q) = eulerFlux γ (K.normal x₀) G.rho G.rho_u G.rho_E := by
    intro q
    obtain ⟨Uf, h0, h1⟩ := hx.numerical (x₀, q)
    rw [fields_vec hG] at h0
    cases h0
    rw [C28_consistent rs hG (mesh_normal hK (x₀, q))] at h1
    exact (Except.ok.inj h1).symm
  have hsum : ∑ q, S.w q = 1 := by
    have := hS 1 (by simp)
    simpa using this
  refine euler_flux_ne hG (normal_unit K hK x₀) (funext fun i => ?_)
  let φ : PolyTest K 4 order orderHat := ⟨fun _ _ => 0,
    fun y i' => if y = x₀ ∧ i' = i then 1 else 0, fun _ _ => by simp, fun y i' => by
      split_ifs <;> simp, fun y z hyz i' => by
      have h1 : ¬(y = x₀ ∧ i' = i) := by
        rintro ⟨rfl, -⟩
        rw [hx₀] at hyz
        cases hyz
      have h2 : ¬(z = x₀ ∧ i' = i) := by
        rintro ⟨rfl, -⟩
        rw [hK.symm _ _ hyz] at hx₀
        cases hx₀
      rw [if_neg h1, if_neg h2, Polynomial.zero_comp]⟩
  have h1 := h (φ.toTest R S) ⟨φ, rfl⟩
  have hhat : ∀ (g : (E × Fin 3) × Fin S.n → Fin 4 → ℝ),
      ∑ b, (K.mesh R S).wB b * (g b ⬝ᵥ (φ.toTest R S).hat b)
        = ∑ q, (K.mesh R S).wB (x₀, q) * g (x₀, q) i := by
    intro g
    rw [Fintype.sum_prod_type, Finset.sum_eq_single x₀]
    · refine Finset.sum_congr rfl fun q _ => ?_
      congr 1
      rw [dotProduct, Finset.sum_eq_single i]
      · simp [φ, PolyTest.toTest]
      · intro i' _ hi'
        simp [φ, PolyTest.toTest, hi']
      · simp
    · intro y _ hy
      refine Finset.sum_eq_zero fun q _ => ?_
      simp [φ, PolyTest.toTest, hy, dotProduct]
    · simp
  have e' := hhat fun b => -(K.mesh R S).mask bcs b • x.Fn b
  simp only [smul_dotProduct, smul_eq_mul, Pi.smul_apply, hmask, hF] at e'
  have z1 : (φ.toTest R S).val = 0 := by
    funext v i'; simp [φ, PolyTest.toTest]
  have z2 : (φ.toTest R S).grad = 0 := by
    funext v; ext i' j; simp [φ, PolyTest.toTest]
  have z3 : (φ.toTest R S).trace = 0 := by
    funext b i'; simp [φ, PolyTest.toTest]
  have e2 := hhat x.R
  simp only [hR, Pi.zero_apply, mul_zero, Finset.sum_const_zero] at e2
  rw [timeForm, timeForm, convectionForm, diffusionForm, boundaryForm, hx.inviscid.1,
    hx.inviscid.2, z1, z2, z3, e2, e'] at h1
  simp only [frobenius, Pi.zero_apply, Matrix.zero_apply, dotProduct_zero, mul_zero,
    Finset.sum_const_zero, neg_zero, zero_dotProduct, sub_zero, add_zero, zero_add] at h1
  have h2 : K.length x₀ * eulerFlux γ (K.normal x₀) G.rho G.rho_u G.rho_E i = 0 := by
    have e3 : ∑ q, (K.mesh R S).wB (x₀, q)
        * (-1 * eulerFlux γ (K.normal x₀) G.rho G.rho_u G.rho_E i)
        = -(K.length x₀ * eulerFlux γ (K.normal x₀) G.rho G.rho_u G.rho_E i) * ∑ q, S.w q := by
      rw [Finset.mul_sum]
      exact Finset.sum_congr rfl fun q _ => by simp only [Triangulation.mesh]; ring
    rw [e3, hsum] at h1
    linarith
  exact (mul_eq_zero.1 h2).resolve_left (length_pos K hK x₀).ne'

theorem deg_C (a : ℝ) (n : ℕ) : (MvPolynomial.C a : MvPolynomial (Fin 2) ℝ).totalDegree ≤ n := by
  simp

theorem deg_X (i : Fin 2) (n : ℕ) :
    (MvPolynomial.X i : MvPolynomial (Fin 2) ℝ).totalDegree ≤ n + 1 := by
  simp

theorem deg_mul {p q : MvPolynomial (Fin 2) ℝ} {m n : ℕ} (hp : p.totalDegree ≤ m)
    (hq : q.totalDegree ≤ n) : (p * q).totalDegree ≤ m + n :=
  (MvPolynomial.totalDegree_mul _ _).trans (add_le_add hp hq)

theorem deg_add {p q : MvPolynomial (Fin 2) ℝ} {n : ℕ} (hp : p.totalDegree ≤ n)
    (hq : q.totalDegree ≤ n) : (p + q).totalDegree ≤ n :=
  (MvPolynomial.totalDegree_add _ _).trans (max_le hp hq)

open MvPolynomial in
/-- The flux of the rotating gas. -/
def rotatingFlux (γ p₀ ρ ω : ℝ) : Fin 4 → Fin 2 → MvPolynomial (Fin 2) ℝ :=
  let p : MvPolynomial (Fin 2) ℝ := C p₀ + C (ρ * ω ^ 2 / 2) * (X 0 * X 0 + X 1 * X 1)
  let e : MvPolynomial (Fin 2) ℝ := C (γ / (γ - 1)) * p
    + C (ρ * ω ^ 2 / 2) * (X 0 * X 0 + X 1 * X 1)
  ![![C (-(ρ * ω)) * X 1, C (ρ * ω) * X 0],
    ![C (ρ * ω ^ 2) * (X 1 * X 1) + p, C (-(ρ * ω ^ 2)) * (X 0 * X 1)],
    ![C (-(ρ * ω ^ 2)) * (X 0 * X 1), C (ρ * ω ^ 2) * (X 0 * X 0) + p],
    ![C (-ω) * (e * X 1), C ω * (e * X 0)]]

theorem rotatingFlux_degree (γ p₀ ρ ω : ℝ) (i : Fin 4) (j : Fin 2) :
    (rotatingFlux γ p₀ ρ ω i j).totalDegree ≤ 3 := by
  have hq : ∀ a b : Fin 2,
      (MvPolynomial.X a * MvPolynomial.X b : MvPolynomial (Fin 2) ℝ).totalDegree ≤ 2 :=
    fun a b => deg_mul (deg_X a 0) (deg_X b 0)
  have hCq : ∀ (r : ℝ) {p : MvPolynomial (Fin 2) ℝ} {n : ℕ}, p.totalDegree ≤ n →
      (MvPolynomial.C r * p).totalDegree ≤ n := fun r p n hp => by
    simpa using deg_mul (deg_C r 0) hp
  have hp : (MvPolynomial.C p₀ + MvPolynomial.C (ρ * ω ^ 2 / 2)
      * (MvPolynomial.X 0 * MvPolynomial.X 0 + MvPolynomial.X 1 * MvPolynomial.X 1)
      : MvPolynomial (Fin 2) ℝ).totalDegree ≤ 2 :=
    deg_add (deg_C _ _) (hCq _ (deg_add (hq 0 0) (hq 1 1)))
  have he := deg_add (hCq (γ / (γ - 1)) hp) (hCq (ρ * ω ^ 2 / 2) (deg_add (hq 0 0) (hq 1 1)))
  fin_cases i <;> fin_cases j
  · exact hCq _ (deg_X 1 2)
  · exact hCq _ (deg_X 0 2)
  · exact (deg_add (hCq _ (hq 1 1)) hp).trans (by norm_num)
  · exact (hCq _ (hq 0 1)).trans (by norm_num)
  · exact (hCq _ (hq 0 1)).trans (by norm_num)
  · exact (deg_add (hCq _ (hq 0 0)) hp).trans (by norm_num)
  · exact hCq _ (deg_mul he (deg_X 1 0))
  · exact hCq _ (deg_mul he (deg_X 0 0))

theorem rotatingFlux_eval (hγ : 1 < γ) {p₀ ρ : ℝ} (hp : 0 < p₀) (hρ : 0 < ρ) (ω : ℝ)
    (y : Fin 2 → ℝ) :
    eulerTensor γ (rotatingFlow γ p₀ ρ ω y) = evalTensor (rotatingFlux γ p₀ ρ ω) y := by
  ext i j
  simp only [eulerTensor, of_apply, evalTensor, (rotatingFlow_tensor hγ hp hρ ω y).2]
  fin_cases i <;> fin_cases j <;> simp [rotatingFlux] <;> ring

/-- **C84** A rigidly rotating gas is computed exactly on every triangulation: its state is a
polynomial of degree two, and with rules that are exact for the order plus three it solves the
discrete equations of every step, for every Riemann solver, scheme and time step. -/
theorem C84_rotating (hK : K.Conforming) (hper : ∀ x y, K.across x = some y →
      K.start y = K.stop x ∧ K.stop y = K.start x)
    {bcs : Conditions} (hc : K.Covered bcs) {d : ℕ}
    (hR : R.Exact d) (hS : S.Exact (d + 1)) {order : E → ℕ} {orderHat : E × Fin 3 → ℕ}
    (ho : ∀ e, 3 + order e ≤ d + 1) (ho' : ∀ x, 3 + orderHat x ≤ d + 1)
    (hγ : 1 < γ) {p₀ ρ : ℝ} (hp : 0 < p₀) (hρ : 0 < ρ) (ω : ℝ) (rs : Riemann)
    (x : HdgState 2 4 (E × Fin R.n) ((E × Fin 3) × Fin S.n))
    (hU : ∀ v, x.U v = conserved (rotatingFlow γ p₀ ρ ω (K.pos R v)))
    (hx : x.IsEuler γ rs (K.mesh R S) (fun b => conserved (rotatingFlow γ p₀ ρ ω (K.posB S b)))
      (fun b => conserved (rotatingFlow γ p₀ ρ ω (K.posB S b))))
    (hB : ∀ b, Matching γ (rotatingFlow γ p₀ ρ ω (K.posB S b)) (K.normal b.1) (x.R b))
    (hsrc : ∀ v, x.source v = 0) (s : Scheme) (dt : ℝ) (t : ℚ) :
    (∃ W : Fin 4 → MvPolynomial (Fin 2) ℝ, (∀ i, (W i).totalDegree ≤ 2) ∧
      ∀ v i, x.U v i = MvPolynomial.eval (K.pos R v) (W i)) ∧
    hdgStep (K.mesh R S) ((K.mesh R S).mask bcs) (K.space 4 order orderHat R S) (s.quotient dt) t
      x x x := by
  constructor
  · have h1 : γ - 1 ≠ 0 := by linarith
    refine ⟨![MvPolynomial.C ρ, MvPolynomial.C (-(ρ * ω)) * MvPolynomial.X 1,
      MvPolynomial.C (ρ * ω) * MvPolynomial.X 0, MvPolynomial.C (p₀ / (γ - 1))
        + MvPolynomial.C (ρ * ω ^ 2 / 2 / (γ - 1) + ρ * ω ^ 2 / 2)
          * (MvPolynomial.X 0 * MvPolynomial.X 0 + MvPolynomial.X 1 * MvPolynomial.X 1)], ?_, ?_⟩
    · have hq : ∀ a b : Fin 2,
          (MvPolynomial.X a * MvPolynomial.X b : MvPolynomial (Fin 2) ℝ).totalDegree ≤ 2 :=
        fun a b => deg_mul (deg_X a 0) (deg_X b 0)
      have hCq : ∀ (r : ℝ) {p : MvPolynomial (Fin 2) ℝ} {n : ℕ}, p.totalDegree ≤ n →
          (MvPolynomial.C r * p).totalDegree ≤ n := fun r p n hp => by
        simpa using deg_mul (deg_C r 0) hp
      intro i
      fin_cases i
      · exact deg_C _ _
      · exact hCq _ (deg_X 1 1)
      · exact hCq _ (deg_X 0 1)
      · exact deg_add (deg_C _ _) (hCq _ (deg_add (hq 0 0) (hq 1 1)))
    · intro v i
      rw [hU]
      have h2 := hρ.ne'
      fin_cases i
      · simp [conserved, rotatingFlow, GasState.of]
      · simp [conserved, rotatingFlow, GasState.of]
        ring
      · simp [conserved, rotatingFlow, GasState.of]
        ring
      · simp [conserved, rotatingFlow, GasState.of, dotProduct, Fin.sum_univ_two]
        field_simp
        ring
  · refine C84_steady hK hc hR hS ho ho' isOpen_univ (C80_rotating_flow hγ hp hρ ω)
      (rotatingFlux γ p₀ ρ ω) (rotatingFlux_degree γ p₀ ρ ω)
      (fun y _ => rotatingFlux_eval hγ hp hρ ω y) (fun a b hab τ i j => ?_) (fun _ => trivial)
      (fun _ => trivial) rs x hU hx hB (fun _ => 0) (fun v => ?_) s dt t
    · obtain ⟨h1, h2⟩ := hper a b hab
      congr 2
      rw [Triangulation.sidePoint, Triangulation.sidePoint, h1, h2]
      funext k
      simp
      ring
    · rw [spongeResidual, stateVec_dict, hsrc v]
      simp [bind, Except.bind]

section Instances

/-- The unit square cut along a diagonal; if `per`, the left and right sides are identified. -/
def squareMesh (per : Bool) : Triangulation Bool where
  corner := fun e => if e then ![![0, 0], ![1, 1], ![0, 1]] else ![![0, 0], ![1, 0], ![1, 1]]
  across := fun
    | (false, 0) => none
    | (false, 1) => if per then some (true, 2) else none
    | (false, 2) => some (true, 0)
    | (true, 0) => some (false, 2)
    | (true, 1) => none
    | (true, 2) => if per then some (false, 1) else none
  region := fun
    | (false, 0) => some "w".toList
    | (false, 1) => some "r".toList
    | (false, 2) => none
    | (true, 0) => none
    | (true, 1) => some "w".toList
    | (true, 2) => some "l".toList

/-- Walls above and below; left and right periodic or outflow. -/
def squareConditions (per : Bool) : Conditions where
  data := [("w".toList, [⟨0, .inviscidWall⟩]),
    ("r".toList, [⟨1, if per then .periodic else .outflow⟩]),
    ("l".toList, [⟨2, if per then .periodic else .outflow⟩])]
  options := []
  next := 3

theorem squareMesh_conforming (per : Bool) : (squareMesh per).Conforming := by
  constructor
  · rintro (_ | _)
    · show 0 < Spec.area2 ![0, 0] ![1, 0] ![1, 1]
      norm_num [Spec.area2]
    · show 0 < Spec.area2 ![0, 0] ![1, 1] ![0, 1]
      norm_num [Spec.area2]
  · rintro ⟨_ | _, i⟩ ⟨_ | _, j⟩ h <;> cases per <;> fin_cases i <;> fin_cases j <;>
      simp_all [squareMesh]
  · rintro ⟨_ | _, i⟩ ⟨_ | _, j⟩ h <;> cases per <;> fin_cases i <;> fin_cases j <;>
      simp [squareMesh] at h
    · exact ⟨0, by simp [squareMesh, Triangulation.start, Triangulation.stop],
        by simp [squareMesh, Triangulation.start, Triangulation.stop]⟩
    · exact ⟨![-1, 0], by simp [squareMesh, Triangulation.start, Triangulation.stop],
        by simp [squareMesh, Triangulation.start, Triangulation.stop]⟩
    · exact ⟨0, by simp [squareMesh, Triangulation.start, Triangulation.stop],
        by simp [squareMesh, Triangulation.start, Triangulation.stop]⟩
    · exact ⟨0, by simp [squareMesh, Triangulation.start, Triangulation.stop],
        by simp [squareMesh, Triangulation.start, Triangulation.stop]⟩
    · exact ⟨0, by simp [squareMesh, Triangulation.start, Triangulation.stop],
        by simp [squareMesh, Triangulation.start, Triangulation.stop]⟩
    · exact ⟨![1, 0], by simp [squareMesh, Triangulation.start, Triangulation.stop],
        by simp [squareMesh, Triangulation.start, Triangulation.stop]⟩

theorem squareMesh_covered (per : Bool) : (squareMesh per).Covered (squareConditions per) := by
  constructor
  · cases per <;> decide
  · rintro ⟨_ | _, i⟩ h <;> cases per <;> fin_cases i <;> simp [squareMesh] at h
    all_goals first
      | exact ⟨"w".toList, _, _, rfl, rfl, List.mem_singleton_self _, by decide⟩
      | exact ⟨"r".toList, _, _, rfl, rfl, List.mem_singleton_self _, by decide⟩
      | exact ⟨"l".toList, _, _, rfl, rfl, List.mem_singleton_self _, by decide⟩
  · rintro ⟨_ | _, i⟩ h <;> cases per <;> fin_cases i <;> simp [squareMesh] at h
    all_goals first
      | exact .inl rfl
      | exact .inr ⟨"r".toList, _, _, rfl, rfl, List.mem_singleton_self _, by decide⟩
      | exact .inr ⟨"l".toList, _, _, rfl, rfl, List.mem_singleton_self _, by decide⟩

/-- C84, concrete instance: uniform flow through the periodic channel, with quadratic elements. All
hypotheses of `C84_gauss`, `C84_gauss_mixed`, `C84_constants` and `C84_uniform` hold. -/
example (rs : Riemann) (s : Scheme) (dt : ℝ) (ts : List ℚ) : ∃ (R : VolumeRule) (S : SideRule)
    (x : HdgState 2 4 (Bool × Fin R.n) ((Bool × Fin 3) × Fin S.n)),
    (∀ v, x.U v = gasVec airState) ∧
    Satisfies (hdgStep ((squareMesh true).mesh R S)
      (((squareMesh true).mesh R S).mask (squareConditions true))
      ((squareMesh true).space 4 (fun _ => 2) (fun _ => 2) R S) (s.quotient dt)) x x ts
      (List.replicate ts.length x) := by
  obtain ⟨R, hR⟩ := C84_volume_rules 1
  obtain ⟨S, hS⟩ := C84_side_rules 2
  have hK := squareMesh_conforming true
  refine ⟨R, S, eulerSample (7 / 5) ((squareMesh true).mesh R S) ((squareMesh true).pos R)
    ((squareMesh true).posB S) fun _ => airState, fun v => conserved_eq _, ?_⟩
  exact C84_uniform hK (squareMesh_covered true) hR hS (fun _ => le_rfl) (fun _ => le_rfl)
    airState_ideal rs s dt ts _ (fun _ => conserved_eq _)
    (conserved_eq airState ▸ eulerSample_isEuler rs _ (mesh_normal hK) _ _ (fun _ => airState_ideal)
      fun _ => airState_ideal) (fun _ => Matching.nothing) 0
    fun v => by simp [spongeResidual, stateVec_dict, bind, Except.bind, eulerSample]

/-- C84, concrete instance: a gas rotating with angular velocity 3 in the square with walls, with
elements of order four. All hypotheses of `C84_rotating`, and so of `C84_steady` and `C84_defect`,
hold. -/
example (rs : Riemann) (s : Scheme) (dt : ℝ) (t : ℚ) : ∃ (R : VolumeRule) (S : SideRule)
    (x : HdgState 2 4 (Bool × Fin R.n) ((Bool × Fin 3) × Fin S.n)),
    hdgStep ((squareMesh false).mesh R S)
      (((squareMesh false).mesh R S).mask (squareConditions false))
      ((squareMesh false).space 4 (fun _ => 4) (fun _ => 4) R S) (s.quotient dt) t x x x := by
  obtain ⟨R, hR⟩ := C84_volume_rules 6
  obtain ⟨S, hS⟩ := C84_side_rules 7
  have hK := squareMesh_conforming false
  have hγ : (1 : ℝ) < 7 / 5 := by norm_num
  refine ⟨R, S, eulerSample (7 / 5) ((squareMesh false).mesh R S) ((squareMesh false).pos R)
    ((squareMesh false).posB S) (rotatingFlow (7 / 5) 1 2 3), ?_⟩
  have hi := fun y => (rotatingFlow_tensor hγ one_pos two_pos 3 y).1
  refine (C84_rotating hK ?_ (squareMesh_covered false) hR hS (fun _ => le_rfl)
    (fun _ => le_rfl) hγ one_pos two_pos 3 rs _ (fun _ => rfl)
    (eulerSample_isEuler rs _ (mesh_normal hK) _ _ (fun _ => hi _)
      fun _ => hi _) (fun _ => Matching.nothing) (fun _ => rfl) s dt t).2
  rintro ⟨_ | _, i⟩ ⟨_ | _, j⟩ h <;> fin_cases i <;> fin_cases j <;> simp [squareMesh] at h
  · exact ⟨by simp [squareMesh, Triangulation.start, Triangulation.stop],
      by simp [squareMesh, Triangulation.start, Triangulation.stop]⟩
  · exact ⟨by simp [squareMesh, Triangulation.start, Triangulation.stop],
      by simp [squareMesh, Triangulation.start, Triangulation.stop]⟩

/-- C84, concrete instance: the square whose lower side has lost its condition. All hypotheses of
`C84_missing` hold. -/
example (rs : Riemann) (s : Scheme) (dt : ℝ) (t : ℚ) (R : VolumeRule) {S : SideRule}
    (hS : S.Exact 0) :
    let bcs : Conditions := ⟨[("w".toList, []), ("r".toList, [⟨1, .outflow⟩]),
      ("l".toList, [⟨2, .outflow⟩])], [], 3⟩
    let x := eulerSample (7 / 5) ((squareMesh false).mesh R S) ((squareMesh false).pos R)
      ((squareMesh false).posB S) fun _ => airState
    ¬hdgStep ((squareMesh false).mesh R S) (((squareMesh false).mesh R S).mask bcs)
      ((squareMesh false).space 4 (fun _ => 4) (fun _ => 4) R S) (s.quotient dt) t x x x := by
  intro bcs x
  have hK := squareMesh_conforming false
  exact C84_missing hK bcs (by decide) (false, 0) rfl "w".toList rfl rfl hS airState_ideal rs s dt t
    x x x (fun _ => rfl) (conserved_eq airState ▸ eulerSample_isEuler rs _ (mesh_normal hK) _ _
      (fun _ => airState_ideal) fun _ => airState_ideal)

/-- C84, concrete instance: the integral of a quadratic density over the square. All hypotheses of
`C84_total` hold. -/
example {R : VolumeRule} {S : SideRule} (hR : R.Exact 2)
    (x : HdgState 2 1 (Bool × Fin R.n) ((Bool × Fin 3) × Fin S.n))
    (hU : ∀ v, x.U v 0 = ((squareMesh false).pos R v 0) ^ 2) :
    x.total ((squareMesh false).mesh R S) 0 = ∑ e, ∫ y in triangle ((squareMesh false).corner e 0)
      ((squareMesh false).corner e 1) ((squareMesh false).corner e 2), y 0 ^ 2 := by
  have := C84_total (S := S) (squareMesh_conforming false) hR
    (fun _ _ => MvPolynomial.X 0 ^ 2) (fun _ _ => by simp) x (fun v i => by
      fin_cases i; simpa using hU v) 0
  simpa using this

/-- C84, concrete instance: viscous uniform flow through the periodic channel. All hypotheses of
`C84_uniform_viscous` hold. -/
example (rs : Riemann) (s : Scheme) (dt : ℝ) (t : ℚ) : ∃ (R : VolumeRule) (S : SideRule)
    (x : HdgState 2 4 (Bool × Fin R.n) ((Bool × Fin 3) × Fin S.n)),
    hdgStep ((squareMesh true).mesh R S)
      (((squareMesh true).mesh R S).mask (squareConditions true))
      ((squareMesh true).space 4 (fun _ => 2) (fun _ => 2) R S) (s.quotient dt) t x x x := by
  obtain ⟨R, hR⟩ := C84_volume_rules 1
  obtain ⟨S, hS⟩ := C84_side_rules 2
  have hK := squareMesh_conforming true
  have hv : demoCfg.visc ≠ .inviscid := by simp [demoCfg]
  have hM : 0 < demoCfg.Ma := by norm_num [demoCfg]
  have hG : IdealGas demoCfg.γ airState := airState_ideal
  have hx := eulerSample_isEuler rs ((squareMesh true).mesh R S) (mesh_normal hK)
    ((squareMesh true).pos R) ((squareMesh true).posB S) (W := fun _ => airState) (fun _ => hG)
    fun _ => hG
  refine ⟨R, S, _, (C84_uniform_viscous hK (squareMesh_covered true) hR hS (fun _ => le_rfl)
    (fun _ => le_rfl) demoCfg_accepted hv hM hG rs s dt t (eulerSample (7 / 5)
      ((squareMesh true).mesh R S) ((squareMesh true).pos R) ((squareMesh true).posB S)
      fun _ => airState) (fun _ => conserved_eq _) ⟨fun v => ?_, fun b => ?_⟩
    (fun _ => .inviscid Matching.nothing) 0
    fun v => by simp [spongeResidual, stateVec_dict, bind, Except.bind, eulerSample]).1⟩
  · obtain ⟨U, h1, h2⟩ := hx.flux v
    have h1' := fields_vec hG
    change getConservativeFields demoCfg.γ (conserved airState 0) ![conserved airState 1,
      conserved airState 2] (conserved airState 3) = _ at h1
    rw [conserved_eq, h1'] at h1
    cases h1
    obtain ⟨F, hF, -⟩ := C56_consistent demoCfg_accepted hv hM hG (0 : Fin 5 → ℝ) (gasVec airState) 0
    refine ⟨_, ?_, h2, ?_⟩
    · show getConservativeFields demoCfg.γ (conserved airState 0) ![conserved airState 1,
        conserved airState 2] (conserved airState 3) = _
      rw [conserved_eq, h1']
    · show diffusiveFlux demoCfg (conservativeDict airState) (strainHeatFields 0) = .ok 0
      rw [hF, diffusive_zero demoCfg_accepted hv hM hG hF]
  · obtain ⟨U, h1, h2⟩ := hx.numerical b
    have h1' := fields_vec hG
    change getConservativeFields demoCfg.γ (conserved airState 0) ![conserved airState 1,
      conserved airState 2] (conserved airState 3) = _ at h1
    rw [conserved_eq, h1'] at h1
    cases h1
    obtain ⟨F, hF, h3⟩ := C56_consistent demoCfg_accepted hv hM hG (0 : Fin 5 → ℝ)
      (gasVec airState) (((squareMesh true).mesh R S).normal b)
    rw [conserved_eq] at h2
    refine ⟨_, h1', h2, ?_⟩
    show diffusiveNumericalFlux demoCfg (gasVec airState) (gasVec airState)
      (conservativeDict airState) (strainHeatFields 0) _ = .ok 0
    rw [h3, diffusive_zero demoCfg_accepted hv hM hG hF, zero_mulVec]

/-- C84, concrete instance: gas sliding along the walls of the periodic channel. All hypotheses of
`C84_container` hold. -/
example (rs : Riemann) (s : Scheme) (ts : List ℚ) :
    let G := GasState.of (7 / 5) 2 ![1, 0] 1
    ∃ (R : VolumeRule) (S : SideRule)
    (x : HdgState 2 4 (Bool × Fin R.n) ((Bool × Fin 3) × Fin S.n)), R.Exact 1 ∧
      (∀ v i, x.U v i = MvPolynomial.eval ((squareMesh true).pos R v)
        (MvPolynomial.C (gasVec G i))) ∧ (∀ b, x.R b = 0 ∧ x.Gn b = 0) ∧ (∀ v, x.source v = 0) ∧
      (∀ b, (squareMesh true).across b.1 = none →
        AtWall (7 / 5) rs ((squareMesh true).normal b.1) (x.Fn b)) ∧
      Satisfies (hdgStep ((squareMesh true).mesh R S)
        (((squareMesh true).mesh R S).mask (squareConditions true))
        ((squareMesh true).space 4 (fun _ => 2) (fun _ => 2) R S) (s.quotient 1)) x x ts
        (List.replicate ts.length x) := by
  intro G
  obtain ⟨R, hR⟩ := C84_volume_rules 1
  obtain ⟨S, hS⟩ := C84_side_rules 2
  have hK := squareMesh_conforming true
  have hG : IdealGas (7 / 5) G := IdealGas.of (by norm_num) two_pos one_pos
  have hx := eulerSample_isEuler rs ((squareMesh true).mesh R S) (mesh_normal hK)
    ((squareMesh true).pos R) ((squareMesh true).posB S) (W := fun _ => G) (fun _ => hG)
    fun _ => hG
  refine ⟨R, S, eulerSample (7 / 5) ((squareMesh true).mesh R S) ((squareMesh true).pos R)
    ((squareMesh true).posB S) fun _ => G, hR, fun v i => by simp [eulerSample, conserved_eq],
    fun b => ⟨rfl, rfl⟩, fun v => rfl, fun b hb => ?_,
    C84_uniform hK (squareMesh_covered true) hR hS (fun _ => le_rfl) (fun _ => le_rfl)
      hG rs s 1 ts _ (fun _ => conserved_eq _) (conserved_eq G ▸ hx) (fun _ => Matching.nothing) 0
      fun v => by simp [spongeResidual, stateVec_dict, bind, Except.bind, eulerSample]⟩
  have hd : ∀ y, (squareMesh true).across y = none → G.u ⬝ᵥ (squareMesh true).normal y = 0 := by
    rintro ⟨_ | _, i⟩ h <;> fin_cases i <;> simp [squareMesh] at h
    · simp [G, GasState.of, dotProduct, Fin.sum_univ_two, Triangulation.normal, squareMesh,
        Triangulation.start, Triangulation.stop]
    · simp [G, GasState.of, dotProduct, Fin.sum_univ_two, Triangulation.normal, squareMesh,
        Triangulation.start, Triangulation.stop]
  obtain ⟨U, h1, h2⟩ := hx.numerical b
  have hn : (squareMesh true).normal b.1 0 ^ 2 + (squareMesh true).normal b.1 1 ^ 2 = 1 :=
    normal_unit _ hK b.1
  obtain ⟨W, h3, h4⟩ := C33_inviscid_wall (γ := 7 / 5) (S := G)
    (nrm := (squareMesh true).normal b.1) (by
      simpa [dotProduct, Fin.sum_univ_two, sq] using hn) G.rho G.rho_E G.rho_u
  rw [h4.2 ⟨rfl, rfl, by
    show ((2 : ℝ) • G.u) ⬝ᵥ _ = 0
    rw [smul_dotProduct, hd _ hb, smul_zero], fun _ _ => rfl⟩] at h3
  refine ⟨G, conserved G, U, hG, ?_, h1, ?_⟩
  · rw [conserved_eq]
    exact h3
  · rw [conserved_eq] at h2 ⊢
    exact h2

end Instances

end Dream
