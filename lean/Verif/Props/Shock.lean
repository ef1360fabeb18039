import Verif.Spec.Shock
import Verif.Props.TriangulationFlows
import Verif.Props.ShortStepsMesh

/-!
# C105: standing shocks
-/

noncomputable section

namespace Dream
open Matrix _root_.Spec

variable {γ : ℝ} {A P S : GasState 2} {d : Fin 2 → ℝ}

theorem _root_.Spec.StandingShock.flux (h : StandingShock γ d A P) :
    eulerFlux γ d A.rho A.rho_u A.rho_E = eulerFlux γ d P.rho P.rho_u P.rho_E := by
  have e : ∀ {X : GasState 2}, IdealGas γ X → X.rho_E + X.p = X.rho * X.H := by
    intro X hX
    rw [hX.enthalpy, hX.rho_E, mul_add, mul_div_cancel₀ _ hX.rho_pos.ne']
  rw [euler_primitive h.ahead, euler_primitive h.behind, e h.ahead, e h.behind]
  have h0 := h.momentum 0
  have h1 := h.momentum 1
  have h2 := h.energy
  funext i
  fin_cases i
  · exact h.mass
  · show A.rho * A.u 0 * (A.u ⬝ᵥ d) + A.p * d 0 = P.rho * P.u 0 * (P.u ⬝ᵥ d) + P.p * d 0
    linarith
  · show A.rho * A.u 1 * (A.u ⬝ᵥ d) + A.p * d 1 = P.rho * P.u 1 * (P.u ⬝ᵥ d) + P.p * d 1
    linarith
  · show A.rho * A.H * (A.u ⬝ᵥ d) = P.rho * P.H * (P.u ⬝ᵥ d)
    linarith

/-- The Riemann solvers that see from where the gas comes. -/
def Riemann.Sided (rs : Riemann) : Prop := rs ≠ .laxFriedrich ∧ rs ≠ .roe

theorem Riemann.Sided.sigma_zero {rs : Riemann} (hrs : rs.Sided) {c : ℝ} (c0 : 0 < c)
    {u : Fin 2 → ℝ} (h : u ⬝ᵥ d + c ≤ 0) : rs.sigma c u d = 0 := by
  cases rs with
  | upwind =>
    funext i
    show max (lams c u d i) 0 = 0
    refine max_eq_right ?_
    fin_cases i
    · show u ⬝ᵥ d - c ≤ 0; linarith
    · show u ⬝ᵥ d ≤ 0; linarith
    · show u ⬝ᵥ d ≤ 0; linarith
    · exact h
  | laxFriedrich => exact (hrs.1 rfl).elim
  | roe => exact (hrs.2 rfl).elim
  | hll =>
    funext i
    exact max_eq_right h
  | hllem θ₀ =>
    show max (u ⬝ᵥ d + c) 0 • _ = _
    rw [max_eq_right h, zero_smul]

theorem Riemann.sigma_pos (rs : Riemann) {c : ℝ} {u : Fin 2 → ℝ} (c0 : 0 < c) (h : c < u ⬝ᵥ d)
    (i : Fin 4) : 0 < rs.sigma c u d i := by
  refine lt_of_lt_of_le (lt_of_lt_of_le ?_ (le_max_left _ _)) (rs.sigma_ge c0 i)
  fin_cases i
  · show 0 < u ⬝ᵥ d - c; linarith
  · show 0 < u ⬝ᵥ d; linarith
  · show 0 < u ⬝ᵥ d; linarith
  · show 0 < u ⬝ᵥ d + c; linarith

/-- **C105.** Supersonic inflow: with Upwind, HLL and HLLEM nothing inside the element influences
the flux through a side through which gas comes in faster than sound. -/
theorem C105_inflow {rs : Riemann} (hrs : rs.Sided) (hS : IdealGas γ S)
    (hd : d 0 ^ 2 + d 1 ^ 2 = 1) (h : S.u ⬝ᵥ d ≤ -S.c) (w w' : Fin 4 → ℝ) :
    convectiveNumericalFlux γ rs w w' (conservativeDict S) d
      = .ok (eulerFlux γ d S.rho S.rho_u S.rho_E) := by
  obtain ⟨τ, h1, h2⟩ := C28_flux rs hS hd w w'
  have h3 := rs.tau_eq (U := conservativeDict S) (d := d) hS.gamma rfl rfl rfl hS.rho_pos
    hS.sound_pos hd
  rw [h1] at h3
  rw [h2, Except.ok.inj h3, hrs.sigma_zero hS.sound_pos (by linarith)]
  simp

/-- **C105.** Standing shock on a side: with the gas ahead of the shock as facet value, both
triangles see their own flux; `d` points from the gas ahead to the gas behind. -/
theorem C105_facet {rs : Riemann} (hrs : rs.Sided) (h : StandingShock γ d A P)
    (hd : d 0 ^ 2 + d 1 ^ 2 = 1) :
    convectiveNumericalFlux γ rs (gasVec A) (gasVec A) (conservativeDict A) d
      = .ok (eulerFlux γ d A.rho A.rho_u A.rho_E) ∧
    convectiveNumericalFlux γ rs (gasVec P) (gasVec A) (conservativeDict A) (-d)
      = .ok (eulerFlux γ (-d) P.rho P.rho_u P.rho_E) := by
  refine ⟨C28_consistent rs h.ahead hd _, ?_⟩
  rw [C105_inflow hrs h.ahead (by simpa using hd)
    (by rw [dotProduct_neg]; linarith [h.supersonic]), euler_neg, euler_neg, h.flux]

/-- **C105.** The facet value is determined: of all facet values that come faster than sound, only
the gas ahead of the shock lets pass what it receives. -/
theorem C105_determined {rs : Riemann} (hrs : rs.Sided) (hS : IdealGas γ S)
    (hd : d 0 ^ 2 + d 1 ^ 2 = 1) (hs : S.c < S.u ⬝ᵥ d) (a p : Fin 4 → ℝ) {f g : Fin 4 → ℝ}
    (hf : convectiveNumericalFlux γ rs a (gasVec S) (conservativeDict S) d = .ok f)
    (hg : convectiveNumericalFlux γ rs p (gasVec S) (conservativeDict S) (-d) = .ok g)
    (ht : f + g = 0) : a = gasVec S := by
  rw [C105_inflow hrs hS (by simpa using hd) (by rw [dotProduct_neg]; linarith), euler_neg] at hg
  obtain ⟨τ, h1, h2⟩ := C28_flux rs hS hd a (gasVec S)
  have h3 := rs.tau_eq (U := conservativeDict S) (d := d) hS.gamma rfl rfl rfl hS.rho_pos
    hS.sound_pos hd
  rw [h1] at h3
  rw [h2] at hf
  have hf := Except.ok.inj hf
  have hg := Except.ok.inj hg
  rw [← hf, ← hg, Except.ok.inj h3] at ht
  have e : (matP γ S.rho S.c S.u d * diagonal (rs.sigma S.c S.u d) * matPinv γ S.rho S.c S.u d)
      *ᵥ (a - gasVec S) = 0 := by
    rw [← ht]
    abel
  have g1 : γ - 1 ≠ 0 := by linarith [hS.gamma]
  have hQ := Pinv_mul_P (u := S.u) hS.rho_pos.ne' hS.sound_pos.ne' (γ := γ) g1 hd
  have hP := P_mul_Pinv (u := S.u) hS.rho_pos.ne' hS.sound_pos.ne' (γ := γ) g1 hd
  obtain ⟨v, hv⟩ : ∃ v, v = matPinv γ S.rho S.c S.u d *ᵥ (a - gasVec S) := ⟨_, rfl⟩
  have e' : diagonal (rs.sigma S.c S.u d) *ᵥ v = 0 := by
    have := congrArg (fun z => matPinv γ S.rho S.c S.u d *ᵥ z) e
    simp only [mulVec_mulVec, ← Matrix.mul_assoc, hQ, Matrix.one_mul, mulVec_zero] at this
    rw [hv, mulVec_mulVec]
    exact this
  have v0 : v = 0 := by
    funext i
    have := congrFun e' i
    rw [mulVec_diagonal] at this
    exact (mul_eq_zero.1 this).resolve_left (rs.sigma_pos hS.sound_pos hs i).ne'
  have := congrArg (fun z => matP γ S.rho S.c S.u d *ᵥ z) hv
  simp only [mulVec_mulVec, hP, one_mulVec, v0, mulVec_zero] at this
  exact sub_eq_zero.1 this.symm

/-! ## On triangulations -/

section Mesh

variable {E : Type} [Fintype E] {K : Triangulation E} {R : VolumeRule} {Q : SideRule}

/-- Facet integrals of what leaves one triangle and enters the other cancel. -/
theorem facet_cancel_flux (hK : K.Conforming) {bcs : Conditions} (hc : K.Covered bcs) {d : ℕ}
    (hQ : Q.Exact d) (r : E × Fin 3 → Polynomial ℝ) (hd : ∀ x, (r x).natDegree ≤ d)
    (hr : ∀ x y, K.across x = some y → r y = (r x).comp (1 - Polynomial.X)) (f : E × Fin 3 → ℝ)
    (hf : ∀ x y, K.across x = some y → f y = -f x) :
    ∑ b, (K.mesh R Q).wB b * ((K.mesh R Q).mask bcs b * (f b.1 * (r b.1).eval (Q.pt b.2))) = 0 := by
  have hx : ∀ x, ∑ q, (K.mesh R Q).wB (x, q) * ((K.mesh R Q).mask bcs (x, q)
        * (f x * (r x).eval (Q.pt q)))
      = if K.across x = none then 0 else
          K.length x * f x * ∫ s in (0 : ℝ)..1, (r x).eval s := by
    intro x
    split_ifs with h
    · exact Finset.sum_eq_zero fun q _ => by rw [hc.mask_zero (R := R) (x, q) h]; ring
    · rw [← hQ _ (hd x), Finset.mul_sum]
      refine Finset.sum_congr rfl fun q _ => ?_
      rw [hc.mask_one (R := R) (x, q) h]
      simp only [Triangulation.mesh]
      ring
  rw [Fintype.sum_prod_type, Finset.sum_congr rfl fun x _ => hx x]
  refine Finset.sum_involution (fun x _ => (K.across x).getD x) ?_ ?_ (by simp) ?_
  · intro x _
    cases h : K.across x with
    | none => simp [h]
    | some y =>
      have hy := hK.symm x y h
      have hi : ∫ s in (0 : ℝ)..1, (r y).eval s = ∫ s in (0 : ℝ)..1, (r x).eval s := by
        have := intervalIntegral.integral_comp_sub_left (a := 0) (b := 1)
          (fun s : ℝ => (r x).eval s) 1
        rw [sub_self, sub_zero] at this
        rw [← this, hr x y h]
        simp
      simp only [Option.getD_some, hy, reduceCtorEq, if_false, hi, hf x y h,
        (across_normal hK h).1]
      ring
  · intro x _ hne he
    cases h : K.across x with
    | none => simp [h] at hne
    | some y =>
      rw [h, Option.getD_some] at he
      subst he
      have := hf y y h
      have h0 : f y = 0 := by linarith
      simp [h0] at hne
  · intro x _
    cases h : K.across x with
    | none => simp [h]
    | some y => simp [hK.symm x y h]

/-- The convective terms vanish for a flux that is constant in every triangle and whose normal
components fit together. -/
theorem convection_piecewise (hK : K.Conforming) {bcs : Conditions} (hc : K.Covered bcs) {d : ℕ}
    (hR : R.Exact d) (hQ : Q.Exact (d + 1)) {order : E → ℕ} {orderHat : E × Fin 3 → ℕ}
    (ho : ∀ e, order e ≤ d + 1) (ho' : ∀ x, orderHat x ≤ d + 1)
    (F : E → Matrix (Fin 4) (Fin 2) ℝ)
    (hF : ∀ x y, K.across x = some y → F y.1 *ᵥ K.normal y = -(F x.1 *ᵥ K.normal x))
    (φ : PolyTest K 4 order orderHat) :
    convectionForm (K.mesh R Q) ((K.mesh R Q).mask bcs) (fun v => F v.1)
      (fun b => F b.1.1 *ᵥ K.normal b.1) (φ.toTest R Q) = 0 := by
  have hdiv : ∀ i j, ∑ v, (K.mesh R Q).wV v * (F v.1 i j * MvPolynomial.eval (K.pos R v)
        (MvPolynomial.pderiv j (φ.V v.1 i)))
      = ∑ b, (K.mesh R Q).wB b * (F b.1.1 i j * (MvPolynomial.eval (K.posB Q b) (φ.V b.1.1 i)
        * K.normal b.1 j)) := by
    intro i j
    have := mesh_divergence hK hR hQ (fun e => MvPolynomial.C (F e i j) * φ.V e i) (fun e =>
      (MvPolynomial.totalDegree_mul _ _).trans (by
        rw [MvPolynomial.totalDegree_C, zero_add]
        exact (φ.degree e i).trans (ho e))) j
    simp only [MvPolynomial.pderiv_C_mul, map_mul, MvPolynomial.eval_C, mul_assoc] at this
    exact this
  have hcan : ∀ i, ∑ b, (K.mesh R Q).wB b * ((K.mesh R Q).mask bcs b
      * ((F b.1.1 *ᵥ K.normal b.1) i * (φ.hat b.1 i).eval (Q.pt b.2))) = 0 := fun i =>
    facet_cancel_flux hK hc hQ (fun x => φ.hat x i) (fun x => (φ.degreeHat x i).trans (ho' x))
      (fun x y h => φ.single x y h i) (fun x => (F x.1 *ᵥ K.normal x) i)
      (fun x y h => by rw [hF x y h]; rfl)
  have e1 : ∑ v, (K.mesh R Q).wV v * -frobenius (F v.1) ((φ.toTest R Q).grad v)
      = -∑ i, ∑ j, ∑ v, (K.mesh R Q).wV v * (F v.1 i j * MvPolynomial.eval (K.pos R v)
        (MvPolynomial.pderiv j (φ.V v.1 i))) := by
    have h0 : ∀ v, (K.mesh R Q).wV v * -frobenius (F v.1) ((φ.toTest R Q).grad v)
        = -∑ i, ∑ j, (K.mesh R Q).wV v * (F v.1 i j * MvPolynomial.eval (K.pos R v)
        (MvPolynomial.pderiv j (φ.V v.1 i))) := by
      intro v
      rw [frobenius, mul_neg, Finset.mul_sum]
      congr 1
      exact Finset.sum_congr rfl fun i _ => by rw [Finset.mul_sum]; rfl
    rw [Finset.sum_congr rfl fun v _ => h0 v, Finset.sum_neg_distrib, Finset.sum_comm]
    congr 1
    exact Finset.sum_congr rfl fun i _ => Finset.sum_comm
  have e2 : ∑ b, (K.mesh R Q).wB b * ((F b.1.1 *ᵥ K.normal b.1) ⬝ᵥ (φ.toTest R Q).trace b)
      = ∑ i, ∑ j, ∑ b, (K.mesh R Q).wB b * (F b.1.1 i j * (MvPolynomial.eval (K.posB Q b)
        (φ.V b.1.1 i) * K.normal b.1 j)) := by
    have h0 : ∀ b, (K.mesh R Q).wB b * ((F b.1.1 *ᵥ K.normal b.1) ⬝ᵥ (φ.toTest R Q).trace b)
        = ∑ i, ∑ j, (K.mesh R Q).wB b * (F b.1.1 i j * (MvPolynomial.eval (K.posB Q b)
        (φ.V b.1.1 i) * K.normal b.1 j)) := by
      intro b
      rw [flux_dot, Finset.mul_sum]
      exact Finset.sum_congr rfl fun i _ => by rw [Finset.mul_sum]; rfl
    rw [Finset.sum_congr rfl fun b _ => h0 b, Finset.sum_comm]
    exact Finset.sum_congr rfl fun i _ => Finset.sum_comm
  have e3 : ∑ b, (K.mesh R Q).wB b * (-(K.mesh R Q).mask bcs b
        * ((F b.1.1 *ᵥ K.normal b.1) ⬝ᵥ (φ.toTest R Q).hat b)) = 0 := by
    have h0 : ∀ b, (K.mesh R Q).wB b * (-(K.mesh R Q).mask bcs b
        * ((F b.1.1 *ᵥ K.normal b.1) ⬝ᵥ (φ.toTest R Q).hat b))
        = -∑ i, (K.mesh R Q).wB b * ((K.mesh R Q).mask bcs b
      * ((F b.1.1 *ᵥ K.normal b.1) i * (φ.hat b.1 i).eval (Q.pt b.2))) := by
      intro b
      rw [dotProduct, neg_mul, mul_neg, Finset.mul_sum, Finset.mul_sum]
      rfl
    rw [Finset.sum_congr rfl fun b _ => h0 b, Finset.sum_neg_distrib, Finset.sum_comm]
    simp only [hcan, Finset.sum_const_zero, neg_zero]
  rw [convectionForm, e1, e2, e3]
  simp only [hdiv]
  ring

/-- **C105.** Flows with standing shocks: on every conforming triangulation whose sides contain the
shocks, with Upwind, HLL and HLLEM, the flow satisfies the discrete equations of every time step,
for every order, scheme and time step. There may be any number of shocks, normal and oblique. Every
boundary has a condition that matches the gas there, and sponge layers have it as target. -/
theorem C105_step (hK : K.Conforming) {bcs : Conditions} (hc : K.Covered bcs) {d : ℕ}
    (hR : R.Exact d) (hQ : Q.Exact (d + 1)) {order : E → ℕ} {orderHat : E × Fin 3 → ℕ}
    (ho : ∀ e, order e ≤ d + 1) (ho' : ∀ x, orderHat x ≤ d + 1)
    {G : E → GasState 2} {hat : E × Fin 3 → GasState 2} (hG : ShockFlow γ K G hat) {rs : Riemann}
    (hrs : rs.Sided) (s : Scheme) (dt : ℝ) (t : ℚ)
    (x : HdgState 2 4 (E × Fin R.n) ((E × Fin 3) × Fin Q.n)) (hU : ∀ v, x.U v = gasVec (G v.1))
    (hx : x.IsEuler γ rs (K.mesh R Q) (fun b => gasVec (G b.1.1)) (fun b => gasVec (hat b.1)))
    (hB : ∀ b, x.R b = 0 ∨ K.across b.1 = none ∧ Matching γ (G b.1.1) (K.normal b.1) (x.R b))
    (σ : E × Fin R.n → ℝ) (hσ : ∀ v, spongeResidual γ (σ v) (conservativeDict (G v.1)) (x.U v)
      = .ok (x.source v)) :
    hdgStep (K.mesh R Q) ((K.mesh R Q).mask bcs) (K.space 4 order orderHat R Q) (s.quotient dt) t
      x x x := by
  choose F hF hFd using fun e => C26_flux_conservative (hG.gas e) 0
  have hFn : ∀ e d, F e *ᵥ d = eulerFlux γ d (G e).rho (G e).rho_u (G e).rho_E := by
    intro e d
    obtain ⟨F', h1, h2⟩ := C26_flux_conservative (hG.gas e) d
    rw [hF e] at h1
    cases h1
    exact h2
  have hF' : x.F = fun v => F v.1 := by
    funext v
    obtain ⟨Uf, h1, h2⟩ := hx.flux v
    rw [hU v, fields_vec (hG.gas v.1)] at h1
    cases h1
    rw [hF v.1] at h2
    exact (Except.ok.inj h2).symm
  have hFn' : x.Fn = fun b => F b.1.1 *ᵥ K.normal b.1 := by
    funext b
    have hn := normal_unit K hK b.1
    obtain ⟨Uf, h0, h1⟩ := hx.numerical b
    change convectiveNumericalFlux γ rs _ _ Uf (K.normal b.1) = _ at h1
    have same : hat b.1 = G b.1.1 → x.Fn b = F b.1.1 *ᵥ K.normal b.1 := by
      intro h
      simp only [h] at h0 h1
      rw [fields_vec (hG.gas b.1.1)] at h0
      cases h0
      rw [C28_consistent rs (hG.gas b.1.1) hn] at h1
      rw [hFn, Except.ok.inj h1]
    cases h : K.across b.1 with
    | none => exact same (hG.boundary _ h)
    | some y =>
      rcases hG.interior _ _ h with ⟨-, h2⟩ | ⟨-, h2⟩ | ⟨h2, h3⟩
      · exact same h2
      · exact same h2
      · simp only [h3] at h0 h1
        rw [fields_vec (hG.gas y.1)] at h0
        cases h0
        have e := (across_normal hK h).2
        have h4 := (C105_facet hrs h2 (normal_unit K hK y)).2
        rw [e, neg_neg] at h4
        rw [h4] at h1
        rw [hFn, Except.ok.inj h1]
  have hR' : x.R = 0 := by
    funext b
    rcases hB b with h | ⟨-, h⟩
    · exact h
    · exact h.zero (hG.gas _) (normal_unit K hK b.1)
  have hs : x.source = 0 := by
    funext v
    have := hσ v
    rw [spongeResidual, stateVec_dict, hU v] at this
    simp only [bind, Except.bind, sub_self, smul_zero, Except.ok.injEq] at this
    exact this.symm
  have hq : ∀ a : ℝ, s.quotient dt a a a = 0 := by
    intro a
    cases s <;> simp [Scheme.quotient, backwardEuler, backward2] <;> ring_nf <;> simp
  have hjump : ∀ x y, K.across x = some y → F y.1 *ᵥ K.normal y = -(F x.1 *ᵥ K.normal x) := by
    intro x y h
    have e := (across_normal hK h).2
    rw [hFn, hFn]
    rcases hG.interior _ _ h with ⟨h1, -⟩ | ⟨h1, -⟩ | ⟨h1, -⟩
    · rw [h1, e, euler_neg]
    · rw [h1.flux, e, euler_neg]
    · rw [h1.flux, e, euler_neg]
  rintro _ ⟨φ, rfl⟩
  rw [hF', hFn', hR', hs, hx.inviscid.1, hx.inviscid.2,
    convection_piecewise hK hc hR hQ ho ho' F hjump φ]
  simp [timeForm, diffusionForm, boundaryForm, frobenius, hq]

/-- **C105.** Whole runs: the run that never leaves the flow with shocks satisfies the discrete
equations at every step. -/
theorem C105_run (hK : K.Conforming) {bcs : Conditions} (hc : K.Covered bcs) {d : ℕ}
    (hR : R.Exact d) (hQ : Q.Exact (d + 1)) {order : E → ℕ} {orderHat : E × Fin 3 → ℕ}
    (ho : ∀ e, order e ≤ d + 1) (ho' : ∀ x, orderHat x ≤ d + 1)
    {G : E → GasState 2} {hat : E × Fin 3 → GasState 2} (hG : ShockFlow γ K G hat) {rs : Riemann}
    (hrs : rs.Sided) (s : Scheme) (dt : ℝ) (ts : List ℚ)
    (x : HdgState 2 4 (E × Fin R.n) ((E × Fin 3) × Fin Q.n)) (hU : ∀ v, x.U v = gasVec (G v.1))
    (hx : x.IsEuler γ rs (K.mesh R Q) (fun b => gasVec (G b.1.1)) (fun b => gasVec (hat b.1)))
    (hB : ∀ b, x.R b = 0 ∨ K.across b.1 = none ∧ Matching γ (G b.1.1) (K.normal b.1) (x.R b))
    (σ : E × Fin R.n → ℝ) (hσ : ∀ v, spongeResidual γ (σ v) (conservativeDict (G v.1)) (x.U v)
      = .ok (x.source v)) :
    Satisfies (hdgStep (K.mesh R Q) ((K.mesh R Q).mask bcs) (K.space 4 order orderHat R Q)
      (s.quotient dt)) x x ts (List.replicate ts.length x) := by
  induction ts with
  | nil => trivial
  | cons t ts ih =>
    exact ⟨C105_step hK hc hR hQ ho ho' hG hrs s dt t x hU hx hB σ hσ, ih⟩

end Mesh

end Dream
