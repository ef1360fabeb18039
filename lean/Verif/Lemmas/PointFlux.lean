import Verif.Props.Dimensions
import Verif.Spec.ShortSteps
import Mathlib.Analysis.Calculus.ContDiff.Basic
import Mathlib.Analysis.Calculus.ContDiff.Operations
import Mathlib.Analysis.Calculus.ContDiff.RCLike
import Mathlib.Analysis.SpecialFunctions.Sqrt
import Mathlib.Analysis.Calculus.FDeriv.Pi

/-!
# Fluxes and residuals at a point as functions of the conservative variables
-/

noncomputable section

namespace Dream
open Matrix _root_.Spec

variable {n : ℕ} {γ : ℝ}

/-- Specific inner energy of the conservative variables. -/
def innerOf (w : Fin (n + 2) → ℝ) : ℝ :=
  w (Fin.last (n + 1)) / w 0 - (mom w ⬝ᵥ mom w) / (2 * w 0 ^ 2)

/-- Velocity in the direction `d`. -/
def normalOf (d : Fin n → ℝ) (w : Fin (n + 2) → ℝ) : ℝ := (mom w ⬝ᵥ d) / w 0

/-- Speed of sound. -/
def soundOf (γ : ℝ) (w : Fin (n + 2) → ℝ) : ℝ := √(γ * (γ - 1) * innerOf w)

/-- The conservative variables belong to a gas. -/
def GasVec (w : Fin (n + 2) → ℝ) : Prop := 0 < w 0 ∧ 0 < innerOf w

/-- The gas. -/
def gasOf (γ : ℝ) (w : Fin (n + 2) → ℝ) : GasState n :=
  GasState.of γ (w 0) ((w 0)⁻¹ • mom w) (innerOf w)

theorem gasOf_ideal (hγ : 1 < γ) {w : Fin (n + 2) → ℝ} (hw : GasVec w) : IdealGas γ (gasOf γ w) :=
  IdealGas.of hγ hw.1 hw.2

theorem gasOf_vec {w : Fin (n + 2) → ℝ} (hw : GasVec w) :
    consVec (gasOf γ w).rho (gasOf γ w).rho_u (gasOf γ w).rho_E = w := by
  have h0 := hw.1.ne'
  refine cons_ext rfl (fun i => ?_) ?_
  · simp [gasOf, GasState.of, h0]
  · simp only [consVec_last, gasOf, GasState.of, innerOf, smul_dotProduct, dotProduct_smul, smul_eq_mul]
    field_simp
    ring

theorem gasOf_fields (hγ : 1 < γ) {w : Fin (n + 2) → ℝ} (hw : GasVec w) :
    conservativeFields γ w = .ok (conservativeDict (gasOf γ w)) := by
  have := conservativeFields_gas (gasOf_ideal hγ hw)
  rwa [gasOf_vec hw] at this

theorem gasVec_of {S : GasState n} (hS : IdealGas γ S) : GasVec (consVec S.rho S.rho_u S.rho_E) := by
  refine ⟨hS.rho_pos, ?_⟩
  have h := pressure_of_cons hS
  have hp := hS.p_pos
  have hg := hS.gamma
  have hr := hS.rho_pos
  have e : innerOf (consVec S.rho S.rho_u S.rho_E) = S.p / ((γ - 1) * S.rho) := by
    have h1 : mom (consVec S.rho S.rho_u S.rho_E) = S.rho_u := by funext i; simp
    have h2 : γ - 1 ≠ 0 := by linarith
    rw [innerOf, h1, consVec_zero, consVec_last, ← h]
    field_simp
  rw [e]
  exact div_pos hp (mul_pos (by linarith) hr)

/-- Flux matrix at a point. -/
def pointFlux (γ : ℝ) (w : Fin (n + 2) → ℝ) : Fin (n + 2) → Fin n → ℝ :=
  fun i j => eulerFluxOf γ (Pi.single j 1) w i

/-- Numerical flux at a point, of the trace and the facet value. -/
def pointNumerical (γ : ℝ) (rs : Riemann) (d : Fin n → ℝ)
    (p : (Fin (n + 2) → ℝ) × (Fin (n + 2) → ℝ)) : Fin (n + 2) → ℝ :=
  eulerFluxOf γ d p.2 + rs.speed (normalOf d p.2) (soundOf γ p.2) • (p.1 - p.2)

/-- The state that a condition prescribes for the facet value. -/
def FacetCond.value (γ : ℝ) (d : Fin n → ℝ) (w : Fin (n + 2) → ℝ) : FacetCond n → Fin (n + 2) → ℝ
  | .wall => consVec (w 0) (mom w - (mom w ⬝ᵥ d) • d) (w (Fin.last (n + 1)))
  | .isothermal bc => consVec (w 0) 0 (w 0 * bc.T.getD 0 / γ)
  | .outflow bc => consVec (w 0) (mom w) (bc.p.getD 0 / (γ - 1) + (mom w ⬝ᵥ mom w) / (2 * w 0))

theorem pointFlux_eq (hγ : 1 < γ) {w : Fin (n + 2) → ℝ} (hw : GasVec w) :
    convectiveFlux γ (conservativeDict (gasOf γ w)) = .ok (Matrix.of (pointFlux γ w)) := by
  obtain ⟨F, hF, -⟩ := C26_flux_conservative (gasOf_ideal hγ hw) 0
  rw [hF]
  congr 1
  ext i j
  obtain ⟨F', hF', h⟩ := C26_flux_conservative (gasOf_ideal hγ hw) (Pi.single j 1)
  rw [hF] at hF'
  cases hF'
  have e := congrFun h i
  rw [mulVec_single_one] at e
  have h0 := hw.1.ne'
  have hv := gasOf_vec (γ := γ) hw
  simp only [pointFlux, eulerFluxOf, of_apply]
  rw [show F i j = F.col j i from rfl, e]
  conv_rhs => rw [← hv]
  simp

theorem normalOf_gas (d : Fin n → ℝ) (w : Fin (n + 2) → ℝ) : (gasOf γ w).u ⬝ᵥ d = normalOf d w := by
  simp only [gasOf, GasState.of, normalOf, smul_dotProduct, smul_eq_mul]
  ring

theorem pointNumerical_eq (hγ : 1 < γ) {rs : Riemann} (hrs : rs.AnyDim) (d : Fin n → ℝ)
    (w : Fin (n + 2) → ℝ) {wHat : Fin (n + 2) → ℝ} (hw : GasVec wHat) :
    convectiveNumericalFlux γ rs w wHat (conservativeDict (gasOf γ wHat)) d
      = .ok (pointNumerical γ rs d (w, wHat)) := by
  rw [anyDim_flux_eq hrs (gasOf_ideal hγ hw), normalOf_gas]
  have hv := gasOf_vec (γ := γ) hw
  congr 2
  simp only [eulerFluxOf]
  conv_rhs => rw [← hv]
  simp

theorem residual_eq (hγ : 1 < γ) {S : GasState n} {d : Fin n → ℝ} {c : FacetCond n} (hc : c.Admits S d)
    {w : Fin (n + 2) → ℝ} (hw : GasVec w) (wHat : Fin (n + 2) → ℝ) :
    c.residual γ d (conservativeDict (gasOf γ w)) wHat = .ok (wHat - c.value γ d w) := by
  have h0 := hw.1.ne'
  have hm : (gasOf γ w).rho_u = mom w := by
    funext i
    simp [gasOf, GasState.of, h0]
  have he : (gasOf γ w).rho_E = w (Fin.last (n + 1)) := by
    have := congrFun (gasOf_vec (γ := γ) hw) (Fin.last (n + 1))
    rwa [consVec_last] at this
  have hk : (gasOf γ w).rho_Ek = (mom w ⬝ᵥ mom w) / (2 * w 0) := by
    simp only [gasOf, GasState.of, smul_dotProduct, dotProduct_smul, smul_eq_mul]
    field_simp
  cases c with
  | wall =>
    obtain ⟨h1, h2, h3⟩ := dictState γ (gasOf γ w)
    simp only [FacetCond.residual, inviscidWallResidual, h1, h2, h3, bind, Except.bind,
      FacetCond.value, hm, he]
    rfl
  | isothermal bc =>
    obtain ⟨-, hT⟩ := hc
    simp [FacetCond.residual, FacetCond.value, isothermalWallResidual, given, hT, conservativeDict,
      density, EOS.density, momentum, innerEnergy, EOS.innerEnergy, equation, equationE, bind,
      Except.bind]
    rfl
  | outflow bc =>
    have hp : bc.p = some S.p := hc
    simp [FacetCond.residual, FacetCond.value, outflowResidual, outflowState, stateVec, given, hp,
      conservativeDict, density, EOS.density, momentum, energy, innerEnergy, EOS.innerEnergy,
      kineticEnergy, equation, equationE, bind, Except.bind, hm, hk]
    rfl

theorem value_uniform {S : GasState n} (hS : IdealGas γ S) {d : Fin n → ℝ} {c : FacetCond n}
    (hc : c.Admits S d) :
    c.value γ d (consVec S.rho S.rho_u S.rho_E) = consVec S.rho S.rho_u S.rho_E := by
  have hm : mom (consVec S.rho S.rho_u S.rho_E) = S.rho_u := by funext i; simp
  have hg := hS.gamma
  have g0 : γ ≠ 0 := by linarith
  have g1 : γ - 1 ≠ 0 := by linarith
  have hr := hS.rho_pos.ne'
  cases c with
  | wall =>
    have hu : S.u ⬝ᵥ d = 0 := hc
    simp only [FacetCond.value, hm, consVec_zero, consVec_last]
    rw [hS.momentum, smul_dotProduct, hu]
    simp
  | isothermal bc =>
    obtain ⟨hu, hT⟩ := hc
    simp only [FacetCond.value, consVec_zero, hT, Option.getD_some]
    rw [hS.momentum, hu, smul_zero, hS.rho_E, hS.total, hS.kinetic, hu, hS.caloric]
    congr 1
    simp
    field_simp
  | outflow bc =>
    have hp : bc.p = some S.p := hc
    simp only [FacetCond.value, hm, consVec_zero, hp, Option.getD_some]
    congr 1
    have := pressure_of_cons hS
    rw [← this]
    field_simp
    ring

/-! ### Smoothness -/

theorem contDiff_mom : ContDiff ℝ 1 (fun w : Fin (n + 2) → ℝ => mom w) := by
  fun_prop

theorem contDiff_dot (d : Fin n → ℝ) : ContDiff ℝ 1 (fun w : Fin (n + 2) → ℝ => mom w ⬝ᵥ d) := by
  simp only [dotProduct]
  fun_prop

theorem contDiff_sq : ContDiff ℝ 1 (fun w : Fin (n + 2) → ℝ => mom w ⬝ᵥ mom w) := by
  simp only [dotProduct]
  fun_prop

theorem contDiffAt_cons {a e : (Fin (n + 2) → ℝ) → ℝ} {m : (Fin (n + 2) → ℝ) → Fin n → ℝ}
    {w : Fin (n + 2) → ℝ} (ha : ContDiffAt ℝ 1 a w) (hm : ContDiffAt ℝ 1 m w) (he : ContDiffAt ℝ 1 e w) :
    ContDiffAt ℝ 1 (fun w => consVec (a w) (m w) (e w)) w := by
  rw [contDiffAt_pi]
  intro i
  refine Fin.cases ?_ (fun j => ?_) i
  · exact ha
  · refine Fin.lastCases ?_ (fun k => ?_) j
    · rw [Fin.succ_last]
      simp only [consVec_last]
      exact he
    · simp only [consVec_mom]
      exact contDiffAt_pi.1 hm k

theorem flux_contDiffAt (γ : ℝ) (d : Fin n → ℝ) {w : Fin (n + 2) → ℝ} (h0 : w 0 ≠ 0) :
    ContDiffAt ℝ 1 (eulerFluxOf γ d) w := by
  have h2 : 2 * w 0 ≠ 0 := by simpa using h0
  have hmd := (contDiff_dot d).contDiffAt (x := w)
  have hmm := (contDiff_sq (n := n)).contDiffAt (x := w)
  have he : ContDiffAt ℝ 1 (fun w : Fin (n + 2) → ℝ => w (Fin.last (n + 1))) w := by fun_prop
  have hz : ContDiffAt ℝ 1 (fun w : Fin (n + 2) → ℝ => w 0) w := by fun_prop
  have hz2 : ContDiffAt ℝ 1 (fun w : Fin (n + 2) → ℝ => 2 * w 0) w := by fun_prop
  have hp : ContDiffAt ℝ 1 (fun w : Fin (n + 2) → ℝ =>
      (γ - 1) * (w (Fin.last (n + 1)) - (mom w ⬝ᵥ mom w) / (2 * w 0))) w :=
    contDiffAt_const.mul (he.sub (hmm.div hz2 h2))
  refine contDiffAt_cons hmd ?_ ?_
  · rw [contDiffAt_pi]
    intro i
    have hi : ContDiffAt ℝ 1 (fun w : Fin (n + 2) → ℝ => w i.castSucc.succ) w := by fun_prop
    exact ((hi.mul hmd).div hz h0).add (hp.mul contDiffAt_const)
  · exact ((he.add hp).mul hmd).div hz h0

theorem innerOf_contDiffAt {w : Fin (n + 2) → ℝ} (h0 : w 0 ≠ 0) : ContDiffAt ℝ 1 innerOf w := by
  have he : ContDiffAt ℝ 1 (fun w : Fin (n + 2) → ℝ => w (Fin.last (n + 1))) w := by fun_prop
  have hz : ContDiffAt ℝ 1 (fun w : Fin (n + 2) → ℝ => w 0) w := by fun_prop
  have hz2 : ContDiffAt ℝ 1 (fun w : Fin (n + 2) → ℝ => 2 * w 0 ^ 2) w := by fun_prop
  exact (he.div hz h0).sub ((contDiff_sq (n := n)).contDiffAt.div hz2 (by positivity))

theorem normalOf_contDiffAt (d : Fin n → ℝ) {w : Fin (n + 2) → ℝ} (h0 : w 0 ≠ 0) :
    ContDiffAt ℝ 1 (normalOf d) w := by
  have hz : ContDiffAt ℝ 1 (fun w : Fin (n + 2) → ℝ => w 0) w := by fun_prop
  exact ((contDiff_dot d).contDiffAt).div hz h0

theorem soundOf_contDiffAt (hγ : 1 < γ) {w : Fin (n + 2) → ℝ} (hw : GasVec w) :
    ContDiffAt ℝ 1 (soundOf γ) w := by
  refine (contDiffAt_const.mul (innerOf_contDiffAt hw.1.ne')).sqrt ?_
  have := hw.2
  have h1 : 0 < γ * (γ - 1) := mul_pos (by linarith) (by linarith)
  exact (mul_pos h1 this).ne'

theorem gasVec_nhds {w : Fin (n + 2) → ℝ} (hw : GasVec w) : ∀ᶠ w' in nhds w, GasVec w' := by
  have hz : ContinuousAt (fun w : Fin (n + 2) → ℝ => w 0) w := (continuous_apply 0).continuousAt
  exact (hz.eventually_const_lt hw.1).and
    ((innerOf_contDiffAt hw.1.ne').continuousAt.eventually_const_lt hw.2)

theorem speed_lipschitz (rs : Riemann) (a b a' b' : ℝ) :
    |rs.speed a b - rs.speed a' b'| ≤ |a - a'| + |b - b'| := by
  have hlf : |(|a| + b) - (|a'| + b')| ≤ |a - a'| + |b - b'| := by
    calc |(|a| + b) - (|a'| + b')| = |(|a| - |a'|) + (b - b')| := by ring_nf
      _ ≤ |(|a| - |a'|)| + |b - b'| := abs_add_le _ _
      _ ≤ _ := add_le_add_left (abs_abs_sub_abs_le_abs_sub a a') _
  cases rs with
  | hll =>
    simp only [Riemann.speed]
    calc |max (a + b) 0 - max (a' + b') 0| ≤ |(a + b) - (a' + b')| := abs_max_sub_max_le_abs _ _ _
      _ = |(a - a') + (b - b')| := by ring_nf
      _ ≤ _ := abs_add_le _ _
  | _ => exact hlf

theorem speed_lipschitzOn (hγ : 1 < γ) (rs : Riemann) (d : Fin n → ℝ) {w : Fin (n + 2) → ℝ}
    (hw : GasVec w) : ∃ K : NNReal, ∃ s ∈ nhds w,
      LipschitzOnWith K (fun w => rs.speed (normalOf d w) (soundOf γ w)) s := by
  obtain ⟨K1, s1, h1, l1⟩ := ((normalOf_contDiffAt d hw.1.ne').hasStrictFDerivAt
    one_ne_zero).exists_lipschitzOnWith
  obtain ⟨K2, s2, h2, l2⟩ := ((soundOf_contDiffAt hγ hw).hasStrictFDerivAt
    one_ne_zero).exists_lipschitzOnWith
  refine ⟨K1 + K2, s1 ∩ s2, Filter.inter_mem h1 h2, LipschitzOnWith.of_dist_le_mul ?_⟩
  intro x hx y hy
  have d1 := l1.dist_le_mul x hx.1 y hy.1
  have d2 := l2.dist_le_mul x hx.2 y hy.2
  rw [Real.dist_eq] at d1 d2 ⊢
  refine (speed_lipschitz rs _ _ _ _).trans ?_
  push_cast
  linarith

/-- A Lipschitz factor times a linear function that vanishes at a point is strictly differentiable
there. -/
theorem strict_smul {E F : Type} [NormedAddCommGroup E] [NormedSpace ℝ E] [NormedAddCommGroup F]
    [NormedSpace ℝ F] {s : E → ℝ} {j : E →L[ℝ] F} {p : E} (hj : j p = 0) {K : NNReal} {U : Set E}
    (hU : U ∈ nhds p) (hs : LipschitzOnWith K s U) :
    HasStrictFDerivAt (fun x => s x • j x) (s p • j) p := by
  rw [hasStrictFDerivAt_iff_isLittleO, Asymptotics.isLittleO_iff]
  intro c hc
  have hcont : ContinuousAt s p := hs.continuousOn.continuousAt hU
  have hjc : ContinuousAt j p := j.continuous.continuousAt
  have e1 : ∀ᶠ x in nhds p, ‖s x - s p‖ * ‖j‖ ≤ c / 2 := by
    have : Filter.Tendsto (fun x => ‖s x - s p‖ * ‖j‖) (nhds p) (nhds (‖s p - s p‖ * ‖j‖)) :=
      ((hcont.sub continuousAt_const).norm.mul continuousAt_const)
    rw [sub_self, norm_zero, zero_mul] at this
    exact (this.eventually_lt_const (half_pos hc)).mono fun _ h => h.le
  have e2 : ∀ᶠ x in nhds p, K * ‖j x‖ ≤ c / 2 := by
    have : Filter.Tendsto (fun x => (K : ℝ) * ‖j x‖) (nhds p) (nhds (K * ‖j p‖)) :=
      continuousAt_const.mul hjc.norm
    rw [hj, norm_zero, mul_zero] at this
    exact (this.eventually_lt_const (half_pos hc)).mono fun _ h => h.le
  have e3 : ∀ᶠ x in nhds p, x ∈ U := hU
  rw [nhds_prod_eq]
  filter_upwards [(e1.and e3).prod_mk (e2.and e3)] with q hq
  obtain ⟨⟨h1, hU1⟩, h2, hU2⟩ := hq
  have hl := hs.dist_le_mul q.1 hU1 q.2 hU2
  rw [dist_eq_norm, dist_eq_norm] at hl
  have eq : s q.1 • j q.1 - s q.2 • j q.2 - (s p • j) (q.1 - q.2)
      = (s q.1 - s p) • j (q.1 - q.2) + (s q.1 - s q.2) • j q.2 := by
    simp only [ContinuousLinearMap.smul_apply, map_sub, smul_sub, sub_smul]
    abel
  rw [eq]
  have b1 : ‖(s q.1 - s p) • j (q.1 - q.2)‖ ≤ c / 2 * ‖q.1 - q.2‖ := by
    rw [norm_smul]
    calc ‖s q.1 - s p‖ * ‖j (q.1 - q.2)‖ ≤ ‖s q.1 - s p‖ * (‖j‖ * ‖q.1 - q.2‖) := by
          gcongr; exact j.le_opNorm _
      _ = ‖s q.1 - s p‖ * ‖j‖ * ‖q.1 - q.2‖ := by ring
      _ ≤ _ := by gcongr
  have b2 : ‖(s q.1 - s q.2) • j q.2‖ ≤ c / 2 * ‖q.1 - q.2‖ := by
    rw [norm_smul]
    calc ‖s q.1 - s q.2‖ * ‖j q.2‖ ≤ K * ‖q.1 - q.2‖ * ‖j q.2‖ := by gcongr
      _ = K * ‖j q.2‖ * ‖q.1 - q.2‖ := by ring
      _ ≤ _ := by gcongr
  calc _ ≤ _ := norm_add_le _ _
    _ ≤ _ := add_le_add b1 b2
    _ = c * ‖q.1 - q.2‖ := by ring

/-- The derivative of the normal flux. -/
def fluxJac (γ : ℝ) (d : Fin n → ℝ) (w : Fin (n + 2) → ℝ) :
    (Fin (n + 2) → ℝ) →L[ℝ] (Fin (n + 2) → ℝ) := fderiv ℝ (eulerFluxOf γ d) w

theorem eulerFluxOf_neg (γ : ℝ) (d : Fin n → ℝ) : eulerFluxOf γ (-d) = -eulerFluxOf γ d := by
  funext w
  refine cons_ext ?_ (fun i => ?_) ?_
  · simp [eulerFluxOf, eulerFlux_eq]
  · simp [eulerFluxOf, eulerFlux_eq]
    ring
  · simp [eulerFluxOf, eulerFlux_eq]
    ring

theorem fluxJac_neg (γ : ℝ) (d : Fin n → ℝ) (w : Fin (n + 2) → ℝ) :
    fluxJac γ (-d) w = -fluxJac γ d w := by
  rw [fluxJac, eulerFluxOf_neg, fderiv_neg, fluxJac]

/-- The numerical flux is strictly differentiable where trace and facet value agree, although the
signal speed is not. -/
theorem pointNumerical_strict (hγ : 1 < γ) (rs : Riemann) (d : Fin n → ℝ) {w : Fin (n + 2) → ℝ}
    (hw : GasVec w) : HasStrictFDerivAt (pointNumerical γ rs d)
      ((fluxJac γ d w).comp (ContinuousLinearMap.snd ℝ _ _) +
        rs.speed (normalOf d w) (soundOf γ w) •
          (ContinuousLinearMap.fst ℝ (Fin (n + 2) → ℝ) (Fin (n + 2) → ℝ) -
            ContinuousLinearMap.snd ℝ _ _)) (w, w) := by
  have h1 : HasStrictFDerivAt (fun p : (Fin (n + 2) → ℝ) × (Fin (n + 2) → ℝ) => eulerFluxOf γ d p.2)
      ((fluxJac γ d w).comp (ContinuousLinearMap.snd ℝ _ _)) (w, w) :=
    HasStrictFDerivAt.comp (g := eulerFluxOf γ d) (w, w)
      ((flux_contDiffAt γ d hw.1.ne').hasStrictFDerivAt one_ne_zero)
      (ContinuousLinearMap.snd ℝ (Fin (n + 2) → ℝ) (Fin (n + 2) → ℝ)).hasStrictFDerivAt
  obtain ⟨K, s, hs, hK⟩ := speed_lipschitzOn hγ rs d hw
  have h2 := strict_smul (s := fun p : (Fin (n + 2) → ℝ) × (Fin (n + 2) → ℝ) =>
      rs.speed (normalOf d p.2) (soundOf γ p.2))
    (j := ContinuousLinearMap.fst ℝ (Fin (n + 2) → ℝ) (Fin (n + 2) → ℝ) -
      ContinuousLinearMap.snd ℝ _ _) (p := (w, w)) (by simp) (K := K) (U := Prod.snd ⁻¹' s)
    (continuous_snd.continuousAt.preimage_mem_nhds hs) (by
      refine LipschitzOnWith.of_dist_le_mul fun x hx y hy => ?_
      refine (hK.dist_le_mul x.2 hx y.2 hy).trans ?_
      gcongr
      rw [Prod.dist_eq]
      exact le_max_right _ _)
  exact h1.add h2

theorem value_contDiffAt (c : FacetCond n) (γ : ℝ) (d : Fin n → ℝ) {w : Fin (n + 2) → ℝ}
    (h0 : w 0 ≠ 0) : ContDiffAt ℝ 1 (fun w => c.value γ d w) w := by
  have hz : ContDiffAt ℝ 1 (fun w : Fin (n + 2) → ℝ => w 0) w := by fun_prop
  have hm := (contDiff_mom (n := n)).contDiffAt (x := w)
  have he : ContDiffAt ℝ 1 (fun w : Fin (n + 2) → ℝ => w (Fin.last (n + 1))) w := by fun_prop
  cases c with
  | wall => exact contDiffAt_cons hz (hm.sub ((contDiff_dot d).contDiffAt.smul contDiffAt_const)) he
  | isothermal bc =>
    exact contDiffAt_cons hz contDiffAt_const ((hz.mul contDiffAt_const).div_const _)
  | outflow bc =>
    have hz2 : ContDiffAt ℝ 1 (fun w : Fin (n + 2) → ℝ => 2 * w 0) w := by fun_prop
    exact contDiffAt_cons hz hm (contDiffAt_const.add
      ((contDiff_sq (n := n)).contDiffAt.div hz2 (by simpa using h0)))

end Dream
