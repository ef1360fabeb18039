import Verif.Props.Boundary
import Verif.Props.ShockJump
import Verif.Lemmas.PointFlux
import Verif.Spec.Sound
import Mathlib.Analysis.Calculus.Deriv.Mul
import Mathlib.Analysis.Calculus.Deriv.Slope
import Mathlib.Analysis.Calculus.Deriv.Pow
import Mathlib.Analysis.Calculus.InverseFunctionTheorem.FDeriv
import Mathlib.Topology.Algebra.Module.FiniteDimension

/-!
# C112: disturbances leave through farfield boundaries
-/

namespace Dream
open Matrix _root_.Spec Topology

noncomputable section

variable {γ : ℝ} {d : Fin 2 → ℝ}

/-- The conservative variables of a gas. -/
def consOf (S : GasState 2) : Fin 4 → ℝ := consVec S.rho S.rho_u S.rho_E

/-- The rows of `Pinv` at a gas. -/
def waveRows (γ : ℝ) (d : Fin 2 → ℝ) (S : GasState 2) : Matrix (Fin 4) (Fin 4) ℝ :=
  matPinv γ S.rho S.c S.u d

/-- The trace at a farfield boundary: outgoing amplitudes are those of the interior, incoming ones
those of the farfield. For both versions of the condition. -/
theorem farfield_iff (ident : Bool) {Sinf W H : GasState 2} (hinf : IdealGas γ Sinf)
    (hH : IdealGas γ H) (hd : d 0 ^ 2 + d 1 ^ 2 = 1) (hl : ∀ i, lams H.c H.u d i ≠ 0) :
    farfieldResidual γ ident (conservativeDict Sinf) d (consOf W) (consOf H) (conservativeDict H)
      = .ok 0 ↔
    ∀ i, (0 < lams H.c H.u d i → (waveRows γ d H *ᵥ (consOf H - consOf W)) i = 0) ∧
      (lams H.c H.u d i < 0 → (waveRows γ d H *ᵥ (consOf H - consOf Sinf)) i = 0) := by
  have hγ := hH.gamma
  have r0 := hH.rho_pos
  have c0 := hH.sound_pos
  have hP := Pinv_mul_P (u := H.u) r0.ne' c0.ne' (γ := γ) (by linarith) hd
  have hbc : stateVec γ (conservativeDict Sinf) = .ok (consOf Sinf) := stateVec_dict γ Sinf
  have hr : (conservativeDict H).rho = some H.rho := rfl
  have hu : (conservativeDict H).u = some H.u := rfl
  have hc : (conservativeDict H).c = some H.c := rfl
  unfold waveRows
  cases ident with
  | false =>
    have hin := consJac_eq (γ := γ) (d := d) hr hu hc (fun x => min x 0) (some "incoming") (by simp)
    have hout := consJac_eq (γ := γ) (d := d) hr hu hc (fun x => max x 0) (some "outgoing") (by simp)
    simp only [farfieldResidual, hbc, hin, hout, bind, Except.bind, Bool.false_eq_true, if_false,
      Except.ok.injEq]
    rw [sub_eq_zero, conj_mulVec, conj_mulVec, mulVec_inj_of hP, funext_iff]
    refine forall_congr' fun i => ?_
    rcases lt_or_gt_of_ne (hl i) with h | h
    · simp [max_eq_right h.le, min_eq_left h.le, h, not_lt.2 h.le, h.ne, eq_comm]
    · simp [max_eq_left h.le, min_eq_right h.le, h, not_lt.2 h.le, h.ne']
  | true =>
    have hin := consId_eq (γ := γ) (d := d) hr hu hc negInd (some "incoming") (by simp)
    have hout := consId_eq (γ := γ) (d := d) hr hu hc posInd (some "outgoing") (by simp)
    simp only [farfieldResidual, hbc, hin, hout, bind, Except.bind, if_true, Except.ok.injEq]
    have hPi := mul_eq_one_comm.1 hP
    have e : consOf H = matP γ H.rho H.c H.u d *ᵥ (matPinv γ H.rho H.c H.u d *ᵥ consOf H) := by
      rw [Matrix.mulVec_mulVec, hPi, Matrix.one_mulVec]
    rw [sub_sub, sub_eq_zero, conj_mulVec, conj_mulVec, ← Matrix.mulVec_add]
    nth_rewrite 1 [e]
    rw [mulVec_inj_of hP, funext_iff]
    refine forall_congr' fun i => ?_
    rw [Matrix.mulVec_sub, Matrix.mulVec_sub]
    rcases lt_or_gt_of_ne (hl i) with h | h
    · simp [posInd, negInd, h, not_lt.2 h.le, sub_eq_zero]
    · simp [posInd, negInd, h, not_lt.2 h.le, sub_eq_zero]

/-! ### Derivatives -/

/-- A product with a factor that vanishes: only the other factor must be continuous. -/
theorem hasDerivAt_mul_zero {f g : ℝ → ℝ} {g' : ℝ} (hf : ContinuousAt f 0) (hg : HasDerivAt g g' 0)
    (h0 : g 0 = 0) : HasDerivAt (fun x => f x * g x) (f 0 * g') 0 := by
  rw [hasDerivAt_iff_tendsto_slope_zero] at hg ⊢
  have h1 : Filter.Tendsto f (𝓝[≠] 0) (𝓝 (f 0)) := hf.tendsto.mono_left nhdsWithin_le_nhds
  refine (h1.mul hg).congr fun t => ?_
  simp only [zero_add, h0, smul_eq_mul]
  ring

/-- The primitive components of a disturbance. -/
def _root_.Spec.Disturbance.vec (D : Disturbance 2) : Fin 4 → ℝ := ![D.rho, D.u 0, D.u 1, D.p]

theorem consOf_gas {S : GasState 2} (hS : IdealGas γ S) :
    consOf S = ![S.rho, S.rho * S.u 0, S.rho * S.u 1,
      S.p / (γ - 1) + S.rho * (S.u 0 ^ 2 + S.u 1 ^ 2) / 2] := by
  have hγ := hS.gamma
  have h1 : γ - 1 ≠ 0 := by linarith
  have hE : S.rho_E = S.p / (γ - 1) + S.rho * (S.u 0 ^ 2 + S.u 1 ^ 2) / 2 := by
    rw [hS.rho_E, hS.total, hS.kinetic, hS.gas_law, hS.caloric]
    simp only [dotProduct, Fin.sum_univ_two]
    field_simp
  funext i
  fin_cases i
  · rfl
  · show S.rho_u 0 = _; rw [hS.momentum]; rfl
  · show S.rho_u 1 = _; rw [hS.momentum]; rfl
  · exact hE

theorem gas_of_cons {A B : GasState 2} (hA : IdealGas γ A) (hB : IdealGas γ B)
    (h : consOf A = consOf B) : A = B := by
  rw [consOf_gas hA, consOf_gas hB] at h
  have hr : A.rho = B.rho := congrFun h 0
  have h1 : A.rho * A.u 0 = B.rho * B.u 0 := congrFun h 1
  have h2 : A.rho * A.u 1 = B.rho * B.u 1 := congrFun h 2
  have h3 : A.p / (γ - 1) + A.rho * (A.u 0 ^ 2 + A.u 1 ^ 2) / 2 =
      B.p / (γ - 1) + B.rho * (B.u 0 ^ 2 + B.u 1 ^ 2) / 2 := congrFun h 3
  rw [hr] at h1 h2
  have hu : A.u = B.u := by
    funext j
    fin_cases j
    · exact mul_left_cancel₀ hB.rho_pos.ne' h1
    · exact mul_left_cancel₀ hB.rho_pos.ne' h2
  refine gas_ext hA hB hr hu ?_
  rw [hr, hu] at h3
  have h4 : A.p / (γ - 1) = B.p / (γ - 1) := by linarith
  have hγ := hA.gamma
  field_simp [show γ - 1 ≠ 0 by linarith] at h4
  exact h4

variable {S : GasState 2} {D : Disturbance 2} {W : ℝ → GasState 2}

theorem _root_.Spec.Disturbs.self (h : Disturbs γ S D W) : IdealGas γ S := by
  have := h.gas.self_of_nhds
  rwa [h.zero] at this

theorem _root_.Spec.Disturbs.cons_deriv (h : Disturbs γ S D W) (i : Fin 4) :
    HasDerivAt (fun ε => consOf (W ε) i) ((matM γ S.rho S.u *ᵥ D.vec) i) 0 := by
  have hr := h.rho
  have h0 := h.u 0
  have h1 := h.u 1
  have hp := h.p
  have key : HasDerivAt (fun ε => (![(W ε).rho, (W ε).rho * (W ε).u 0, (W ε).rho * (W ε).u 1,
      (W ε).p / (γ - 1) + (W ε).rho * ((W ε).u 0 ^ 2 + (W ε).u 1 ^ 2) / 2] : Fin 4 → ℝ) i)
      ((matM γ S.rho S.u *ᵥ D.vec) i) 0 := by
    have hz := h.zero
    fin_cases i
    · refine hr.congr_deriv ?_
      simp [matM, Disturbance.vec, Matrix.mulVec, dotProduct, Fin.sum_univ_succ]
    · refine (hr.mul h0).congr_deriv ?_
      simp [matM, Disturbance.vec, Matrix.mulVec, dotProduct, Fin.sum_univ_succ, hz]
      ring
    · refine (hr.mul h1).congr_deriv ?_
      simp [matM, Disturbance.vec, Matrix.mulVec, dotProduct, Fin.sum_univ_succ, hz]
      ring
    · refine ((hp.div_const (γ - 1)).add ((hr.mul ((h0.pow 2).add (h1.pow 2))).div_const 2)).congr_deriv ?_
      simp [matM, Disturbance.vec, Matrix.mulVec, dotProduct, Fin.sum_univ_succ, hz]
      ring
  refine key.congr_of_eventuallyEq ?_
  filter_upwards [h.gas] with ε hε
  rw [consOf_gas hε]

theorem _root_.Spec.Disturbs.sound_cont (h : Disturbs γ S D W) : ContinuousAt (fun ε => (W ε).c) 0 := by
  have hS := h.self
  have key : ContinuousAt (fun ε => √(γ * ((W ε).p / (W ε).rho))) 0 := by
    refine Real.continuous_sqrt.continuousAt.comp ?_
    refine continuousAt_const.mul (h.p.continuousAt.div h.rho.continuousAt ?_)
    rw [h.zero]
    exact hS.rho_pos.ne'
  refine key.congr ?_
  filter_upwards [h.gas] with ε hε
  rw [← hε.sound, Real.sqrt_sq hε.sound_pos.le]

theorem _root_.Spec.Disturbs.rows_cont (h : Disturbs γ S D W) (i j : Fin 4) :
    ContinuousAt (fun ε => waveRows γ d (W ε) i j) 0 := by
  have hc := h.sound_cont
  have hr := h.rho.continuousAt
  have h0 := (h.u 0).continuousAt
  have h1 := (h.u 1).continuousAt
  have hrn : (W 0).rho ≠ 0 := by rw [h.zero]; exact h.self.rho_pos.ne'
  unfold waveRows matPinv
  fin_cases i <;> fin_cases j <;>
    simp [dotProduct, Fin.sum_univ_two] <;> fun_prop (disch := assumption)

theorem _root_.Spec.Disturbs.lams_cont (h : Disturbs γ S D W) (i : Fin 4) :
    ContinuousAt (fun ε => lams (W ε).c (W ε).u d i) 0 := by
  have hc := h.sound_cont
  have h0 := (h.u 0).continuousAt
  have h1 := (h.u 1).continuousAt
  unfold lams
  fin_cases i <;> simp [dotProduct, Fin.sum_univ_two] <;> fun_prop

/-- The amplitudes of a disturbance. -/
def _root_.Spec.Disturbance.amp (S : GasState 2) (d : Fin 2 → ℝ) (D : Disturbance 2) : Fin 4 → ℝ :=
  matLinv S.rho S.c d *ᵥ D.vec

theorem rows_amp (hS : IdealGas γ S) (D : Disturbance 2) :
    waveRows γ d S *ᵥ (matM γ S.rho S.u *ᵥ D.vec) = D.amp S d := by
  have hγ := hS.gamma
  rw [waveRows, Pinv_eq hS.rho_pos.ne', Matrix.mulVec_mulVec, Matrix.mul_assoc,
    Minv_mul_M hS.rho_pos.ne' (by linarith), Matrix.mul_one, Disturbance.amp]

/-- The amplitude of a difference that vanishes along a family. -/
theorem amp_eq_of_vanish {H W : ℝ → GasState 2} {Dh Dw : Disturbance 2} (hH : Disturbs γ S Dh H)
    (hW : Disturbs γ S Dw W) (i : Fin 4)
    (h : ∀ᶠ ε in 𝓝 0, (waveRows γ d (H ε) *ᵥ (consOf (H ε) - consOf (W ε))) i = 0) :
    Dh.amp S d i = Dw.amp S d i := by
  have h1 : HasDerivAt (fun ε => ∑ j, waveRows γ d (H ε) i j * (consOf (H ε) j - consOf (W ε) j))
      (∑ j, waveRows γ d (H 0) i j *
        ((matM γ S.rho S.u *ᵥ Dh.vec) j - (matM γ S.rho S.u *ᵥ Dw.vec) j)) 0 := by
    apply HasDerivAt.fun_sum
    intro j _
    refine hasDerivAt_mul_zero (hH.rows_cont i j) ((hH.cons_deriv j).sub (hW.cons_deriv j)) ?_
    simp [hH.zero, hW.zero]
  have h2 : HasDerivAt (fun ε => ∑ j, waveRows γ d (H ε) i j * (consOf (H ε) j - consOf (W ε) j))
      0 0 := by
    refine (hasDerivAt_const (0 : ℝ) (0 : ℝ)).congr_of_eventuallyEq ?_
    filter_upwards [h] with ε hε
    exact hε
  have h3 := h1.unique h2
  rw [hH.zero] at h3
  have h4 := congrFun (rows_amp (d := d) hH.self Dh) i
  have h5 := congrFun (rows_amp (d := d) hH.self Dw) i
  rw [← h4, ← h5, ← sub_eq_zero, ← h3]
  simp only [Matrix.mulVec, dotProduct, mul_sub, Finset.sum_sub_distrib]

theorem disturbs_const (hS : IdealGas γ S) : Disturbs γ S ⟨0, 0, 0⟩ fun _ => S where
  zero := rfl
  gas := .of_forall fun _ => hS
  rho := hasDerivAt_const _ _
  u _ := hasDerivAt_const _ _
  p := hasDerivAt_const _ _

/-- **C112** At a farfield boundary the disturbance of the trace has the outgoing amplitudes of the
interior disturbance and no incoming ones. Whatever the interior does, to first order, for both
versions of the condition, all velocities through the boundary except the critical ones. -/
theorem C112_trace (ident : Bool) (hd : d 0 ^ 2 + d 1 ^ 2 = 1) {H W : ℝ → GasState 2}
    {Dh Dw : Disturbance 2} (hH : Disturbs γ S Dh H) (hW : Disturbs γ S Dw W)
    (h0 : S.u ⬝ᵥ d ≠ 0) (h1 : S.u ⬝ᵥ d ≠ S.c) (h2 : S.u ⬝ᵥ d ≠ -S.c)
    (h : ∀ᶠ ε in 𝓝 0, farfieldResidual γ ident (conservativeDict S) d (consOf (W ε)) (consOf (H ε))
      (conservativeDict (H ε)) = .ok 0) :
    Dh.p - S.rho * S.c * (Dh.u ⬝ᵥ d) =
      posInd (S.u ⬝ᵥ d - S.c) * (Dw.p - S.rho * S.c * (Dw.u ⬝ᵥ d)) ∧
    S.c ^ 2 * Dh.rho - Dh.p = posInd (S.u ⬝ᵥ d) * (S.c ^ 2 * Dw.rho - Dw.p) ∧
    Dh.u ⬝ᵥ ![d 1, -d 0] = posInd (S.u ⬝ᵥ d) * (Dw.u ⬝ᵥ ![d 1, -d 0]) ∧
    Dh.p + S.rho * S.c * (Dh.u ⬝ᵥ d) =
      posInd (S.u ⬝ᵥ d + S.c) * (Dw.p + S.rho * S.c * (Dw.u ⬝ᵥ d)) := by
  have hS := hH.self
  have hl : ∀ i, lams S.c S.u d i ≠ 0 := by
    intro i
    fin_cases i
    · exact sub_ne_zero.2 h1
    · exact h0
    · exact h0
    · exact fun h => h2 (eq_neg_of_add_eq_zero_left h)
  have hev : ∀ᶠ ε in 𝓝 0, ∀ i, lams (H ε).c (H ε).u d i ≠ 0 := by
    rw [Filter.eventually_all]
    intro i
    exact (hH.lams_cont i).eventually_ne (by rw [hH.zero]; exact hl i)
  have key : ∀ i, Dh.amp S d i = posInd (lams S.c S.u d i) * Dw.amp S d i := by
    intro i
    rcases lt_or_gt_of_ne (hl i) with hi | hi
    · have h3 : ∀ᶠ ε in 𝓝 0, lams (H ε).c (H ε).u d i < 0 :=
        (hH.lams_cont i).eventually (gt_mem_nhds (by simpa only [hH.zero] using hi))
      have h4 := amp_eq_of_vanish hH (disturbs_const hS) i (d := d) (by
        filter_upwards [h, hev, h3, hH.gas] with ε e1 e2 e3 e4
        exact ((farfield_iff ident hS e4 hd e2).1 e1 i).2 e3)
      rw [h4, posInd, if_neg (not_lt.2 hi.le), zero_mul]
      simp [Disturbance.amp, Disturbance.vec, Matrix.mulVec, dotProduct, Fin.sum_univ_succ]
    · have h3 : ∀ᶠ ε in 𝓝 0, 0 < lams (H ε).c (H ε).u d i :=
        (hH.lams_cont i).eventually (lt_mem_nhds (by simpa only [hH.zero] using hi))
      have h4 := amp_eq_of_vanish hH hW i (d := d) (by
        filter_upwards [h, hev, h3, hH.gas] with ε e1 e2 e3 e4
        exact ((farfield_iff ident hS e4 hd e2).1 e1 i).1 e3)
      rw [h4, posInd, if_pos hi, one_mul]
  have k0 := key 0
  have k1 := key 1
  have k2 := key 2
  have k3 := key 3
  simp [Disturbance.amp, Disturbance.vec, Matrix.mulVec, dotProduct, Fin.sum_univ_succ, matLinv,
    lams] at k0 k1 k2 k3
  simp only [dotProduct, Fin.sum_univ_two, Matrix.cons_val_zero, Matrix.cons_val_one]
  refine ⟨?_, ?_, ?_, ?_⟩
  · linear_combination k0
  · linear_combination k1
  · linear_combination k2
  · linear_combination k3

theorem disturbance_ext (hd : d 0 ^ 2 + d 1 ^ 2 = 1) {D D' : Disturbance 2} (hr : D.rho = D'.rho)
    (hp : D.p = D'.p) (hn : D.u ⬝ᵥ d = D'.u ⬝ᵥ d) (ht : D.u ⬝ᵥ ![d 1, -d 0] = D'.u ⬝ᵥ ![d 1, -d 0]) :
    D = D' := by
  obtain ⟨r, u, p⟩ := D
  obtain ⟨r', u', p'⟩ := D'
  simp only [dotProduct, Fin.sum_univ_two, Matrix.cons_val_zero, Matrix.cons_val_one] at hr hp hn ht
  have e : u = u' := by
    funext j
    fin_cases j
    · show u 0 = u' 0
      linear_combination (-(u 0) + u' 0) * hd + d 0 * hn + d 1 * ht
    · show u 1 = u' 1
      linear_combination (-(u 1) + u' 1) * hd + d 1 * hn - d 0 * ht
  subst hr hp e
  rfl

section
variable (ident : Bool) (hd : d 0 ^ 2 + d 1 ^ 2 = 1) {H : ℝ → GasState 2} {Dh Dw : Disturbance 2}
  (hH : Disturbs γ S Dh H) (hW : Disturbs γ S Dw W)
  (h : ∀ᶠ ε in 𝓝 0, farfieldResidual γ ident (conservativeDict S) d (consOf (W ε)) (consOf (H ε))
    (conservativeDict (H ε)) = .ok 0)

include hd hH hW h

/-- **C112** A plane sound wave that leaves at a right angle passes: the trace has the same
disturbance as the interior, as if there were no boundary. At subsonic in- and outflows. -/
theorem C112_leaves (h0 : S.u ⬝ᵥ d ≠ 0) (hsub : |S.u ⬝ᵥ d| < S.c) (hs : IsSound S d Dw) : Dh = Dw := by
  have hS := hH.self
  have c0 := hS.sound_pos
  have r0 := hS.rho_pos
  obtain ⟨l1, l2⟩ := abs_lt.1 hsub
  obtain ⟨e0, e1, e2, e3⟩ := C112_trace ident hd hH hW h0 (by linarith) (by linarith) h
  rw [posInd, if_neg (by linarith)] at e0
  rw [posInd, if_pos (by linarith)] at e3
  have hun : Dw.u ⬝ᵥ d = Dw.p / (S.rho * S.c) := by
    rw [hs.u, smul_dotProduct]
    have : d ⬝ᵥ d = 1 := by simp only [dotProduct, Fin.sum_univ_two]; linear_combination hd
    rw [this]; simp
  have hut : Dw.u ⬝ᵥ ![d 1, -d 0] = 0 := by
    rw [hs.u]
    simp only [dotProduct, Fin.sum_univ_two, Matrix.cons_val_zero, Matrix.cons_val_one, Pi.smul_apply,
      smul_eq_mul]
    ring
  have hent : S.c ^ 2 * Dw.rho - Dw.p = 0 := by rw [hs.rho]; field_simp; ring
  have hac : S.rho * S.c * (Dw.u ⬝ᵥ d) = Dw.p := by rw [hun]; field_simp
  rw [hent, mul_zero] at e1
  rw [hut, mul_zero] at e2
  have hp : Dh.p = Dw.p := by linarith
  refine disturbance_ext hd ?_ hp ?_ (by rw [e2, hut])
  · have : S.c ^ 2 * Dh.rho = S.c ^ 2 * Dw.rho := by linarith
    exact mul_left_cancel₀ (by positivity) this
  · have : S.rho * S.c * (Dh.u ⬝ᵥ d) = S.rho * S.c * (Dw.u ⬝ᵥ d) := by linarith
    exact mul_left_cancel₀ (by positivity) this

/-- **C112** At a subsonic outflow everything passes that is not an incoming sound wave: eddies and
hot spots that are carried along, too. -/
theorem C112_outflow (h0 : 0 < S.u ⬝ᵥ d) (h1 : S.u ⬝ᵥ d < S.c)
    (hw : Dw.p = S.rho * S.c * (Dw.u ⬝ᵥ d)) : Dh = Dw := by
  have hS := hH.self
  have c0 := hS.sound_pos
  have r0 := hS.rho_pos
  obtain ⟨e0, e1, e2, e3⟩ := C112_trace ident hd hH hW h0.ne' h1.ne (by linarith) h
  rw [posInd, if_neg (by linarith)] at e0
  rw [posInd, if_pos h0, one_mul] at e1 e2
  rw [posInd, if_pos (by linarith)] at e3
  have hp : Dh.p = Dw.p := by linarith
  refine disturbance_ext hd ?_ hp ?_ e2
  · have : S.c ^ 2 * Dh.rho = S.c ^ 2 * Dw.rho := by linarith
    exact mul_left_cancel₀ (by positivity) this
  · have : S.rho * S.c * (Dh.u ⬝ᵥ d) = S.rho * S.c * (Dw.u ⬝ᵥ d) := by linarith
    exact mul_left_cancel₀ (by positivity) this

/-- **C112** Supersonic boundaries: everything leaves, nothing enters. -/
theorem C112_supersonic : (S.c < S.u ⬝ᵥ d → Dh = Dw) ∧ (S.u ⬝ᵥ d < -S.c → Dh = ⟨0, 0, 0⟩) := by
  have hS := hH.self
  have c0 := hS.sound_pos
  have r0 := hS.rho_pos
  constructor
  · intro h0
    obtain ⟨e0, e1, e2, e3⟩ := C112_trace ident hd hH hW (by linarith) h0.ne' (by linarith) h
    rw [posInd, if_pos (by linarith), one_mul] at e0 e1 e2 e3
    have hp : Dh.p = Dw.p := by linarith
    refine disturbance_ext hd ?_ hp ?_ e2
    · have : S.c ^ 2 * Dh.rho = S.c ^ 2 * Dw.rho := by linarith
      exact mul_left_cancel₀ (by positivity) this
    · have : S.rho * S.c * (Dh.u ⬝ᵥ d) = S.rho * S.c * (Dw.u ⬝ᵥ d) := by linarith
      exact mul_left_cancel₀ (by positivity) this
  · intro h0
    obtain ⟨e0, e1, e2, e3⟩ := C112_trace ident hd hH hW (by linarith) (by linarith) h0.ne h
    rw [posInd, if_neg (by linarith), zero_mul] at e0 e1 e2 e3
    have hp : Dh.p = 0 := by linarith
    refine disturbance_ext hd ?_ hp ?_ (by simpa using e2)
    · have : S.c ^ 2 * Dh.rho = S.c ^ 2 * 0 := by linarith
      exact mul_left_cancel₀ (by positivity) this
    · have : S.rho * S.c * (Dh.u ⬝ᵥ d) = S.rho * S.c * 0 := by linarith
      simpa using mul_left_cancel₀ (by positivity) this

/-- **C112** Sound at an angle: the trace takes the fraction `(1 + cos θ) / 2` of the pressure of a
sound wave that meets the boundary at the angle `θ` to the normal; only waves at a right angle pass
undisturbed, grazing ones are halved. -/
theorem C112_oblique (h0 : S.u ⬝ᵥ d ≠ 0) (hsub : |S.u ⬝ᵥ d| < S.c) {k : Fin 2 → ℝ}
    (hs : IsSound S k Dw) :
    Dh.p = (1 + k ⬝ᵥ d) / 2 * Dw.p ∧ (Dw.p ≠ 0 → (Dh.p = Dw.p ↔ k ⬝ᵥ d = 1)) := by
  have hS := hH.self
  have c0 := hS.sound_pos
  have r0 := hS.rho_pos
  obtain ⟨l1, l2⟩ := abs_lt.1 hsub
  obtain ⟨e0, -, -, e3⟩ := C112_trace ident hd hH hW h0 (by linarith) (by linarith) h
  rw [posInd, if_neg (by linarith)] at e0
  rw [posInd, if_pos (by linarith)] at e3
  have hac : S.rho * S.c * (Dw.u ⬝ᵥ d) = Dw.p * (k ⬝ᵥ d) := by
    rw [hs.u, smul_dotProduct, smul_eq_mul]; field_simp
  have hp : Dh.p = (1 + k ⬝ᵥ d) / 2 * Dw.p := by linear_combination (e0 + e3) / 2 + hac / 2
  refine ⟨hp, fun hne => ?_⟩
  rw [hp]
  constructor
  · intro e
    have : ((1 + k ⬝ᵥ d) / 2 - 1) * Dw.p = 0 := by linear_combination e
    have := (mul_eq_zero.1 this).resolve_right hne
    linarith
  · intro e; rw [e]; ring

end

/-- **C112** In contrast, an outflow with prescribed pressure reflects: the pressure of the trace is
not disturbed at all, whatever wave arrives, and its velocity is that of the interior. -/
theorem C112_pressure_outlet {H : ℝ → GasState 2} {Dh Dw : Disturbance 2} (hH : Disturbs γ S Dh H)
    (hW : Disturbs γ S Dw W) {bc : Flow 2} (hbc : bc.p = some S.p)
    (h : ∀ᶠ ε in 𝓝 0, outflowResidual γ bc (conservativeDict (W ε)) (consOf (H ε)) = .ok 0) :
    Dh.p = 0 ∧ Dh.u = Dw.u ∧ Dh.rho = Dw.rho := by
  have hS := hH.self
  have p0 : 0 < S.p := by
    rw [hS.gas_law]
    have := hS.gamma
    have := hS.rho_pos
    have := hS.T_pos
    have : 0 < γ - 1 := by linarith
    positivity
  have hev : ∀ᶠ ε in 𝓝 0, (H ε).p = S.p ∧ (H ε).u = (W ε).u ∧ (H ε).rho = (W ε).rho := by
    filter_upwards [h, hW.gas, hH.gas] with ε e1 e2 e3
    obtain ⟨R, hR, hiff⟩ := C33_outflow (S := W ε) e2 hbc p0 (H ε).rho (H ε).rho_E (H ε).rho_u
    have hR0 : R = 0 := by
      have : Except.ok R = (Except.ok 0 : Except PyErr (Fin 4 → ℝ)) := hR.symm.trans e1
      injection this
    obtain ⟨V, hV, v1, v2, v3, v4, v5, v6⟩ := hiff.1 hR0
    have hu : V.u = (H ε).u := by
      have h1 := hV.momentum
      have h2 := e3.momentum
      rw [v2, h2, v1] at h1
      funext j
      have := congrFun h1 j
      simp only [Pi.smul_apply, smul_eq_mul] at this
      exact (mul_left_cancel₀ e3.rho_pos.ne' this).symm
    have hp : V.p = (H ε).p := by
      have a := congrFun (consOf_gas hV) 3
      have b := congrFun (consOf_gas e3) 3
      have c : consOf V 3 = consOf (H ε) 3 := v3
      rw [a, b] at c
      simp only [hu, v1, Matrix.cons_val] at c
      have hγ := hV.gamma
      have : V.p / (γ - 1) = (H ε).p / (γ - 1) := by linarith
      field_simp [show γ - 1 ≠ 0 by linarith] at this
      exact this
    exact ⟨hp ▸ v6, hu ▸ v5, v1 ▸ v4⟩
  refine ⟨?_, ?_, ?_⟩
  · refine hH.p.unique ((hasDerivAt_const (0 : ℝ) S.p).congr_of_eventuallyEq ?_)
    filter_upwards [hev] with ε e; exact e.1
  · funext j
    refine (hH.u j).unique ((hW.u j).congr_of_eventuallyEq ?_)
    filter_upwards [hev] with ε e; rw [e.2.1]
  · refine hH.rho.unique (hW.rho.congr_of_eventuallyEq ?_)
    filter_upwards [hev] with ε e; exact e.2.2

/-! ### The trace exists -/

section Implicit
variable (Q P : Matrix (Fin 4) (Fin 4) ℝ) (hQP : Q * P = 1) (δ : Fin 4 → ℝ)

/-- The linearised condition and its inverse. -/
def condEquiv : ((Fin 4 → ℝ) × (Fin 4 → ℝ)) ≃ₗ[ℝ] ((Fin 4 → ℝ) × (Fin 4 → ℝ)) where
  toFun x := (Q *ᵥ x.1 - δ * (Q *ᵥ x.2), x.2)
  invFun y := (P *ᵥ (y.1 + δ * (Q *ᵥ y.2)), y.2)
  map_add' x y := by
    ext i
    · simp [Matrix.mulVec_add, mul_add]; ring
    · simp
  map_smul' c x := by
    ext i
    · simp [Matrix.mulVec_smul]; ring
    · simp
  left_inv x := by
    ext i
    · simp [Matrix.mulVec_mulVec, mul_eq_one_comm.1 hQP]
    · simp
  right_inv y := by
    ext i
    · simp [Matrix.mulVec_mulVec, hQP]
    · simp

end Implicit

/-- Solutions of a condition whose outgoing components follow a given family. -/
theorem implicit_family {Q : (Fin 4 → ℝ) → Matrix (Fin 4) (Fin 4) ℝ} {s : Fin 4 → ℝ}
    (hQ : ∀ i j, ContDiffAt ℝ 1 (fun x => Q x i j) s) {P : Matrix (Fin 4) (Fin 4) ℝ}
    (hQP : Q s * P = 1) (δ : Fin 4 → ℝ) {w : ℝ → Fin 4 → ℝ} {w' : Fin 4 → ℝ}
    (hw : HasDerivAt w w' 0) (hw0 : w 0 = s) :
    ∃ h h', h 0 = s ∧ HasDerivAt h h' (0 : ℝ) ∧
      ∀ᶠ ε in 𝓝 (0 : ℝ), ∀ i, ∑ j, Q (h ε) i j * (h ε j - (δ i * w ε j + (1 - δ i) * s j)) = 0 := by
  let f : ((Fin 4 → ℝ) × (Fin 4 → ℝ)) → ((Fin 4 → ℝ) × (Fin 4 → ℝ)) := fun x =>
    (fun i => ∑ j, Q x.1 i j * (x.1 j - (δ i * x.2 j + (1 - δ i) * s j)), x.2)
  let f' := (condEquiv (Q s) P hQP δ).toContinuousLinearEquiv
  have hfs : f (s, s) = (0, s) := by
    refine Prod.ext (funext fun i => ?_) rfl
    show ∑ j, Q s i j * (s j - (δ i * s j + (1 - δ i) * s j)) = 0
    refine Finset.sum_eq_zero fun j _ => ?_
    ring
  have hf : HasStrictFDerivAt f (f' : _ →L[ℝ] _) (s, s) := by
    have h1 : ∀ i, HasStrictFDerivAt
        (fun x : (Fin 4 → ℝ) × (Fin 4 → ℝ) =>
          ∑ j, Q x.1 i j * (x.1 j - (δ i * x.2 j + (1 - δ i) * s j)))
        ((ContinuousLinearMap.proj i).comp ((ContinuousLinearMap.fst ℝ _ _).comp
          (f' : _ →L[ℝ] ((Fin 4 → ℝ) × (Fin 4 → ℝ))))) (s, s) := by
      intro i
      have h2 : ∀ j, HasStrictFDerivAt (fun x : (Fin 4 → ℝ) × (Fin 4 → ℝ) =>
          Q x.1 i j * (x.1 j - (δ i * x.2 j + (1 - δ i) * s j)))
          (Q s i j • ((ContinuousLinearMap.proj (R := ℝ) (φ := fun _ : Fin 4 => ℝ) j).comp
              (ContinuousLinearMap.fst ℝ _ (Fin 4 → ℝ)) -
            δ i • (ContinuousLinearMap.proj (R := ℝ) (φ := fun _ : Fin 4 => ℝ) j).comp
              (ContinuousLinearMap.snd ℝ (Fin 4 → ℝ) _))) (s, s) := by
        intro j
        have a1 : HasStrictFDerivAt (fun x => Q x i j) (fderiv ℝ (fun x => Q x i j) s) s :=
          (hQ i j).hasStrictFDerivAt one_ne_zero
        have a2 : HasStrictFDerivAt (fun x : (Fin 4 → ℝ) × (Fin 4 → ℝ) => Q x.1 i j)
            ((fderiv ℝ (fun x => Q x i j) s).comp (ContinuousLinearMap.fst ℝ _ _)) (s, s) :=
          HasStrictFDerivAt.comp (g := fun y => Q y i j)
            (f := fun x : (Fin 4 → ℝ) × (Fin 4 → ℝ) => x.1) (s, s) a1 hasStrictFDerivAt_fst
        have b1 : HasStrictFDerivAt (fun x : (Fin 4 → ℝ) × (Fin 4 → ℝ) => x.1 j)
            ((ContinuousLinearMap.proj j).comp (ContinuousLinearMap.fst ℝ _ _)) (s, s) :=
          ContinuousLinearMap.hasStrictFDerivAt (x := (s, s))
            ((ContinuousLinearMap.proj (R := ℝ) (φ := fun _ : Fin 4 => ℝ) j).comp
              (ContinuousLinearMap.fst ℝ (Fin 4 → ℝ) (Fin 4 → ℝ)))
        have b2 : HasStrictFDerivAt (fun x : (Fin 4 → ℝ) × (Fin 4 → ℝ) => x.2 j)
            ((ContinuousLinearMap.proj j).comp (ContinuousLinearMap.snd ℝ _ _)) (s, s) :=
          ContinuousLinearMap.hasStrictFDerivAt (x := (s, s))
            ((ContinuousLinearMap.proj (R := ℝ) (φ := fun _ : Fin 4 => ℝ) j).comp
              (ContinuousLinearMap.snd ℝ (Fin 4 → ℝ) (Fin 4 → ℝ)))
        have b3 := b1.sub ((b2.const_mul (δ i)).add_const ((1 - δ i) * s j))
        refine (a2.mul b3).congr_fderiv ?_
        have e : s j - (δ i * s j + (1 - δ i) * s j) = 0 := by ring
        simp [e]
      refine (HasStrictFDerivAt.fun_sum (u := Finset.univ) fun j _ => h2 j).congr_fderiv ?_
      ext x
      · simp [f', condEquiv, Matrix.mulVec, dotProduct]
      · simp [f', condEquiv, Matrix.mulVec, dotProduct, Finset.mul_sum]
        refine Finset.sum_congr rfl fun j _ => ?_
        ring
    have h3 := (hasStrictFDerivAt_pi.2 h1).prodMk
      (hasStrictFDerivAt_snd (𝕜 := ℝ) (p := ((s, s) : (Fin 4 → ℝ) × (Fin 4 → ℝ))))
    refine h3.congr_fderiv ?_
    ext x <;> simp [f', condEquiv]
  have hinv := hf.to_localInverse
  have hy : HasDerivAt (fun ε => ((0 : Fin 4 → ℝ), w ε)) ((0 : Fin 4 → ℝ), w') (0 : ℝ) :=
    (hasDerivAt_const _ _).prodMk hw
  have hy0 : ((0 : Fin 4 → ℝ), w 0) = f (s, s) := by rw [hfs, hw0]
  have h4 := (show HasFDerivAt (hf.localInverse f f' (s, s)) _ ((0 : Fin 4 → ℝ), w 0) from
    hy0 ▸ hinv.hasFDerivAt).comp_hasDerivAt (0 : ℝ) hy
  refine ⟨fun ε => (hf.localInverse f f' (s, s) (0, w ε)).1, _, ?_, h4.fst, ?_⟩
  · show (hf.localInverse f f' (s, s) (0, w 0)).1 = s
    rw [hy0, hf.localInverse_apply_image]
  · have h5 : Filter.Tendsto (fun ε => ((0 : Fin 4 → ℝ), w ε)) (𝓝 0) (𝓝 (f (s, s))) := by
      rw [← hy0]; exact hy.continuousAt.tendsto
    filter_upwards [h5.eventually hf.eventually_right_inverse] with ε hε i
    have e2 : (hf.localInverse f f' (s, s) (0, w ε)).2 = w ε := congrArg Prod.snd hε
    have e1 := congrFun (congrArg Prod.fst hε) i
    have e3 : ∑ j, Q (hf.localInverse f f' (s, s) (0, w ε)).1 i j *
        ((hf.localInverse f f' (s, s) (0, w ε)).1 j -
          (δ i * (hf.localInverse f f' (s, s) (0, w ε)).2 j + (1 - δ i) * s j)) = 0 := e1
    rw [e2] at e3
    exact e3

theorem rows_contDiffAt (hγ : 1 < γ) {w : Fin 4 → ℝ} (hw : GasVec (n := 2) w) (i j : Fin 4) :
    ContDiffAt ℝ 1 (fun x : Fin 4 → ℝ => waveRows γ d (gasOf (n := 2) γ x) i j) w := by
  have hc : ContDiffAt ℝ 1 (fun x : Fin 4 → ℝ => (gasOf (n := 2) γ x).c) w :=
    soundOf_contDiffAt (n := 2) hγ hw
  have hr : ContDiffAt ℝ 1 (fun x : Fin 4 → ℝ => (gasOf (n := 2) γ x).rho) w := by
    show ContDiffAt ℝ 1 (fun x : Fin 4 → ℝ => x 0) w
    fun_prop
  have h0 : ContDiffAt ℝ 1 (fun x : Fin 4 → ℝ => (gasOf (n := 2) γ x).u 0) w := by
    show ContDiffAt ℝ 1 (fun x : Fin 4 → ℝ => (x 0)⁻¹ * x 1) w
    exact (ContDiffAt.inv hr hw.1.ne').mul (by fun_prop)
  have h1 : ContDiffAt ℝ 1 (fun x : Fin 4 → ℝ => (gasOf (n := 2) γ x).u 1) w := by
    show ContDiffAt ℝ 1 (fun x : Fin 4 → ℝ => (x 0)⁻¹ * x 2) w
    exact (ContDiffAt.inv hr hw.1.ne').mul (by fun_prop)
  have hrn : (gasOf (n := 2) γ w).rho ≠ 0 := hw.1.ne'
  unfold waveRows matPinv
  generalize (fun x : Fin 4 → ℝ => gasOf (n := 2) γ x) = G at *
  fin_cases i <;> fin_cases j <;>
    simp [dotProduct, Fin.sum_univ_two] <;> fun_prop (disch := assumption)

/-- **C112** The trace exists: for every disturbance of the interior there are traces near the
farfield that satisfy the condition, for both versions, and they depend differentiably on the
amplitude, so that the statements above apply to them. -/
theorem C112_exists (ident : Bool) (hd : d 0 ^ 2 + d 1 ^ 2 = 1) {Dw : Disturbance 2}
    (hW : Disturbs γ S Dw W) (h0 : S.u ⬝ᵥ d ≠ 0) (h1 : S.u ⬝ᵥ d ≠ S.c) (h2 : S.u ⬝ᵥ d ≠ -S.c) :
    ∃ H Dh, Disturbs γ S Dh H ∧ ∀ᶠ ε in 𝓝 0, farfieldResidual γ ident (conservativeDict S) d
      (consOf (W ε)) (consOf (H ε)) (conservativeDict (H ε)) = .ok 0 := by
  have hS := hW.self
  have hγ := hS.gamma
  have hg : GasVec (n := 2) (consOf S) := gasVec_of hS
  have hback : gasOf (n := 2) γ (consOf S) = S := by
    have hi := gasOf_ideal (n := 2) hγ hg
    have hv : consOf (gasOf (n := 2) γ (consOf S)) = consOf S := gasOf_vec hg
    exact gas_of_cons hi hS hv
  have hl : ∀ i, lams S.c S.u d i ≠ 0 := by
    intro i
    fin_cases i
    · exact sub_ne_zero.2 h1
    · exact h0
    · exact h0
    · exact fun h => h2 (eq_neg_of_add_eq_zero_left h)
  obtain ⟨h, h', e0, e1, e2⟩ := implicit_family (Q := fun x => waveRows γ d (gasOf (n := 2) γ x))
    (s := consOf S) (fun i j => rows_contDiffAt hγ hg i j) (P := matP γ S.rho S.c S.u d)
    (by rw [hback]; exact Pinv_mul_P hS.rho_pos.ne' hS.sound_pos.ne' (by linarith) hd)
    (fun i => posInd (lams S.c S.u d i)) (hasDerivAt_pi.2 fun i => hW.cons_deriv i)
    (by rw [hW.zero])
  have hgas : ∀ᶠ ε in 𝓝 0, GasVec (n := 2) (h ε) :=
    e1.continuousAt.eventually (by rw [e0]; exact gasVec_nhds hg)
  have k := hasDerivAt_pi.1 e1
  have hn : h 0 0 ≠ 0 := by rw [e0]; exact hS.rho_pos.ne'
  have hH : ∃ Dh, Disturbs γ S Dh fun ε => gasOf (n := 2) γ (h ε) := by
    have hp : DifferentiableAt ℝ (fun ε => (gasOf (n := 2) γ (h ε)).p) 0 := by
      have hi : DifferentiableAt ℝ (fun ε => innerOf (n := 2) (h ε)) 0 :=
        ((innerOf_contDiffAt (n := 2) hn).differentiableAt one_ne_zero).comp (0 : ℝ) e1.differentiableAt
      show DifferentiableAt ℝ (fun ε => (γ - 1) * (h ε 0 * innerOf (n := 2) (h ε))) 0
      exact ((k 0).differentiableAt.mul hi).const_mul _
    have hu : ∀ j : Fin 2, DifferentiableAt ℝ (fun ε => (gasOf (n := 2) γ (h ε)).u j) 0 := by
      intro j
      show DifferentiableAt ℝ (fun ε => (h ε 0)⁻¹ * mom (n := 2) (h ε) j) 0
      refine ((k 0).differentiableAt.inv hn).mul ?_
      fin_cases j
      · exact (k 1).differentiableAt
      · exact (k 2).differentiableAt
    refine ⟨⟨h' 0, fun j => deriv (fun ε => (gasOf (n := 2) γ (h ε)).u j) 0,
      deriv (fun ε => (gasOf (n := 2) γ (h ε)).p) 0⟩, ?_, ?_, k 0, fun j => (hu j).hasDerivAt,
      hp.hasDerivAt⟩
    · show gasOf (n := 2) γ (h 0) = S
      rw [e0, hback]
    · filter_upwards [hgas] with ε hε
      exact gasOf_ideal hγ hε
  obtain ⟨Dh, hH⟩ := hH
  refine ⟨_, Dh, hH, ?_⟩
  have hz : gasOf (n := 2) γ (h 0) = S := hH.zero
  have hev : ∀ᶠ ε in 𝓝 0, ∀ i, lams (gasOf (n := 2) γ (h ε)).c (gasOf (n := 2) γ (h ε)).u d i ≠ 0 ∧
      (0 < lams (gasOf (n := 2) γ (h ε)).c (gasOf (n := 2) γ (h ε)).u d i ↔ 0 < lams S.c S.u d i) := by
    rw [Filter.eventually_all]
    intro i
    rcases lt_or_gt_of_ne (hl i) with hi | hi
    · filter_upwards [(hH.lams_cont (d := d) i).eventually
        (gt_mem_nhds (by simpa only [hz] using hi))] with ε hε
      exact ⟨hε.ne, by simp only [not_lt.2 hε.le, not_lt.2 hi.le]⟩
    · filter_upwards [(hH.lams_cont (d := d) i).eventually
        (lt_mem_nhds (by simpa only [hz] using hi))] with ε hε
      exact ⟨hε.ne', by simp only [hε, hi]⟩
  filter_upwards [e2, hgas, hev] with ε q1 q2 q3
  have hv : consOf (gasOf (n := 2) γ (h ε)) = h ε := gasOf_vec q2
  rw [farfield_iff ident hS (gasOf_ideal hγ q2) hd fun i => (q3 i).1, hv]
  intro i
  have q := q1 i
  constructor
  · intro hi
    rw [posInd, if_pos ((q3 i).2.1 hi)] at q
    simp only [one_mul, sub_self, zero_mul, add_zero] at q
    exact q
  · intro hi
    rw [posInd, if_neg (fun h => absurd ((q3 i).2.2 h) (not_lt.2 hi.le))] at q
    simp only [zero_mul, zero_add, sub_zero, one_mul] at q
    exact q

/-- **C112** An inviscid wall along the flow reflects: the velocity through the wall is not disturbed,
all else passes on. With the pressure of the interior the force of the wall answers every wave. -/
theorem C112_wall (hd : d 0 ^ 2 + d 1 ^ 2 = 1) {H : ℝ → GasState 2} {Dh Dw : Disturbance 2}
    (hH : Disturbs γ S Dh H) (hW : Disturbs γ S Dw W) (h0 : S.u ⬝ᵥ d = 0)
    (h : ∀ᶠ ε in 𝓝 0, inviscidWallResidual γ d (conservativeDict (W ε)) (consOf (H ε)) = .ok 0) :
    Dh.u ⬝ᵥ d = 0 ∧ Dh.u ⬝ᵥ ![d 1, -d 0] = Dw.u ⬝ᵥ ![d 1, -d 0] ∧ Dh.p = Dw.p ∧ Dh.rho = Dw.rho := by
  have hS := hH.self
  have hγ := hS.gamma
  have hdd : d ⬝ᵥ d = 1 := by simp only [dotProduct, Fin.sum_univ_two]; linear_combination hd
  have hev : ∀ᶠ ε in 𝓝 0, (H ε).u ⬝ᵥ d = 0 ∧
      (H ε).u ⬝ᵥ ![d 1, -d 0] = (W ε).u ⬝ᵥ ![d 1, -d 0] ∧
      (H ε).p = (W ε).p + (γ - 1) / 2 * ((W ε).rho * ((W ε).u ⬝ᵥ d) ^ 2) ∧ (H ε).rho = (W ε).rho := by
    filter_upwards [h, hW.gas, hH.gas] with ε e1 e2 e3
    obtain ⟨R, hR, hiff⟩ := C33_inviscid_wall (γ := γ) (S := W ε) hdd (H ε).rho (H ε).rho_E (H ε).rho_u
    have hR0 : R = 0 := by
      have : Except.ok R = (Except.ok 0 : Except PyErr (Fin 4 → ℝ)) := hR.symm.trans e1
      injection this
    obtain ⟨v1, v2, v3, v4⟩ := hiff.1 hR0
    have v5 := v4 ![d 1, -d 0] (by simp [dotProduct, Fin.sum_univ_two]; ring)
    rw [e3.momentum, smul_dotProduct, smul_eq_mul] at v3 v5
    rw [e2.momentum, smul_dotProduct, smul_eq_mul, v1] at v5
    have r0 := e2.rho_pos.ne'
    have hn : (H ε).u ⬝ᵥ d = 0 := by
      rw [v1] at v3
      exact (mul_eq_zero.1 v3).resolve_left r0
    have ht := mul_left_cancel₀ r0 v5
    refine ⟨hn, ht, ?_, v1⟩
    have a := congrFun (consOf_gas e3) 3
    have b := congrFun (consOf_gas e2) 3
    have c : consOf (H ε) 3 = consOf (W ε) 3 := v2
    rw [a, b] at c
    simp only [v1, Matrix.cons_val] at c
    simp only [dotProduct, Fin.sum_univ_two, Matrix.cons_val_zero, Matrix.cons_val_one] at hn ht ⊢
    have k1 : (H ε).u 0 ^ 2 + (H ε).u 1 ^ 2 = ((W ε).u 0 * d 1 + (W ε).u 1 * -d 0) ^ 2 := by
      rw [← ht]
      linear_combination (-((H ε).u 0 ^ 2 + (H ε).u 1 ^ 2)) * hd +
        ((H ε).u 0 * d 0 + (H ε).u 1 * d 1) * hn
    have k2 : (W ε).u 0 ^ 2 + (W ε).u 1 ^ 2 = ((W ε).u 0 * d 1 + (W ε).u 1 * -d 0) ^ 2 +
        ((W ε).u 0 * d 0 + (W ε).u 1 * d 1) ^ 2 := by
      linear_combination (-((W ε).u 0 ^ 2 + (W ε).u 1 ^ 2)) * hd
    rw [k1, k2] at c
    have g1 : γ - 1 ≠ 0 := by linarith
    have : (H ε).p / (γ - 1) = (W ε).p / (γ - 1) +
        (W ε).rho * ((W ε).u 0 * d 0 + (W ε).u 1 * d 1) ^ 2 / 2 := by linarith
    field_simp at this
    linarith
  have hdot : ∀ {D : Disturbance 2} {V : ℝ → GasState 2} (v : Fin 2 → ℝ), Disturbs γ S D V →
      HasDerivAt (fun ε => (V ε).u ⬝ᵥ v) (D.u ⬝ᵥ v) 0 := by
    intro D V v hV
    simp only [dotProduct, Fin.sum_univ_two]
    exact ((hV.u 0).mul_const _).add ((hV.u 1).mul_const _)
  refine ⟨?_, ?_, ?_, ?_⟩
  · refine (hdot d hH).unique ((hasDerivAt_const (0 : ℝ) (0 : ℝ)).congr_of_eventuallyEq ?_)
    filter_upwards [hev] with ε e; exact e.1
  · refine (hdot _ hH).unique ((hdot _ hW).congr_of_eventuallyEq ?_)
    filter_upwards [hev] with ε e; exact e.2.1
  · have hsq : HasDerivAt (fun ε => (W ε).p + (γ - 1) / 2 * ((W ε).rho * ((W ε).u ⬝ᵥ d) ^ 2)) Dw.p 0 := by
      have h1 := hW.p.add ((hW.rho.mul ((hdot d hW).pow 2)).const_mul ((γ - 1) / 2))
      have e : Dw.p + (γ - 1) / 2 * (Dw.rho * ((W 0).u ⬝ᵥ d) ^ 2 +
          (W 0).rho * (((2 : ℕ) : ℝ) * ((W 0).u ⬝ᵥ d) ^ (2 - 1) * (Dw.u ⬝ᵥ d))) = Dw.p := by
        rw [hW.zero, h0]; simp
      rw [← e]
      exact h1
    refine hH.p.unique (hsq.congr_of_eventuallyEq ?_)
    filter_upwards [hev] with ε e; exact e.2.2.1
  · refine hH.rho.unique (hW.rho.congr_of_eventuallyEq ?_)
    filter_upwards [hev] with ε e; exact e.2.2.2

/-! ### Examples -/

/-- Every disturbance of every gas is that of a family of gases. -/
theorem exists_disturbs (hS : IdealGas γ S) (D : Disturbance 2) : ∃ W, Disturbs γ S D W := by
  have hγ := hS.gamma
  have hg : γ - 1 ≠ 0 := by linarith
  have hp := hS.p_pos
  let r : ℝ → ℝ := fun ε => S.rho + ε * D.rho
  let q : ℝ → ℝ := fun ε => S.p + ε * D.p
  have hr : HasDerivAt r D.rho 0 := by
    have h := ((hasDerivAt_id (0 : ℝ)).mul_const D.rho).const_add S.rho
    rw [one_mul] at h
    exact h
  have hq : HasDerivAt q D.p 0 := by
    have h := ((hasDerivAt_id (0 : ℝ)).mul_const D.p).const_add S.p
    rw [one_mul] at h
    exact h
  have r0 : ∀ᶠ ε in 𝓝 0, 0 < r ε :=
    hr.continuousAt.eventually (lt_mem_nhds (by simpa [r] using hS.rho_pos))
  have q0 : ∀ᶠ ε in 𝓝 0, 0 < q ε :=
    hq.continuousAt.eventually (lt_mem_nhds (by simpa [q] using hp))
  have hid : ∀ ε, 0 < r ε → 0 < q ε →
      IdealGas γ (GasState.of γ (r ε) (S.u + ε • D.u) (q ε / ((γ - 1) * r ε))) := fun ε h1 h2 =>
    IdealGas.of hγ h1 (div_pos h2 (mul_pos (by linarith) h1))
  refine ⟨fun ε => GasState.of γ (r ε) (S.u + ε • D.u) (q ε / ((γ - 1) * r ε)), ?_, ?_, hr, ?_, ?_⟩
  · refine gas_ext (hid 0 r0.self_of_nhds q0.self_of_nhds) hS ?_ ?_ ?_
    · simp [GasState.of, r]
    · simp [GasState.of]
    · have := hS.rho_pos.ne'
      simp [GasState.of, r, q]
      field_simp
  · filter_upwards [r0, q0] with ε h1 h2
    exact hid ε h1 h2
  · intro j
    simpa [GasState.of] using ((hasDerivAt_id (0 : ℝ)).mul_const (D.u j)).const_add (S.u j)
  · refine hq.congr_of_eventuallyEq ?_
    filter_upwards [r0] with ε h1
    have := h1.ne'
    show (γ - 1) * (r ε * (q ε / ((γ - 1) * r ε))) = q ε
    field_simp

/-- A flow to the right with half the speed of sound. -/
def breeze : GasState 2 := GasState.of (7/5) 1 ![1/2, 0] (25/14)

theorem breeze_gas : IdealGas (7/5) breeze := IdealGas.of (by norm_num) (by norm_num) (by norm_num)

theorem breeze_c : breeze.c = 1 := by
  show √(7/5 * (7/5 - 1) * (25/14)) = 1
  norm_num

/-- A sound wave that leaves this flow at its right end at the angle with cosine 3/5 exists, with its
traces, and these take four fifths of its pressure. -/
example (ident : Bool) : ∃ W H Dh, Disturbs (7/5) breeze ⟨1, ![3/5, 4/5], 1⟩ W ∧
    Disturbs (7/5) breeze Dh H ∧ Dh.p = 4/5 ∧ ∀ᶠ ε in 𝓝 0,
      farfieldResidual (7/5) ident (conservativeDict breeze) ![1, 0] (consOf (W ε)) (consOf (H ε))
        (conservativeDict (H ε)) = .ok 0 := by
  have hd : (![1, 0] : Fin 2 → ℝ) 0 ^ 2 + (![1, 0] : Fin 2 → ℝ) 1 ^ 2 = 1 := by norm_num
  have hu : breeze.u ⬝ᵥ ![1, 0] = 1/2 := by simp [breeze, GasState.of]
  obtain ⟨W, hW⟩ := exists_disturbs breeze_gas ⟨1, ![3/5, 4/5], 1⟩
  obtain ⟨H, Dh, hH, h⟩ := C112_exists ident hd hW (by rw [hu]; norm_num) (by rw [hu, breeze_c]; norm_num)
    (by rw [hu, breeze_c]; norm_num)
  refine ⟨W, H, Dh, hW, hH, ?_, h⟩
  rw [(C112_oblique ident hd hH hW h (by rw [hu]; norm_num) (by rw [hu, breeze_c]; norm_num [abs_lt])
    (k := ![3/5, 4/5]) ⟨by simp [breeze_c], by simp [breeze_c, breeze, GasState.of]; norm_num⟩).1]
  norm_num

/-- The wave at a right angle passes. -/
example (ident : Bool) : ∃ W H, Disturbs (7/5) breeze ⟨1, ![1, 0], 1⟩ W ∧
    Disturbs (7/5) breeze ⟨1, ![1, 0], 1⟩ H ∧ ∀ᶠ ε in 𝓝 0,
      farfieldResidual (7/5) ident (conservativeDict breeze) ![1, 0] (consOf (W ε)) (consOf (H ε))
        (conservativeDict (H ε)) = .ok 0 := by
  have hd : (![1, 0] : Fin 2 → ℝ) 0 ^ 2 + (![1, 0] : Fin 2 → ℝ) 1 ^ 2 = 1 := by norm_num
  have hu : breeze.u ⬝ᵥ ![1, 0] = 1/2 := by simp [breeze, GasState.of]
  obtain ⟨W, hW⟩ := exists_disturbs breeze_gas ⟨1, ![1, 0], 1⟩
  obtain ⟨H, Dh, hH, h⟩ := C112_exists ident hd hW (by rw [hu]; norm_num) (by rw [hu, breeze_c]; norm_num)
    (by rw [hu, breeze_c]; norm_num)
  have := C112_leaves ident hd hH hW h (by rw [hu]; norm_num) (by rw [hu, breeze_c]; norm_num [abs_lt])
    ⟨by simp [breeze_c], by simp [breeze_c, breeze, GasState.of]; norm_num⟩
  exact ⟨W, H, hW, this ▸ hH, h⟩

/-- A sound wave meets an outlet with prescribed pressure: the traces exist and their pressure is not
disturbed, although that of the wave is. -/
example : ∃ W H Dh, Disturbs (7/5) breeze ⟨1, ![1, 0], 1⟩ W ∧ Disturbs (7/5) breeze Dh H ∧ Dh.p = 0 ∧
    ∀ᶠ ε in 𝓝 0, outflowResidual (7/5) { p := some breeze.p } (conservativeDict (W ε)) (consOf (H ε)) =
      .ok 0 := by
  obtain ⟨W, hW⟩ := exists_disturbs breeze_gas ⟨1, ![1, 0], 1⟩
  have p0 := breeze_gas.p_pos
  let H : ℝ → GasState 2 := fun ε =>
    GasState.of (7/5) (W ε).rho (W ε).u (breeze.p / ((7/5 - 1) * (W ε).rho))
  have hid : ∀ᶠ ε in 𝓝 0, IdealGas (7/5) (H ε) := by
    filter_upwards [hW.gas] with ε e
    exact IdealGas.of (by norm_num) e.rho_pos (div_pos p0 (mul_pos (by norm_num) e.rho_pos))
  have hp : ∀ᶠ ε in 𝓝 0, (H ε).p = breeze.p := by
    filter_upwards [hW.gas] with ε e
    have := e.rho_pos.ne'
    show (7/5 - 1) * ((W ε).rho * (breeze.p / ((7/5 - 1) * (W ε).rho))) = breeze.p
    field_simp
  have hH : Disturbs (7/5) breeze ⟨1, ![1, 0], 0⟩ H := by
    refine ⟨gas_ext hid.self_of_nhds breeze_gas ?_ ?_ hp.self_of_nhds, hid, hW.rho, hW.u,
      (hasDerivAt_const (0 : ℝ) breeze.p).congr_of_eventuallyEq hp⟩
    · show (W 0).rho = _; rw [hW.zero]
    · show (W 0).u = _; rw [hW.zero]
  refine ⟨W, H, _, hW, hH, rfl, ?_⟩
  filter_upwards [hW.gas, hid, hp] with ε e1 e2 e3
  obtain ⟨R, hR, hiff⟩ := C33_outflow (S := W ε) (bc := { p := some breeze.p }) e1 rfl p0
    (H ε).rho (H ε).rho_E (H ε).rho_u
  rw [← hiff.2 ⟨H ε, e2, rfl, rfl, rfl, rfl, rfl, e3⟩]
  exact hR

/-- A sound wave meets a wall at a right angle: the traces exist, the velocity through the wall is that
of the wall, the pressure that of the wave. -/
example : ∃ W H Dh, Disturbs (7/5) breeze ⟨1, ![0, 1], 1⟩ W ∧ Disturbs (7/5) breeze Dh H ∧
    Dh.u = 0 ∧ Dh.p = 1 ∧ ∀ᶠ ε in 𝓝 0, inviscidWallResidual (7/5) ![0, 1] (conservativeDict (W ε))
      (consOf (H ε)) = .ok 0 := by
  obtain ⟨W, hW⟩ := exists_disturbs breeze_gas ⟨1, ![0, 1], 1⟩
  have hdd : (![0, 1] : Fin 2 → ℝ) ⬝ᵥ ![0, 1] = 1 := by simp
  let q : ℝ → ℝ := fun ε => (W ε).p + 1/5 * ((W ε).rho * (W ε).u 1 ^ 2)
  let H : ℝ → GasState 2 := fun ε =>
    GasState.of (7/5) (W ε).rho ![(W ε).u 0, 0] (q ε / ((7/5 - 1) * (W ε).rho))
  have hq0 : ∀ᶠ ε in 𝓝 0, 0 < q ε := by
    filter_upwards [hW.gas] with ε e
    have := e.rho_pos
    have := e.p_pos
    positivity
  have hid : ∀ᶠ ε in 𝓝 0, IdealGas (7/5) (H ε) := by
    filter_upwards [hW.gas, hq0] with ε e e'
    exact IdealGas.of (by norm_num) e.rho_pos (div_pos e' (mul_pos (by norm_num) e.rho_pos))
  have hp : ∀ᶠ ε in 𝓝 0, (H ε).p = q ε := by
    filter_upwards [hW.gas] with ε e
    have := e.rho_pos.ne'
    show (7/5 - 1) * ((W ε).rho * (q ε / ((7/5 - 1) * (W ε).rho))) = q ε
    field_simp
  have hb1 : breeze.u 1 = 0 := rfl
  have hq : HasDerivAt q 1 0 := by
    have h1 := hW.p.add ((hW.rho.mul ((hW.u 1).pow 2)).const_mul (1 / 5))
    have e : (1 : ℝ) + 1 / 5 * (1 * (W 0).u 1 ^ 2 +
        (W 0).rho * (((2 : ℕ) : ℝ) * (W 0).u 1 ^ (2 - 1) * (![0, 1] : Fin 2 → ℝ) 1)) = 1 := by
      rw [hW.zero, hb1]; simp
    rw [← e]
    exact h1
  have hH : Disturbs (7/5) breeze ⟨1, 0, 1⟩ H := by
    refine ⟨gas_ext hid.self_of_nhds breeze_gas ?_ ?_ ?_, hid, hW.rho, ?_,
      hq.congr_of_eventuallyEq hp⟩
    · show (W 0).rho = _; rw [hW.zero]
    · show ![(W 0).u 0, 0] = _
      rw [hW.zero]
      funext j
      fin_cases j
      · rfl
      · exact hb1.symm
    · rw [hp.self_of_nhds]
      show (W 0).p + 1/5 * ((W 0).rho * (W 0).u 1 ^ 2) = _
      rw [hW.zero, hb1]; ring
    · intro j
      fin_cases j
      · exact hW.u 0
      · exact hasDerivAt_const _ _
  refine ⟨W, H, _, hW, hH, rfl, rfl, ?_⟩
  filter_upwards [hW.gas, hid, hp] with ε e1 e2 e3
  obtain ⟨R, hR, hiff⟩ := C33_inviscid_wall (γ := 7/5) (S := W ε) hdd (H ε).rho (H ε).rho_E (H ε).rho_u
  rw [← hiff.2 ⟨rfl, ?_, ?_, ?_⟩]
  · exact hR
  · have a : (H ε).rho_E = _ := congrFun (consOf_gas e2) 3
    have b : (W ε).rho_E = _ := congrFun (consOf_gas e1) 3
    rw [a, b]
    simp only [Matrix.cons_val, e3]
    show q ε / (7/5 - 1) + (W ε).rho * ((W ε).u 0 ^ 2 + 0 ^ 2) / 2 = _
    simp only [q]
    ring
  · rw [e2.momentum]
    simp [H, GasState.of]
  · intro t ht
    have t1 : t 1 = 0 := by simpa [dotProduct, Fin.sum_univ_two] using ht
    rw [e2.momentum, e1.momentum]
    simp [H, GasState.of, dotProduct, Fin.sum_univ_two, t1]

end

end Dream
