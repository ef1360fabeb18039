import Verif.Props.Sound
import Verif.Model.Relax
import Verif.Spec.Relax
import Mathlib.Analysis.Calculus.ImplicitContDiff
import Mathlib.Analysis.SpecificLimits.Basic

/-!
# C113: waves at characteristic boundaries
-/

namespace Dream
open Matrix _root_.Spec Topology

noncomputable section

variable {γ M : ℝ} {d : Fin 2 → ℝ} {S : GasState 2}

theorem amp_waves (D : Disturbance 2) : D.amp S d = D.waves S d := by
  funext i
  fin_cases i <;>
    simp [Disturbance.amp, Disturbance.waves, Disturbance.vec, Matrix.mulVec, dotProduct,
      Fin.sum_univ_succ, matLinv] <;> ring

/-! ### The relaxation rates -/

/-- The rates do not depend on the flow or are proportional to its speed of sound. -/
theorem rates_form (k : CbcKind) (dt M : ℝ) : (∃ e, ∀ c, k.rates dt M c = .error e) ∨
    ∃ l : List (ℝ × ℝ), ∀ c, k.rates dt M c = .ok (l.map fun x => x.1 + x.2 * c) := by
  cases k with
  | grcbc f =>
    simp only [CbcKind.rates, grcbcDiagonal, bind, Except.bind]
    cases cbcFactors 2 f with
    | error e => exact .inl ⟨e, fun _ => rfl⟩
    | ok l => exact .inr ⟨l.map fun kv => (kv.2 / dt, 0), fun c => by simp⟩
  | nscbc f L =>
    simp only [CbcKind.rates, nscbcDiagonal, bind, Except.bind]
    cases cbcFactors 2 f with
    | error e => exact .inl ⟨e, fun _ => rfl⟩
    | ok l =>
      refine .inr ⟨((l.map Prod.snd).zipWith (fun s e => (0, s * e / L)) [1 - M ^ 2, 1, 1, 1 - M ^ 2]),
        fun c => ?_⟩
      have e : [c * (1 - M ^ 2)] ++ List.replicate 2 c ++ [c * (1 - M ^ 2)] =
          [1 - M ^ 2, 1, 1, 1 - M ^ 2].map fun x => c * x := by simp [List.replicate]
      simp only [e, List.zipWith_map_right, List.map_zipWith]
      congr 2
      funext a b
      ring

/-- The rates of a condition at a flow with given speed of sound. -/
def rateAt (l : List (ℝ × ℝ)) (c : ℝ) (i : Fin 4) : ℝ := (l.map fun x => x.1 + x.2 * c).getD i 0

theorem rateAt_eq (l : List (ℝ × ℝ)) (i : Fin 4) : ∃ a b, ∀ c, rateAt l c i = a + b * c := by
  refine ⟨(l.getD i (0, 0)).1, (l.getD i (0, 0)).2, fun c => ?_⟩
  have h := List.getD_map (l := l) (n := (i : ℕ)) (0, 0) (fun x : ℝ × ℝ => x.1 + x.2 * c)
  simp only [zero_mul, add_zero] at h
  exact h

/-! ### The state that is prescribed -/

/-- A gas with given density, velocity and pressure. -/
def gasFrom (γ rho : ℝ) (u : Fin 2 → ℝ) (p : ℝ) : GasState 2 :=
  GasState.of γ rho u (p / ((γ - 1) * rho))

theorem gasFrom_ideal {rho p : ℝ} {u : Fin 2 → ℝ} (hγ : 1 < γ) (hr : 0 < rho) (hp : 0 < p) :
    IdealGas γ (gasFrom γ rho u p) :=
  IdealGas.of hγ hr (div_pos hp (mul_pos (by linarith) hr))

theorem gasFrom_p {rho p : ℝ} {u : Fin 2 → ℝ} (hγ : 1 < γ) (hr : 0 < rho) :
    (gasFrom γ rho u p).p = p := by
  have h1 : γ - 1 ≠ 0 := by linarith
  have := hr.ne'
  show (γ - 1) * (rho * (p / ((γ - 1) * rho))) = p
  field_simp

/-- What the targets prescribe: all of the given gas; its pressure, with density and velocity of the
interior; its density and velocity, with the pressure of the interior. -/
def targetGas (γ : ℝ) (t : CbcTarget) (S W : GasState 2) : GasState 2 :=
  match t with
  | .outflow => gasFrom γ W.rho W.u S.p
  | .massInflow => gasFrom γ S.rho S.u W.p
  | _ => S

/-- The disturbance of what the targets prescribe: none; that of the density and velocity of the
interior; that of its pressure. -/
def targetDist (t : CbcTarget) (D : Disturbance 2) : Disturbance 2 :=
  match t with
  | .outflow => ⟨D.rho, D.u, 0⟩
  | .massInflow => ⟨0, 0, D.p⟩
  | _ => ⟨0, 0, 0⟩

theorem targetGas_state {W : GasState 2} (hS : IdealGas γ S) (hW : IdealGas γ W) {t : CbcTarget}
    (ht : t ≠ .temperatureInflow) :
    cbcState γ t (conservativeDict S) (conservativeDict W) = .ok (consOf (targetGas γ t S W)) := by
  have hγ := hS.gamma
  have g1 : γ - 1 ≠ 0 := by linarith
  have r1 := hW.rho_pos.ne'
  have r2 := hS.rho_pos.ne'
  cases t with
  | farfield => exact stateVec_dict γ S
  | outflow =>
    have e1 : (gasFrom γ W.rho W.u S.p).rho_E = S.p / (γ - 1) + W.rho_Ek := by
      have := hW.rho_Ek; have := hW.kinetic
      simp [gasFrom, GasState.of, *]
      field_simp
    have e2 : (gasFrom γ W.rho W.u S.p).rho_u = W.rho_u := by rw [hW.momentum]; rfl
    simp [cbcState, outflowState, stateVec, given, conservativeDict, density, EOS.density, momentum,
      energy, innerEnergy, EOS.innerEnergy, kineticEnergy, equation, equationE, bind, Except.bind,
      targetGas, consOf, e1, e2]
    rfl
  | massInflow =>
    have e1 : (gasFrom γ S.rho S.u W.p).rho_E = W.p / (γ - 1) + S.rho_Ek := by
      have := hS.rho_Ek; have := hS.kinetic
      simp [gasFrom, GasState.of, *]
      field_simp
    have e2 : (gasFrom γ S.rho S.u W.p).rho_u = S.rho_u := by rw [hS.momentum]; rfl
    simp [cbcState, stateVec, given, conservativeDict, density, EOS.density, momentum,
      energy, innerEnergy, EOS.innerEnergy, kineticEnergy, equation, equationE, bind, Except.bind,
      targetGas, consOf, e1, e2]
    rfl
  | temperatureInflow => exact absurd rfl ht

theorem disturbs_gasFrom {r p : ℝ → ℝ} {u : ℝ → Fin 2 → ℝ} {D : Disturbance 2} (hS : IdealGas γ S)
    (hr : HasDerivAt r D.rho 0) (hu : ∀ j, HasDerivAt (fun ε => u ε j) (D.u j) 0)
    (hp : HasDerivAt p D.p 0) (r0 : r 0 = S.rho) (u0 : u 0 = S.u) (p0 : p 0 = S.p) :
    Disturbs γ S D fun ε => gasFrom γ (r ε) (u ε) (p ε) := by
  have hγ := hS.gamma
  have h1 : ∀ᶠ ε in 𝓝 0, 0 < r ε := hr.continuousAt.eventually (lt_mem_nhds (r0 ▸ hS.rho_pos))
  have h2 : ∀ᶠ ε in 𝓝 0, 0 < p ε := hp.continuousAt.eventually (lt_mem_nhds (p0 ▸ hS.p_pos))
  refine ⟨?_, ?_, hr, hu, hp.congr_of_eventuallyEq ?_⟩
  · refine gas_ext (gasFrom_ideal hγ h1.self_of_nhds h2.self_of_nhds) hS r0 u0 ?_
    rw [gasFrom_p hγ h1.self_of_nhds, p0]
  · filter_upwards [h1, h2] with ε e1 e2
    exact gasFrom_ideal hγ e1 e2
  · filter_upwards [h1] with ε e1
    exact gasFrom_p hγ e1

theorem targetGas_disturbs {W : ℝ → GasState 2} {Dw : Disturbance 2} (hW : Disturbs γ S Dw W)
    (t : CbcTarget) : Disturbs γ S (targetDist t Dw) fun ε => targetGas γ t S (W ε) := by
  have hS := hW.self
  have h0 := hW.zero
  cases t with
  | outflow =>
    exact disturbs_gasFrom hS hW.rho hW.u (hasDerivAt_const _ _) (by rw [h0]) (by rw [h0]) rfl
  | massInflow =>
    exact disturbs_gasFrom hS (hasDerivAt_const _ _) (fun _ => hasDerivAt_const _ _) hW.p rfl rfl
      (by rw [h0])
  | farfield => exact disturbs_const hS
  | temperatureInflow => exact disturbs_const hS

/-! ### The condition in terms of waves -/

theorem cbc_iff {t : CbcTarget} {bc U : Flow 2} {H : GasState 2} (hH : IdealGas γ H)
    (hd : d 0 ^ 2 + d 1 ^ 2 = 1) (hl : ∀ i, lams H.c H.u d i ≠ 0) {ubc : Fin 4 → ℝ}
    (hbc : cbcState γ t bc U = .ok ubc) (δ : Fin 4 → ℝ) {β : ℝ} (τ : ℝ) (tng : Fin 2 → ℝ)
    (w wN : Fin 4 → ℝ) {gradT : Fin 4 → ℝ} (hT : β = 0 ∨ gradT = 0) :
    cbcResidual γ t bc U (conservativeDict H) (diagonal δ) β τ d tng w (consOf H) wN gradT = .ok 0 ↔
    ∀ i, (0 < lams H.c H.u d i → (waveRows γ d H *ᵥ (consOf H - w)) i = 0) ∧
      (lams H.c H.u d i < 0 → (waveRows γ d H *ᵥ (consOf H - wN)) i +
        τ * δ i * (waveRows γ d H *ᵥ (consOf H - ubc)) i = 0) := by
  have hγ := hH.gamma
  have r0 := hH.rho_pos
  have c0 := hH.sound_pos
  have hP := Pinv_mul_P (u := H.u) r0.ne' c0.ne' (γ := γ) (by linarith) hd
  have hPi := mul_eq_one_comm.1 hP
  have hr : (conservativeDict H).rho = some H.rho := rfl
  have hu : (conservativeDict H).u = some H.u := rfl
  have hc : (conservativeDict H).c = some H.c := rfl
  have hin := consId_eq (γ := γ) (d := d) hr hu hc negInd (some "incoming") (by simp)
  have hout := consId_eq (γ := γ) (d := d) hr hu hc posInd (some "outgoing") (by simp)
  have hB := consJac_eq (γ := γ) (d := tng) hr hu hc id none (by simp)
  have hD := transCons (γ := γ) (d := d) hr hu hc (diagonal δ)
  have hz : ∀ A B : Matrix (Fin 4) (Fin 4) ℝ, (τ * β) • (A *ᵥ (B *ᵥ gradT)) = 0 := by
    intro A B
    rcases hT with h | h <;> simp [h]
  simp only [cbcResidual, hbc, hD, hin, hout, hB, bind, Except.bind, Except.ok.injEq]
  rw [hz, add_zero]
  unfold waveRows
  have e : consOf H = matP γ H.rho H.c H.u d *ᵥ (matPinv γ H.rho H.c H.u d *ᵥ consOf H) := by
    rw [Matrix.mulVec_mulVec, hPi, Matrix.one_mulVec]
  have hx : ∀ x : Fin 4 → ℝ, matPinv γ H.rho H.c H.u d *ᵥ (matP γ H.rho H.c H.u d *ᵥ x) = x := by
    intro x; rw [Matrix.mulVec_mulVec, hP, Matrix.one_mulVec]
  rw [sub_sub, sub_sub, sub_eq_zero, conj_mulVec, conj_mulVec, conj_mulVec, conj_mulVec,
    ← Matrix.mulVec_smul, ← Matrix.mulVec_add, ← Matrix.mulVec_add, hx]
  nth_rewrite 1 [e]
  rw [mulVec_inj_of hP, funext_iff]
  refine forall_congr' fun i => ?_
  rw [Matrix.mulVec_sub, Matrix.mulVec_sub, Matrix.mulVec_sub, Matrix.mulVec_sub]
  rcases lt_or_gt_of_ne (hl i) with h | h
  · simp only [posInd, negInd, h, not_lt.2 h.le, if_false, if_true, Pi.add_apply, Pi.smul_apply,
      smul_eq_mul, Pi.sub_apply, zero_mul, one_mul, zero_add, false_imp_iff, true_and, true_imp_iff,
      add_zero]
    constructor <;> intro q <;> linear_combination q
  · simp [posInd, negInd, h, not_lt.2 h.le, sub_eq_zero]

/-- The wave amplitudes of families that satisfy one row of the condition. -/
theorem waves_of_row {H : ℝ → GasState 2} {Dh : Disturbance 2} (hH : Disturbs γ S Dh H)
    {v b : ℝ → Fin 4 → ℝ} {v' b' : Fin 4 → ℝ} (hv : ∀ j, HasDerivAt (fun ε => v ε j) (v' j) 0)
    (hb : ∀ j, HasDerivAt (fun ε => b ε j) (b' j) 0) (v0 : v 0 = consOf S) (b0 : b 0 = consOf S)
    {θ : ℝ → ℝ} (hθ : ContinuousAt θ 0) (i : Fin 4)
    (h : ∀ᶠ ε in 𝓝 0, (waveRows γ d (H ε) *ᵥ (consOf (H ε) - v ε)) i +
      θ ε * (waveRows γ d (H ε) *ᵥ (consOf (H ε) - b ε)) i = 0) :
    (1 + θ 0) * Dh.waves S d i = (waveRows γ d S *ᵥ v') i + θ 0 * (waveRows γ d S *ᵥ b') i := by
  have h1 : HasDerivAt (fun ε => ∑ j, (waveRows γ d (H ε) i j * (consOf (H ε) j - v ε j) +
      (θ ε * waveRows γ d (H ε) i j) * (consOf (H ε) j - b ε j)))
      (∑ j, (waveRows γ d (H 0) i j * ((matM γ S.rho S.u *ᵥ Dh.vec) j - v' j) +
        (θ 0 * waveRows γ d (H 0) i j) * ((matM γ S.rho S.u *ᵥ Dh.vec) j - b' j))) 0 := by
    apply HasDerivAt.fun_sum
    intro j _
    refine (hasDerivAt_mul_zero (hH.rows_cont i j) ((hH.cons_deriv j).sub (hv j)) ?_).add
      (hasDerivAt_mul_zero (hθ.mul (hH.rows_cont i j)) ((hH.cons_deriv j).sub (hb j)) ?_)
    · simp [hH.zero, v0]
    · simp [hH.zero, b0]
  have h2 := h1.unique (((hasDerivAt_const (0 : ℝ) (0 : ℝ)).congr_of_eventuallyEq (by
    filter_upwards [h] with ε hε
    rw [← hε]
    simp only [Matrix.mulVec, dotProduct, Finset.mul_sum, ← Finset.sum_add_distrib, Pi.sub_apply]
    refine Finset.sum_congr rfl fun j _ => ?_
    ring)))
  rw [hH.zero] at h2
  have h4 := congrFun (rows_amp (d := d) hH.self Dh) i
  rw [amp_waves] at h4
  rw [← h4]
  simp only [Matrix.mulVec, dotProduct] at h2 ⊢
  refine sub_eq_zero.1 (Eq.trans ?_ h2)
  rw [Finset.mul_sum, Finset.mul_sum, ← Finset.sum_add_distrib, ← Finset.sum_sub_distrib]
  refine Finset.sum_congr rfl fun j _ => ?_
  ring

/-- In a step the traces `H` satisfy the condition, along all small amplitudes: with the interior states
`W`, the traces `H1`, `H0` of the step before and the one before that. Without tangential terms: these are
switched off (which is the default) or the waves do not change along the boundary. -/
def CbcHolds (γ M : ℝ) (k : CbcKind) (s : Scheme) (t : CbcTarget) (S : GasState 2) (β dt : ℝ)
    (d tng : Fin 2 → ℝ) (W H H1 H0 : ℝ → GasState 2) : Prop :=
  ∃ gradT : ℝ → Fin 4 → ℝ, (β = 0 ∨ ∀ ε, gradT ε = 0) ∧ ∀ᶠ ε in 𝓝 0,
    cbcCondition γ M k s t (conservativeDict S) (conservativeDict (W ε)) (conservativeDict (H ε)) β dt d tng
      (consOf (W ε)) (consOf (H ε)) (consOf (H1 ε)) (consOf (H0 ε)) (gradT ε) = .ok 0

theorem lams_speed (i : Fin 4) : lams S.c S.u d i = waveSpeed S d i := rfl

theorem cbcCondition_eq {k : CbcKind} {dt : ℝ} {l : List (ℝ × ℝ)}
    (hl : ∀ c, k.rates dt M c = .ok (l.map fun x => x.1 + x.2 * c)) (h4 : l.length = 4) (s : Scheme)
    (t : CbcTarget) (bc U : Flow 2) (H : GasState 2) (β : ℝ) (nrm tng : Fin 2 → ℝ)
    (w wHat wN wNm1 gradT : Fin 4 → ℝ) :
    cbcCondition γ M k s t bc U (conservativeDict H) β dt nrm tng w wHat wN wNm1 gradT =
      cbcResidual γ t bc U (conservativeDict H) (diagonal (rateAt l H.c)) β (s.stepOf dt) nrm tng w wHat
        (fun i => s.levelOf (wN i) (wNm1 i)) gradT := by
  have h1 : speedOfSound γ (conservativeDict H) = .ok H.c := rfl
  simp only [cbcCondition, h1, hl, bind, Except.bind, List.length_map, h4, ne_eq, not_true_eq_false,
    if_false]
  rfl

/-- **C113** One step. The trace takes the outgoing waves of the interior. Each incoming wave moves from
its values in the steps before towards that of the target, with the rate of this wave. For implicit
Euler and BDF2, all relaxation factors, both kinds of conditions, at in- and outflows. -/
theorem C113_step {k : CbcKind} {s : Scheme} {t : CbcTarget} (ht : t ≠ .temperatureInflow) {β dt : ℝ}
    {tng : Fin 2 → ℝ} (hd : d 0 ^ 2 + d 1 ^ 2 = 1) {W H H1 H0 : ℝ → GasState 2}
    {Dw Dh D1 D0 : Disturbance 2} (hW : Disturbs γ S Dw W) (hH : Disturbs γ S Dh H)
    (hH1 : Disturbs γ S D1 H1) (hH0 : Disturbs γ S D0 H0) (hs : ∀ i, waveSpeed S d i ≠ 0)
    {r : List ℝ} (hr : k.rates dt M S.c = .ok r) (hr4 : r.length = 4)
    (h : CbcHolds γ M k s t S β dt d tng W H H1 H0) (i : Fin 4) :
    (0 < waveSpeed S d i → Dh.waves S d i = Dw.waves S d i) ∧
    (waveSpeed S d i < 0 → (1 + s.stepOf dt * r.getD i 0) * Dh.waves S d i =
      s.levelOf (D1.waves S d i) (D0.waves S d i) +
        s.stepOf dt * r.getD i 0 * (targetDist t Dw).waves S d i) := by
  have hS := hH.self
  obtain ⟨gradT, hT, h⟩ := h
  rcases rates_form k dt M with ⟨e, he⟩ | ⟨l, hl⟩
  · rw [he] at hr; cases hr
  have hrl : r = l.map fun x => x.1 + x.2 * S.c := by
    have := (hl S.c).symm.trans hr
    injection this with this
    exact this.symm
  have h4 : l.length = 4 := by rw [hrl] at hr4; simpa using hr4
  have hev : ∀ᶠ ε in 𝓝 0, ∀ i, lams (H ε).c (H ε).u d i ≠ 0 := by
    rw [Filter.eventually_all]
    intro i
    exact (hH.lams_cont i).eventually_ne (by rw [hH.zero]; exact hs i)
  have hrow : ∀ᶠ ε in 𝓝 0, ∀ i,
      (0 < lams (H ε).c (H ε).u d i → (waveRows γ d (H ε) *ᵥ (consOf (H ε) - consOf (W ε))) i = 0) ∧
      (lams (H ε).c (H ε).u d i < 0 → (waveRows γ d (H ε) *ᵥ (consOf (H ε) -
        fun i => s.levelOf (consOf (H1 ε) i) (consOf (H0 ε) i))) i +
        s.stepOf dt * rateAt l (H ε).c i *
          (waveRows γ d (H ε) *ᵥ (consOf (H ε) - consOf (targetGas γ t S (W ε)))) i = 0) := by
    filter_upwards [h, hev, hH.gas, hW.gas] with ε e1 e2 e3 e4
    rw [cbcCondition_eq hl h4] at e1
    exact (cbc_iff e3 hd e2 (targetGas_state hS e4 ht) _ _ _ _ _ (hT.imp id fun q => q ε)).1 e1
  constructor
  · intro hi
    have h3 : ∀ᶠ ε in 𝓝 0, 0 < lams (H ε).c (H ε).u d i :=
      (hH.lams_cont i).eventually (lt_mem_nhds (by
        simpa only [hH.zero] using show 0 < lams S.c S.u d i from hi))
    have h5 := amp_eq_of_vanish hH hW i (d := d) (by
      filter_upwards [hrow, h3] with ε e1 e2
      exact (e1 i).1 e2)
    rwa [amp_waves, amp_waves] at h5
  · intro hi
    have h3 : ∀ᶠ ε in 𝓝 0, lams (H ε).c (H ε).u d i < 0 :=
      (hH.lams_cont i).eventually (gt_mem_nhds (by
        simpa only [hH.zero] using show lams S.c S.u d i < 0 from hi))
    obtain ⟨a, b, hab⟩ := rateAt_eq l i
    have hb := targetGas_disturbs hW t
    have hlev : ∀ x y : ℝ, s.levelOf x y = s.levelOf 1 0 * x + s.levelOf 0 1 * y := by
      intro x y
      cases s <;> simp [Scheme.levelOf, ieLevel, bdf2Level]
      ring
    have hlev1 : s.levelOf 1 0 + s.levelOf 0 1 = 1 := by
      cases s <;> norm_num [Scheme.levelOf, ieLevel, bdf2Level]
    have key := waves_of_row (d := d) hH (v := fun ε j => s.levelOf (consOf (H1 ε) j) (consOf (H0 ε) j))
      (v' := fun j => s.levelOf 1 0 * (matM γ S.rho S.u *ᵥ D1.vec) j +
        s.levelOf 0 1 * (matM γ S.rho S.u *ᵥ D0.vec) j)
      (b := fun ε => consOf (targetGas γ t S (W ε)))
      (by
        intro j
        have := ((hH1.cons_deriv j).const_mul (s.levelOf 1 0)).add
          ((hH0.cons_deriv j).const_mul (s.levelOf 0 1))
        refine this.congr_of_eventuallyEq (.of_forall fun ε => ?_)
        exact hlev _ _)
      (fun j => hb.cons_deriv j)
      (by
        funext j
        show s.levelOf (consOf (H1 0) j) (consOf (H0 0) j) = _
        rw [hlev, hH1.zero, hH0.zero, ← add_mul, hlev1, one_mul])
      (by show consOf (targetGas γ t S (W 0)) = _; rw [hb.zero])
      (θ := fun ε => s.stepOf dt * rateAt l (H ε).c i)
      (by
        simp only [hab]
        exact (continuousAt_const.add (continuousAt_const.mul hH.sound_cont)).const_mul _)
      i (by
        filter_upwards [hrow, h3] with ε e1 e2
        exact (e1 i).2 e2)
    have e0 : rateAt l (H 0).c i = r.getD i 0 := by rw [hH.zero, hrl]; rfl
    have e1 := congrFun (rows_amp (d := d) hS D1) i
    have e2 := congrFun (rows_amp (d := d) hS D0) i
    have e3 := congrFun (rows_amp (d := d) hS (targetDist t Dw)) i
    rw [amp_waves] at e1 e2 e3
    simp only [e0] at key
    rw [key, e3, hlev (D1.waves S d i), ← e1, ← e2]
    congr 1
    generalize matM γ S.rho S.u *ᵥ D1.vec = x
    generalize matM γ S.rho S.u *ᵥ D0.vec = y
    simp only [Matrix.mulVec, dotProduct, Finset.mul_sum, ← Finset.sum_add_distrib]
    refine Finset.sum_congr rfl fun j _ => ?_
    ring

/-! ### Recursions -/

/-- The schemes damp: what obeys the recursion of a scheme with a positive rate tends to zero. -/
theorem scheme_damps (s : Scheme) {dt r : ℝ} (hdt : 0 < dt) (hr : 0 < r) {a : ℕ → ℝ}
    (h : ∀ n, (1 + s.stepOf dt * r) * a (n + 2) = s.levelOf (a (n + 1)) (a n)) :
    Filter.Tendsto a Filter.atTop (𝓝 0) := by
  have hx : 0 < dt * r := mul_pos hdt hr
  cases s with
  | implicitEuler =>
    simp only [Scheme.stepOf, ieStep, Scheme.levelOf, ieLevel] at h
    have h1 : ∀ n, a (n + 1) = a 1 * (1 + dt * r)⁻¹ ^ n := by
      intro n
      induction n with
      | zero => simp
      | succ n ih =>
        have := h n
        rw [ih] at this
        rw [pow_succ]
        have h0 : (1 + dt * r) ≠ 0 := by linarith
        field_simp
        field_simp at this
        linarith
    have h2 : Filter.Tendsto (fun n => a (n + 1)) Filter.atTop (𝓝 0) := by
      rw [show (fun n => a (n + 1)) = fun n => a 1 * (1 + dt * r)⁻¹ ^ n from funext h1, ← mul_zero (a 1)]
      refine Filter.Tendsto.const_mul _ (tendsto_pow_atTop_nhds_zero_of_lt_one (by positivity) ?_)
      exact inv_lt_one_of_one_lt₀ (by linarith)
    exact (Filter.tendsto_add_atTop_iff_nat 1).1 h2
  | bdf2 =>
    simp only [Scheme.stepOf, bdf2Step, Scheme.levelOf, bdf2Level, if_true] at h
    let E : ℕ → ℝ := fun n => a (n + 1) ^ 2 + (2 * a (n + 1) - a n) ^ 2
    have hE : ∀ n, E (n + 1) + 4 * (dt * r) * a (n + 2) ^ 2 ≤ E n := by
      intro n
      have h1 : 3 * a (n + 2) - 4 * a (n + 1) + a n = -(2 * (dt * r)) * a (n + 2) := by
        linear_combination 3 * h n
      have h2 := sq_nonneg (a (n + 2) - 2 * a (n + 1) + a n)
      show a (n + 2) ^ 2 + (2 * a (n + 2) - a (n + 1)) ^ 2 + 4 * (dt * r) * a (n + 2) ^ 2 ≤
        a (n + 1) ^ 2 + (2 * a (n + 1) - a n) ^ 2
      nlinarith [congrArg (fun z => 2 * a (n + 2) * z) h1]
    have hsum : ∀ n, E n + 4 * (dt * r) * ∑ k ∈ Finset.range n, a (k + 2) ^ 2 ≤ E 0 := by
      intro n
      induction n with
      | zero => simp
      | succ n ih =>
        rw [Finset.sum_range_succ]
        linarith [hE n]
    have hs : Summable fun k => a (k + 2) ^ 2 := by
      refine summable_of_sum_range_le (c := E 0 / (4 * (dt * r))) (fun _ => sq_nonneg _) fun n => ?_
      rw [le_div_iff₀ (by linarith)]
      have : 0 ≤ E n := by positivity
      linarith [hsum n]
    have h2 := hs.tendsto_atTop_zero
    have h3 : Filter.Tendsto (fun n => |a (n + 2)|) Filter.atTop (𝓝 0) := by
      have := (Real.continuous_sqrt.tendsto 0).comp h2
      simp only [Real.sqrt_zero] at this
      refine this.congr fun n => ?_
      exact Real.sqrt_sq_eq_abs _
    exact (Filter.tendsto_add_atTop_iff_nat 2).1 ((tendsto_zero_iff_abs_tendsto_zero _).2 h3)

/-! ### Runs -/

section Run
variable {k : CbcKind} {s : Scheme} {t : CbcTarget} {β dt : ℝ} {tng : Fin 2 → ℝ}
  {W H : ℕ → ℝ → GasState 2} {Dw D : ℕ → Disturbance 2} {r : List ℝ}

/-- The traces `H` of a run at a characteristic boundary of a uniform flow `S` that is disturbed slightly:
`W n` are the interior states in step `n`, whose trace is `H (n + 2)`; `H 0` and `H 1` are the levels `n-1`
and `n` at the beginning, of which implicit Euler uses the second only. -/
structure CbcRun (γ M : ℝ) (k : CbcKind) (s : Scheme) (t : CbcTarget) (S : GasState 2) (β dt : ℝ)
    (d tng : Fin 2 → ℝ) (r : List ℝ) (W H : ℕ → ℝ → GasState 2) (Dw D : ℕ → Disturbance 2) : Prop where
  target : t ≠ .temperatureInflow
  normal : d 0 ^ 2 + d 1 ^ 2 = 1
  speeds : ∀ i, waveSpeed S d i ≠ 0
  rates : k.rates dt M S.c = .ok r
  four : r.length = 4
  step : 0 < dt
  nonneg : ∀ i : Fin 4, 0 ≤ r.getD i 0
  inner : ∀ n, Disturbs γ S (Dw n) (W n)
  trace : ∀ n, Disturbs γ S (D n) (H n)
  holds : ∀ n, CbcHolds γ M k s t S β dt d tng (W n) (H (n + 2)) (H (n + 1)) (H n)

variable (R : CbcRun γ M k s t S β dt d tng r W H Dw D)
include R

theorem CbcRun.next (n : ℕ) (i : Fin 4) :
    (0 < waveSpeed S d i → (D (n + 2)).waves S d i = (Dw n).waves S d i) ∧
    (waveSpeed S d i < 0 → (1 + s.stepOf dt * r.getD i 0) * (D (n + 2)).waves S d i =
      s.levelOf ((D (n + 1)).waves S d i) ((D n).waves S d i) +
        s.stepOf dt * r.getD i 0 * (targetDist t (Dw n)).waves S d i) :=
  C113_step R.target R.normal (R.inner n) (R.trace (n + 2)) (R.trace (n + 1)) (R.trace n) R.speeds R.rates
    R.four (R.holds n) i

theorem CbcRun.pos (i : Fin 4) : 0 < 1 + s.stepOf dt * r.getD i 0 := by
  have h1 := R.step
  have h2 := R.nonneg i
  have h3 := mul_nonneg h1.le h2
  cases s
  · show 0 < 1 + dt * _; linarith
  · show 0 < 1 + 2 / 3 * dt * _; linarith

omit R in
theorem levelOf_zero (s : Scheme) : s.levelOf 0 0 = 0 := by
  cases s <;> norm_num [Scheme.levelOf, ieLevel, bdf2Level]

omit R in
theorem waves_zero (i : Fin 4) : (⟨0, 0, 0⟩ : Disturbance 2).waves S d i = 0 := by
  fin_cases i <;> simp [Disturbance.waves]

omit R in
theorem waves_ext (hS : IdealGas γ S) (hd : d 0 ^ 2 + d 1 ^ 2 = 1) {D D' : Disturbance 2}
    (h : ∀ i, D.waves S d i = D'.waves S d i) : D = D' := by
  have c0 := hS.sound_pos
  have r0 := hS.rho_pos
  have h0 : D.p - S.rho * S.c * (D.u ⬝ᵥ d) = D'.p - S.rho * S.c * (D'.u ⬝ᵥ d) := h 0
  have h1 : S.c ^ 2 * D.rho - D.p = S.c ^ 2 * D'.rho - D'.p := h 1
  have h3 : D.p + S.rho * S.c * (D.u ⬝ᵥ d) = D'.p + S.rho * S.c * (D'.u ⬝ᵥ d) := h 3
  have hp : D.p = D'.p := by linarith
  refine disturbance_ext hd ?_ hp ?_ (h 2)
  · have : S.c ^ 2 * D.rho = S.c ^ 2 * D'.rho := by linarith
    exact mul_left_cancel₀ (by positivity) this
  · have : S.rho * S.c * (D.u ⬝ᵥ d) = S.rho * S.c * (D'.u ⬝ᵥ d) := by linarith
    exact mul_left_cancel₀ (by positivity) this

/-- **C113** With the target farfield nothing enters: if the traces contain no incoming waves at the
beginning they never do, whatever arrives, whatever the relaxation factors; and a disturbance of outgoing
waves passes as if there were no boundary. -/
theorem C113_leaves (ht : t = .farfield)
    (h01 : ∀ i, waveSpeed S d i < 0 → (D 0).waves S d i = 0 ∧ (D 1).waves S d i = 0) (n : ℕ) :
    (∀ i, waveSpeed S d i < 0 → (D n).waves S d i = 0) ∧
    ((∀ i, waveSpeed S d i < 0 → (Dw n).waves S d i = 0) → D (n + 2) = Dw n) := by
  have key : ∀ n, ∀ i, waveSpeed S d i < 0 → (D n).waves S d i = 0 ∧ (D (n + 1)).waves S d i = 0 := by
    intro n
    induction n with
    | zero => exact h01
    | succ n ih =>
      intro i hi
      obtain ⟨e0, e1⟩ := ih i hi
      refine ⟨e1, ?_⟩
      have h := (R.next n i).2 hi
      rw [e0, e1, levelOf_zero, ht] at h
      have hz : (targetDist .farfield (Dw n)).waves S d i = 0 := waves_zero i
      rw [hz, mul_zero, add_zero] at h
      exact (mul_eq_zero.1 h).resolve_left (R.pos i).ne'
  refine ⟨fun i hi => (key n i hi).1, fun h => waves_ext (R.inner n).self R.normal fun i => ?_⟩
  rcases lt_or_gt_of_ne (R.speeds i) with hi | hi
  · rw [h i hi]; exact (key (n + 1) i hi).2
  · exact (R.next n i).1 hi

/-- **C113** The incoming waves relax: if the interior stays disturbed in the same way, every incoming
wave with a positive rate tends to that of the target, whatever it was at the beginning. -/
theorem C113_relaxes {D' : Disturbance 2} (hc : ∀ n, Dw n = D') {i : Fin 4} (hi : waveSpeed S d i < 0)
    (hr : 0 < r.getD i 0) :
    Filter.Tendsto (fun n => (D n).waves S d i) Filter.atTop (𝓝 ((targetDist t D').waves S d i)) := by
  have h := scheme_damps s R.step hr (a := fun n => (D n).waves S d i - (targetDist t D').waves S d i)
    (fun n => by
      have h1 := (R.next n i).2 hi
      rw [hc n] at h1
      cases s
      · simp only [Scheme.stepOf, ieStep, Scheme.levelOf, ieLevel] at h1 ⊢
        linear_combination h1
      · simp only [Scheme.stepOf, bdf2Step, Scheme.levelOf, bdf2Level, if_true] at h1 ⊢
        linear_combination h1)
  have h2 := h.add_const ((targetDist t D').waves S d i)
  simpa using h2

end Run

/-- **C113** With implicit Euler the distance to the target shrinks in every step by the factor
`1 / (1 + dt rate)`. -/
theorem C113_rate {k : CbcKind} {t : CbcTarget} {β dt : ℝ} {tng : Fin 2 → ℝ}
    {W H : ℕ → ℝ → GasState 2} {Dw D : ℕ → Disturbance 2} {r : List ℝ}
    (R : CbcRun γ M k .implicitEuler t S β dt d tng r W H Dw D) {D' : Disturbance 2} (hc : ∀ n, Dw n = D')
    {i : Fin 4} (hi : waveSpeed S d i < 0) (n : ℕ) :
    (D (n + 1)).waves S d i - (targetDist t D').waves S d i =
      ((D 1).waves S d i - (targetDist t D').waves S d i) / (1 + dt * r.getD i 0) ^ n := by
  have hp : 0 < 1 + dt * r.getD i 0 := R.pos i
  induction n with
  | zero => simp
  | succ n ih =>
    have h1 := (R.next n i).2 hi
    rw [hc n] at h1
    simp only [Scheme.stepOf, ieStep, Scheme.levelOf, ieLevel] at h1
    have h2 : (1 + dt * r.getD i 0) * ((D (n + 2)).waves S d i - (targetDist t D').waves S d i) =
        (D (n + 1)).waves S d i - (targetDist t D').waves S d i := by linear_combination h1
    rw [ih] at h2
    rw [pow_succ, ← div_div, ← h2]
    field_simp

/-- **C113** GRCBC: with a number as relaxation factor this is the factor `1 / (1 + number)`, however long
the steps are. With the number zero incoming waves are never forgotten. -/
theorem C113_grcbc {x : ℝ} {t : CbcTarget} {β dt : ℝ} {tng : Fin 2 → ℝ}
    {W H : ℕ → ℝ → GasState 2} {Dw D : ℕ → Disturbance 2} {r : List ℝ}
    (R : CbcRun γ M (.grcbc (.scalar x)) .implicitEuler t S β dt d tng r W H Dw D) {D' : Disturbance 2}
    (hc : ∀ n, Dw n = D') {i : Fin 4} (hi : waveSpeed S d i < 0) (n : ℕ) :
    (D (n + 1)).waves S d i - (targetDist t D').waves S d i =
      ((D 1).waves S d i - (targetDist t D').waves S d i) / (1 + x) ^ n := by
  have h := C113_rate R hc hi n
  have e : r = List.replicate 4 (x / dt) := by
    have := R.rates.symm.trans (show _ = Except.ok (List.replicate 4 (x / dt)) by
      simp [CbcKind.rates, grcbcDiagonal, cbcFactors, relaxationFactor, characteristicNames, bind,
        Except.bind])
    injection this
  have e2 : dt * r.getD i 0 = x := by
    have : r.getD i 0 = x / dt := by rw [e]; fin_cases i <;> rfl
    rw [this]
    have := R.step
    field_simp
  rwa [e2] at h

/-! ### Existence -/

/-- Solutions of a condition of this form near a state at which it holds. -/
theorem relax_family {Q : (Fin 4 → ℝ) → Matrix (Fin 4) (Fin 4) ℝ} {θ : (Fin 4 → ℝ) → Fin 4 → ℝ}
    {s : Fin 4 → ℝ} (hQ : ∀ i j, ContDiffAt ℝ 1 (fun x => Q x i j) s)
    (hθ : ∀ i, ContDiffAt ℝ 1 (fun x => θ x i) s) {P : Matrix (Fin 4) (Fin 4) ℝ} (hQP : Q s * P = 1)
    (h1 : ∀ i, 1 + θ s i ≠ 0) {v : ℝ → Fin 4 → Fin 4 → ℝ} {b : ℝ → Fin 4 → ℝ} {v' : Fin 4 → Fin 4 → ℝ}
    {b' : Fin 4 → ℝ} (hv : HasDerivAt v v' 0) (hb : HasDerivAt b b' 0) (v0 : v 0 = fun _ => s)
    (b0 : b 0 = s) :
    ∃ h h', h 0 = s ∧ HasDerivAt h h' (0 : ℝ) ∧ ∀ᶠ ε in 𝓝 (0 : ℝ), ∀ i,
      ∑ j, Q (h ε) i j * ((h ε j - v ε i j) + θ (h ε) i * (h ε j - b ε j)) = 0 := by
  let f : ((Fin 4 → Fin 4 → ℝ) × (Fin 4 → ℝ)) × (Fin 4 → ℝ) → Fin 4 → ℝ := fun x i =>
    ∑ j, Q x.2 i j * ((x.2 j - x.1.1 i j) + θ x.2 i * (x.2 j - x.1.2 j))
  let y0 : (Fin 4 → Fin 4 → ℝ) × (Fin 4 → ℝ) := (fun _ => s, s)
  have hf0 : f (y0, s) = 0 := by
    funext i
    simp [f, y0]
  have cdf : ContDiffAt ℝ 1 f (y0, s) := by
    rw [contDiffAt_pi]
    intro i
    refine ContDiffAt.sum fun j _ => ?_
    have q1 : ContDiffAt ℝ 1 (fun x : ((Fin 4 → Fin 4 → ℝ) × (Fin 4 → ℝ)) × (Fin 4 → ℝ) => Q x.2 i j)
        (y0, s) := ContDiffAt.comp (g := fun y => Q y i j) (y0, s) (hQ i j) contDiffAt_snd
    have q2 : ContDiffAt ℝ 1 (fun x : ((Fin 4 → Fin 4 → ℝ) × (Fin 4 → ℝ)) × (Fin 4 → ℝ) => θ x.2 i)
        (y0, s) := ContDiffAt.comp (g := fun y => θ y i) (y0, s) (hθ i) contDiffAt_snd
    refine q1.mul (ContDiffAt.add ?_ (q2.mul ?_)) <;> fun_prop
  let L : (Fin 4 → ℝ) ≃ₗ[ℝ] (Fin 4 → ℝ) :=
    { toFun := fun x i => (1 + θ s i) * (Q s *ᵥ x) i
      invFun := fun y => P *ᵥ fun i => y i / (1 + θ s i)
      map_add' := fun x y => by funext i; simp [Matrix.mulVec_add]; ring
      map_smul' := fun c x => by funext i; simp [Matrix.mulVec_smul]; ring
      left_inv := fun x => by
        have : (fun i => (1 + θ s i) * (Q s *ᵥ x) i / (1 + θ s i)) = Q s *ᵥ x := by
          funext i
          have := h1 i
          field_simp
        simp only [this, Matrix.mulVec_mulVec, mul_eq_one_comm.1 hQP, Matrix.one_mulVec]
      right_inv := fun y => by
        funext i
        simp only [Matrix.mulVec_mulVec, hQP, Matrix.one_mulVec]
        have := h1 i
        field_simp }
  have hpart : HasFDerivAt (fun x => f (y0, x)) (L.toContinuousLinearEquiv : (Fin 4 → ℝ) →L[ℝ] _) s := by
    rw [hasFDerivAt_pi']
    intro i
    have e : (fun x => f (y0, x) i) = fun x => ∑ j, (Q x i j * (1 + θ x i)) * (x j - s j) := by
      funext x
      refine Finset.sum_congr rfl fun j _ => ?_
      simp only [y0]
      ring
    rw [e]
    have h2 : ∀ j, HasFDerivAt (fun x : Fin 4 → ℝ => (Q x i j * (1 + θ x i)) * (x j - s j))
        ((Q s i j * (1 + θ s i)) • ContinuousLinearMap.proj (R := ℝ) (φ := fun _ : Fin 4 => ℝ) j) s := by
      intro j
      have a1 : DifferentiableAt ℝ (fun x => Q x i j * (1 + θ x i)) s :=
        ((hQ i j).differentiableAt one_ne_zero).mul
          (((hθ i).differentiableAt one_ne_zero).const_add 1)
      have a2 : HasFDerivAt (fun x : Fin 4 → ℝ => x j - s j)
          (ContinuousLinearMap.proj (R := ℝ) (φ := fun _ : Fin 4 => ℝ) j) s :=
        (ContinuousLinearMap.hasFDerivAt (x := s)
          (ContinuousLinearMap.proj (R := ℝ) (φ := fun _ : Fin 4 => ℝ) j)).sub_const (s j)
      refine (a1.hasFDerivAt.mul a2).congr_fderiv ?_
      simp
    refine (HasFDerivAt.fun_sum (u := Finset.univ) fun j _ => h2 j).congr_fderiv ?_
    ext x
    simp [L, Matrix.mulVec, dotProduct, Finset.mul_sum]
    refine Finset.sum_congr rfl fun j _ => ?_
    ring
  have hcomp : HasFDerivAt (fun x => f (y0, x))
      (fderiv ℝ f (y0, s) ∘L .inr ℝ ((Fin 4 → Fin 4 → ℝ) × (Fin 4 → ℝ)) (Fin 4 → ℝ)) s :=
    HasFDerivAt.comp (g := f) s (cdf.differentiableAt one_ne_zero).hasFDerivAt
      (hasFDerivAt_prodMk_right y0 s)
  have if₂ : (fderiv ℝ f (y0, s) ∘L .inr ℝ ((Fin 4 → Fin 4 → ℝ) × (Fin 4 → ℝ)) (Fin 4 → ℝ)).IsInvertible :=
    ⟨L.toContinuousLinearEquiv, hpart.unique hcomp⟩
  have hψ := (cdf.hasStrictFDerivAt_implicitFunction one_ne_zero if₂).hasFDerivAt
  have hψ0 := cdf.implicitFunction_apply_self one_ne_zero if₂
  have hy : HasDerivAt (fun ε => (v ε, b ε)) (v', b') (0 : ℝ) := hv.prodMk hb
  have hy0 : (v 0, b 0) = y0 := by rw [v0, b0]
  have h4 := HasFDerivAt.comp_hasDerivAt_of_eq (0 : ℝ) hψ hy hy0.symm
  refine ⟨fun ε => cdf.implicitFunction one_ne_zero if₂ (v ε, b ε), _, ?_, h4, ?_⟩
  · show cdf.implicitFunction one_ne_zero if₂ (v 0, b 0) = s
    rw [hy0]; exact hψ0
  · have h5 : Filter.Tendsto (fun ε => (v ε, b ε)) (𝓝 0) (𝓝 y0) := by
      rw [← hy0]; exact hy.continuousAt.tendsto
    filter_upwards [h5.eventually (cdf.eventually_apply_implicitFunction one_ne_zero if₂)] with ε hε i
    have := congrFun (hε.trans hf0) i
    exact this

/-- A differentiable family of conservative variables is one of gases. -/
theorem disturbs_of_cons (hS : IdealGas γ S) {h : ℝ → Fin 4 → ℝ} {h' : Fin 4 → ℝ}
    (e0 : h 0 = consOf S) (e1 : HasDerivAt h h' 0) :
    ∃ Dh, Disturbs γ S Dh (fun ε => gasOf (n := 2) γ (h ε)) ∧
      ∀ᶠ ε in 𝓝 0, consOf (gasOf (n := 2) γ (h ε)) = h ε := by
  have hγ := hS.gamma
  have hg : GasVec (n := 2) (consOf S) := gasVec_of hS
  have hback : gasOf (n := 2) γ (consOf S) = S := by
    have hi := gasOf_ideal (n := 2) hγ hg
    have hv : consOf (gasOf (n := 2) γ (consOf S)) = consOf S := gasOf_vec hg
    exact gas_of_cons hi hS hv
  have hgas : ∀ᶠ ε in 𝓝 0, GasVec (n := 2) (h ε) :=
    e1.continuousAt.eventually (by rw [e0]; exact gasVec_nhds hg)
  have k := hasDerivAt_pi.1 e1
  have hn : h 0 0 ≠ 0 := by rw [e0]; exact hS.rho_pos.ne'
  have hp : DifferentiableAt ℝ (fun ε => (gasOf (n := 2) γ (h ε)).p) 0 := by
    have hi : DifferentiableAt ℝ (fun ε => innerOf (n := 2) (h ε)) 0 :=
      ((innerOf_contDiffAt (n := 2) hn).differentiableAt one_ne_zero).comp (0 : ℝ) e1.differentiableAt
    show DifferentiableAt ℝ (fun ε => (γ - 1) * (h ε 0 * innerOf (n := 2) (h ε))) 0
    exact ((k 0).differentiableAt.mul hi).const_mul _
  have hu : ∀ j : Fin 2, DifferentiableAt ℝ (fun ε => (gasOf (n := 2) γ (h ε)).u j) 0 := by
    intro j
    show DifferentiableAt ℝ (fun ε => (h ε 0)⁻¹ * mom (n := 2) (h ε) j) 0
    refine ((k 0).differentiableAt.inv hn).mul ?_
    fin_cases j
    · exact (k 1).differentiableAt
    · exact (k 2).differentiableAt
  refine ⟨⟨h' 0, fun j => deriv (fun ε => (gasOf (n := 2) γ (h ε)).u j) 0,
    deriv (fun ε => (gasOf (n := 2) γ (h ε)).p) 0⟩, ⟨?_, ?_, k 0, fun j => (hu j).hasDerivAt,
    hp.hasDerivAt⟩, ?_⟩
  · show gasOf (n := 2) γ (h 0) = S
    rw [e0, hback]
  · filter_upwards [hgas] with ε hε
    exact gasOf_ideal hγ hε
  · filter_upwards [hgas] with ε hε
    exact gasOf_vec hε

/-- The trace of a step exists. -/
theorem exists_step {k : CbcKind} (s : Scheme) {t : CbcTarget} (ht : t ≠ .temperatureInflow) (β : ℝ) {dt : ℝ}
    (tng : Fin 2 → ℝ) (hd : d 0 ^ 2 + d 1 ^ 2 = 1) {W H1 H0 : ℝ → GasState 2}
    {Dw D1 D0 : Disturbance 2} (hW : Disturbs γ S Dw W) (hH1 : Disturbs γ S D1 H1)
    (hH0 : Disturbs γ S D0 H0) (hs : ∀ i, waveSpeed S d i ≠ 0) {r : List ℝ}
    (hr : k.rates dt M S.c = .ok r) (hr4 : r.length = 4)
    (hp : ∀ i : Fin 4, 0 < 1 + s.stepOf dt * r.getD i 0) :
    ∃ H Dh, Disturbs γ S Dh H ∧ CbcHolds γ M k s t S β dt d tng W H H1 H0 := by
  have hS := hW.self
  have hγ := hS.gamma
  have hg : GasVec (n := 2) (consOf S) := gasVec_of hS
  have hback : gasOf (n := 2) γ (consOf S) = S := by
    have hi := gasOf_ideal (n := 2) hγ hg
    have hv : consOf (gasOf (n := 2) γ (consOf S)) = consOf S := gasOf_vec hg
    exact gas_of_cons hi hS hv
  rcases rates_form k dt M with ⟨e, he⟩ | ⟨l, hl⟩
  · rw [he] at hr; cases hr
  have hrl : r = l.map fun x => x.1 + x.2 * S.c := by
    have := (hl S.c).symm.trans hr
    injection this with this
    exact this.symm
  have h4 : l.length = 4 := by rw [hrl] at hr4; simpa using hr4
  have hlev : ∀ x y : ℝ, s.levelOf x y = s.levelOf 1 0 * x + s.levelOf 0 1 * y := by
    intro x y
    cases s <;> simp [Scheme.levelOf, ieLevel, bdf2Level]
    ring
  have hlev1 : s.levelOf 1 0 + s.levelOf 0 1 = 1 := by
    cases s <;> norm_num [Scheme.levelOf, ieLevel, bdf2Level]
  have hc : ContDiffAt ℝ 1 (fun x : Fin 4 → ℝ => (gasOf (n := 2) γ x).c) (consOf S) :=
    soundOf_contDiffAt (n := 2) hγ hg
  obtain ⟨h, h', e0, e1, e2⟩ := relax_family (Q := fun x => waveRows γ d (gasOf (n := 2) γ x))
    (θ := fun x i => negInd (waveSpeed S d i) * (s.stepOf dt * rateAt l (gasOf (n := 2) γ x).c i))
    (s := consOf S) (fun i j => rows_contDiffAt hγ hg i j)
    (fun i => by
      obtain ⟨a, b, hab⟩ := rateAt_eq l i
      simp only [hab]
      exact contDiffAt_const.mul (contDiffAt_const.mul (contDiffAt_const.add (contDiffAt_const.mul hc))))
    (P := matP γ S.rho S.c S.u d)
    (by rw [hback]; exact Pinv_mul_P hS.rho_pos.ne' hS.sound_pos.ne' (by linarith) hd)
    (fun i => by
      rw [hback]
      have e : rateAt l S.c i = r.getD i 0 := by rw [hrl]; rfl
      rw [e, negInd]
      split
      · rw [one_mul]; exact (hp i).ne'
      · simp)
    (v := fun ε i j => if 0 < waveSpeed S d i then consOf (W ε) j else
      s.levelOf (consOf (H1 ε) j) (consOf (H0 ε) j))
    (v' := fun i j => if 0 < waveSpeed S d i then (matM γ S.rho S.u *ᵥ Dw.vec) j else
      s.levelOf 1 0 * (matM γ S.rho S.u *ᵥ D1.vec) j + s.levelOf 0 1 * (matM γ S.rho S.u *ᵥ D0.vec) j)
    (b := fun ε => consOf (targetGas γ t S (W ε)))
    (hasDerivAt_pi.2 fun i => hasDerivAt_pi.2 fun j => by
      by_cases hi : 0 < waveSpeed S d i
      · simp only [hi, if_true]
        exact hW.cons_deriv j
      · simp only [hi, if_false]
        exact (((hH1.cons_deriv j).const_mul (s.levelOf 1 0)).add
          ((hH0.cons_deriv j).const_mul (s.levelOf 0 1))).congr_of_eventuallyEq
          (.of_forall fun ε => hlev _ _))
    (hasDerivAt_pi.2 fun j => (targetGas_disturbs hW t).cons_deriv j)
    (by
      funext i j
      simp only [hW.zero, hH1.zero, hH0.zero]
      split
      · rfl
      · rw [hlev, ← add_mul, hlev1, one_mul])
    (by rw [(targetGas_disturbs hW t).zero])
  obtain ⟨Dh, hH, hcons⟩ := disturbs_of_cons hS e0 e1
  refine ⟨_, Dh, hH, 0, .inr fun _ => rfl, ?_⟩
  have hz : gasOf (n := 2) γ (h 0) = S := hH.zero
  have hev : ∀ᶠ ε in 𝓝 0, ∀ i, lams (gasOf (n := 2) γ (h ε)).c (gasOf (n := 2) γ (h ε)).u d i ≠ 0 ∧
      (0 < lams (gasOf (n := 2) γ (h ε)).c (gasOf (n := 2) γ (h ε)).u d i ↔ 0 < waveSpeed S d i) := by
    rw [Filter.eventually_all]
    intro i
    rcases lt_or_gt_of_ne (hs i) with hi | hi
    · filter_upwards [(hH.lams_cont (d := d) i).eventually
        (gt_mem_nhds (by simpa only [hz] using show lams S.c S.u d i < 0 from hi))] with ε hε
      exact ⟨hε.ne, by simp only [not_lt.2 hε.le, not_lt.2 hi.le]⟩
    · filter_upwards [(hH.lams_cont (d := d) i).eventually
        (lt_mem_nhds (by simpa only [hz] using show 0 < lams S.c S.u d i from hi))] with ε hε
      exact ⟨hε.ne', by simp only [hε, hi]⟩
  filter_upwards [e2, hcons, hev, hH.gas, hW.gas] with ε q1 q2 q3 q4 q5
  rw [cbcCondition_eq hl h4]
  refine (cbc_iff q4 hd (fun i => (q3 i).1) (targetGas_state hS q5 ht) _ _ _ _ _ (.inr rfl)).2 fun i => ?_
  rw [q2]
  have q := q1 i
  constructor
  · intro hi
    have hi' := (q3 i).2.1 hi
    simp only [hi', if_true, negInd, not_lt.2 hi'.le, if_false, zero_mul, add_zero] at q
    exact q
  · intro hi
    have hi' : waveSpeed S d i < 0 := lt_of_le_of_ne
      (not_lt.1 fun h => absurd ((q3 i).2.2 h) (not_lt.2 hi.le)) (hs i)
    simp only [not_lt.2 hi'.le, if_false, negInd, hi', if_true, one_mul] at q
    rw [← q]
    simp only [Matrix.mulVec, dotProduct, Finset.mul_sum, ← Finset.sum_add_distrib, Pi.sub_apply]
    refine Finset.sum_congr rfl fun j _ => ?_
    ring

/-- **C113** The traces exist: for all disturbances of the interior and of the first levels there are
traces near the uniform flow that satisfy the conditions in all steps and depend differentiably on the
amplitude, so that the statements above apply to them. -/
theorem C113_exists {k : CbcKind} (s : Scheme) {t : CbcTarget} (ht : t ≠ .temperatureInflow) (β : ℝ)
    {dt : ℝ} (tng : Fin 2 → ℝ) (hd : d 0 ^ 2 + d 1 ^ 2 = 1) {W : ℕ → ℝ → GasState 2} {H0 H1 : ℝ → GasState 2}
    {Dw : ℕ → Disturbance 2} {D0 D1 : Disturbance 2} (hW : ∀ n, Disturbs γ S (Dw n) (W n))
    (hH0 : Disturbs γ S D0 H0) (hH1 : Disturbs γ S D1 H1) (hs : ∀ i, waveSpeed S d i ≠ 0) {r : List ℝ}
    (hr : k.rates dt M S.c = .ok r) (hr4 : r.length = 4) (hdt : 0 < dt)
    (hr0 : ∀ i : Fin 4, 0 ≤ r.getD i 0) :
    ∃ H D, H 0 = H0 ∧ H 1 = H1 ∧ D 0 = D0 ∧ D 1 = D1 ∧
      CbcRun γ M k s t S β dt d tng r W H Dw D := by
  have hp : ∀ i : Fin 4, 0 < 1 + s.stepOf dt * r.getD i 0 := by
    intro i
    have h3 := mul_nonneg hdt.le (hr0 i)
    cases s
    · show 0 < 1 + dt * _; linarith
    · show 0 < 1 + 2 / 3 * dt * _; linarith
  let T := { x : (ℝ → GasState 2) × Disturbance 2 // Disturbs γ S x.2 x.1 }
  have next : ∀ (n : ℕ) (x : T × T), ∃ y : T,
      CbcHolds γ M k s t S β dt d tng (W n) y.1.1 x.2.1.1 x.1.1.1 := by
    intro n x
    obtain ⟨H, Dh, h1, h2⟩ := exists_step s ht β tng hd (hW n) x.2.2 x.1.2 hs hr hr4 hp
    exact ⟨⟨(H, Dh), h1⟩, h2⟩
  choose nx hnx using next
  let q : ℕ → T × T := fun n => Nat.rec (⟨(H0, D0), hH0⟩, ⟨(H1, D1), hH1⟩) (fun n x => (x.2, nx n x)) n
  have hq : ∀ n, q (n + 1) = ((q n).2, nx n (q n)) := fun n => rfl
  refine ⟨fun n => (q n).1.1.1, fun n => (q n).1.1.2, rfl, rfl, rfl, rfl, ht, hd, hs, hr, hr4, hdt, hr0,
    hW, fun n => (q n).1.2, fun n => ?_⟩
  exact hnx n (q n)

/-- **C113** The target outflow reflects in the long run: at a subsonic outflow whose interior stays
disturbed in the same way the pressure of the trace tends to the middle between that of the interior and
the prescribed one, for every positive rate. -/
theorem C113_outlet {k : CbcKind} {s : Scheme} {β dt : ℝ} {tng : Fin 2 → ℝ}
    {W H : ℕ → ℝ → GasState 2} {Dw D : ℕ → Disturbance 2} {r : List ℝ}
    (R : CbcRun γ M k s .outflow S β dt d tng r W H Dw D) {D' : Disturbance 2} (hc : ∀ n, Dw n = D')
    (h0 : 0 < S.u ⬝ᵥ d) (h1 : S.u ⬝ᵥ d < S.c) (hr : 0 < r.getD 0 0) :
    Filter.Tendsto (fun n => (D n).p) Filter.atTop (𝓝 (D'.p / 2)) := by
  have c0 := (R.inner 0).self.sound_pos
  have hi : waveSpeed S d 0 < 0 := by show S.u ⬝ᵥ d - S.c < 0; linarith
  have h3 : 0 < waveSpeed S d 3 := by show 0 < S.u ⬝ᵥ d + S.c; linarith
  have a := (Filter.tendsto_add_atTop_iff_nat 2).2 (C113_relaxes R hc hi hr)
  have b : ∀ n, (D (n + 2)).waves S d 3 = D'.waves S d 3 := fun n => by
    rw [(R.next n 3).1 h3, hc n]
  have e : ∀ n, (D (n + 2)).p = ((D (n + 2)).waves S d 0 + D'.waves S d 3) / 2 := by
    intro n
    rw [← b n]
    show _ = ((D (n + 2)).p - S.rho * S.c * ((D (n + 2)).u ⬝ᵥ d) +
      ((D (n + 2)).p + S.rho * S.c * ((D (n + 2)).u ⬝ᵥ d))) / 2
    ring
  have l : ((targetDist .outflow D').waves S d 0 + D'.waves S d 3) / 2 = D'.p / 2 := by
    show (0 - S.rho * S.c * (D'.u ⬝ᵥ d) + (D'.p + S.rho * S.c * (D'.u ⬝ᵥ d))) / 2 = _
    ring
  refine (Filter.tendsto_add_atTop_iff_nat 2).1 ?_
  rw [← l, show (fun n => (D (n + 2)).p) = _ from funext e]
  exact (a.add_const _).div_const 2

/-! ### Examples -/

theorem breeze_speed (i : Fin 4) : waveSpeed breeze ![1, 0] i ≠ 0 := by
  have hu : breeze.u ⬝ᵥ ![1, 0] = 1/2 := by simp [breeze, GasState.of]
  have : waveSpeed breeze ![1, 0] = ![-1/2, 1/2, 1/2, 3/2] := by
    rw [waveSpeed, hu, breeze_c]; norm_num
  rw [this]
  fin_cases i <;> norm_num

/-- Sound leaves through GRCBC with the default factor, BDF2: a run whose traces show the wave. -/
example : ∃ W H D, CbcRun (7/5) (1/2) (.grcbc (.scalar (7/25))) .bdf2 .farfield breeze 0 (1/10) ![1, 0]
    ![0, 1] [14/5, 14/5, 14/5, 14/5] W H (fun _ => ⟨1, ![1, 0], 1⟩) D ∧ ∀ n, (D (n + 2)).p = 1 := by
  have hd : (![1, 0] : Fin 2 → ℝ) 0 ^ 2 + (![1, 0] : Fin 2 → ℝ) 1 ^ 2 = 1 := by norm_num
  obtain ⟨W, hW⟩ := exists_disturbs breeze_gas ⟨1, ![1, 0], 1⟩
  obtain ⟨H, D, -, -, e0, e1, R⟩ := C113_exists (k := .grcbc (.scalar (7/25))) (M := 1/2) .bdf2
    (t := .farfield) (by simp) 0 ![0, 1] hd (W := fun _ => W) (fun _ => hW) (disturbs_const breeze_gas)
    (disturbs_const breeze_gas) breeze_speed (dt := 1/10) (r := [14/5, 14/5, 14/5, 14/5])
    (by
      simp [CbcKind.rates, grcbcDiagonal, cbcFactors, relaxationFactor, characteristicNames, bind,
        Except.bind]
      norm_num) rfl (by norm_num) (by intro i; fin_cases i <;> norm_num)
  refine ⟨fun _ => W, H, D, R, fun n => ?_⟩
  have h := (C113_leaves R rfl (by rw [e0, e1]; exact fun i _ => ⟨waves_zero i, waves_zero i⟩) n).2
    (fun i hi => ?_)
  · rw [h]
  · have hu : breeze.u ⬝ᵥ ![1, 0] = 1/2 := by simp [breeze, GasState.of]
    have hs : waveSpeed breeze ![1, 0] = ![-1/2, 1/2, 1/2, 3/2] := by
      rw [waveSpeed, hu, breeze_c]; norm_num
    rw [hs] at hi
    fin_cases i
    · simp [Disturbance.waves, breeze_c, breeze, GasState.of]
      norm_num
    all_goals norm_num at hi

/-- NSCBC with the target outflow and implicit Euler: a run whose traces forget an incoming wave that was
there at the beginning. -/
example : ∃ W H D r, CbcRun (7/5) (1/2) (.nscbc (.scalar (7/25)) 1) .implicitEuler .outflow breeze 0 (1/10)
    ![1, 0] ![0, 1] r W H (fun _ => ⟨0, 0, 0⟩) D ∧ (D 1).p = 1 ∧
    Filter.Tendsto (fun n => (D n).p) Filter.atTop (𝓝 0) := by
  have hd : (![1, 0] : Fin 2 → ℝ) 0 ^ 2 + (![1, 0] : Fin 2 → ℝ) 1 ^ 2 = 1 := by norm_num
  have hu : breeze.u ⬝ᵥ ![1, 0] = 1/2 := by simp [breeze, GasState.of]
  obtain ⟨V, hV⟩ := exists_disturbs breeze_gas ⟨1, ![-1, 0], 1⟩
  have hr : CbcKind.rates (.nscbc (.scalar (7/25)) 1) (1/10) (1/2) breeze.c =
      .ok [21/100, 7/25, 7/25, 21/100] := by
    rw [breeze_c]
    simp [CbcKind.rates, nscbcDiagonal, cbcFactors, relaxationFactor, characteristicNames, bind,
      Except.bind, List.replicate]
    norm_num
  obtain ⟨H, D, -, -, -, e1, R⟩ := C113_exists (k := .nscbc (.scalar (7/25)) 1) .implicitEuler
    (t := .outflow) (by simp) 0 ![0, 1] hd (W := fun _ _ => breeze) (fun _ => disturbs_const breeze_gas)
    hV hV breeze_speed (dt := 1/10) hr rfl (by norm_num) (by intro i; fin_cases i <;> norm_num)
  refine ⟨_, H, D, _, R, by rw [e1], ?_⟩
  have h := C113_outlet R (fun _ => rfl) (by rw [hu]; norm_num) (by rw [hu, breeze_c]; norm_num)
    (by norm_num)
  simpa using h

end

end Dream
