import Verif.Spec.Stabilised
import Verif.Lemmas.LocLip
import Verif.Props.Riemann
import Verif.Props.ShortSteps

/-!
# The numerical fluxes of all Riemann solvers in two dimensions
-/

noncomputable section

namespace Dream
open Matrix _root_.Spec

variable {γ : ℝ}

/-- Velocity of the conservative variables. -/
def velOf (w : Fin 4 → ℝ) : Fin 2 → ℝ := (w 0)⁻¹ • mom (n := 2) w

/-- The stabilisation matrix of the conservative variables. -/
def tauOf (γ : ℝ) (rs : Riemann) (d : Fin 2 → ℝ) (w : Fin 4 → ℝ) : Matrix (Fin 4) (Fin 4) ℝ :=
  matP γ (w 0) (soundOf (n := 2) γ w) (velOf w) d *
    diagonal (rs.sigma (soundOf (n := 2) γ w) (velOf w) d) *
    matPinv γ (w 0) (soundOf (n := 2) γ w) (velOf w) d

/-- The numerical flux of trace and facet value. -/
def stabFlux (γ : ℝ) (rs : Riemann) (d : Fin 2 → ℝ) (p : (Fin 4 → ℝ) × (Fin 4 → ℝ)) : Fin 4 → ℝ :=
  eulerFluxOf (n := 2) γ d p.2 + tauOf γ rs d p.2 *ᵥ (p.1 - p.2)

theorem soundOf_pos (hγ : 1 < γ) {n : ℕ} {w : Fin (n + 2) → ℝ} (hw : GasVec w) : 0 < soundOf γ w :=
  Real.sqrt_pos.2 (mul_pos (mul_pos (by linarith) (by linarith)) hw.2)

theorem stabFlux_eq (hγ : 1 < γ) (rs : Riemann) {d : Fin 2 → ℝ} (hd : d ⬝ᵥ d = 1) (w : Fin 4 → ℝ)
    {wHat : Fin 4 → ℝ} (hw : GasVec (n := 2) wHat) :
    convectiveNumericalFlux γ rs w wHat (conservativeDict (gasOf (n := 2) γ wHat)) d
      = .ok (stabFlux γ rs d (w, wHat)) := by
  have hd' : d 0 ^ 2 + d 1 ^ 2 = 1 := by
    simpa [dotProduct, Fin.sum_univ_two, sq] using hd
  have ht := rs.tau_eq (γ := γ) (U := conservativeDict (gasOf (n := 2) γ wHat)) (rho := wHat 0)
    (u := velOf wHat) (c := soundOf (n := 2) γ wHat) hγ rfl rfl rfl hw.1 (soundOf_pos hγ hw) hd'
  unfold convectiveNumericalFlux
  rw [ht, pointFlux_eq hγ hw]
  simp only [bind, Except.bind]
  rw [pointFlux_mulVec hγ hw]
  rfl

theorem velOf_contDiffAt {w : Fin 4 → ℝ} (h0 : w 0 ≠ 0) (i : Fin 2) :
    ContDiffAt ℝ 1 (fun w => velOf w i) w := by
  have hz : ContDiffAt ℝ 1 (fun w : Fin 4 → ℝ => w 0) w := by fun_prop
  have hi : ContDiffAt ℝ 1 (fun w : Fin 4 → ℝ => mom (n := 2) w i) w :=
    contDiffAt_pi.1 ((contDiff_mom (n := 2)).contDiffAt (x := w)) i
  exact (hz.inv h0).mul hi

theorem matP_contDiffAt (hγ : 1 < γ) (d : Fin 2 → ℝ) {w : Fin 4 → ℝ} (hw : GasVec (n := 2) w)
    (i j : Fin 4) : ContDiffAt ℝ 1
      (fun w => matP γ (w 0) (soundOf (n := 2) γ w) (velOf w) d i j) w := by
  have hz : ContDiffAt ℝ 1 (fun w : Fin 4 → ℝ => w 0) w := by fun_prop
  have hc := soundOf_contDiffAt (n := 2) hγ hw
  have c0 := (soundOf_pos hγ hw).ne'
  have h0 := velOf_contDiffAt hw.1.ne' 0
  have h1 := velOf_contDiffAt hw.1.ne' 1
  have e2 : 2 * soundOf (n := 2) γ w ≠ 0 := by simpa using c0
  have e3 : 2 * soundOf (n := 2) γ w ^ 2 ≠ 0 := by simpa using c0
  have e4 : 4 * soundOf (n := 2) γ w ^ 2 ≠ 0 := by simpa using c0
  have e5 : soundOf (n := 2) γ w ^ 2 ≠ 0 := by simpa using c0
  fin_cases i <;> fin_cases j <;> simp [matP, dotProduct, Fin.sum_univ_two] <;> fun_prop (disch := assumption)

theorem matPinv_contDiffAt (hγ : 1 < γ) (d : Fin 2 → ℝ) {w : Fin 4 → ℝ} (hw : GasVec (n := 2) w)
    (i j : Fin 4) : ContDiffAt ℝ 1
      (fun w => matPinv γ (w 0) (soundOf (n := 2) γ w) (velOf w) d i j) w := by
  have hz : ContDiffAt ℝ 1 (fun w : Fin 4 → ℝ => w 0) w := by fun_prop
  have hc := soundOf_contDiffAt (n := 2) hγ hw
  have h0 := velOf_contDiffAt hw.1.ne' 0
  have h1 := velOf_contDiffAt hw.1.ne' 1
  have e0 := hw.1.ne'
  fin_cases i <;> fin_cases j <;> simp [matPinv, dotProduct, Fin.sum_univ_two] <;> fun_prop (disch := assumption)

theorem sigma_locLip (hγ : 1 < γ) (rs : Riemann) (d : Fin 2 → ℝ) {w : Fin 4 → ℝ}
    (hw : GasVec (n := 2) w) (i : Fin 4) :
    LocLip (fun w => rs.sigma (soundOf (n := 2) γ w) (velOf w) d i) w := by
  have hc : LocLip (soundOf (n := 2) γ) w := .of_contDiffAt (soundOf_contDiffAt (n := 2) hγ hw)
  have h0 := velOf_contDiffAt hw.1.ne' 0
  have h1 := velOf_contDiffAt hw.1.ne' 1
  have hn : LocLip (fun w => velOf w ⬝ᵥ d) w := .of_contDiffAt (by
    simp only [dotProduct, Fin.sum_univ_two]
    fun_prop)
  have hl : ∀ i, LocLip (fun w => lams (soundOf (n := 2) γ w) (velOf w) d i) w := by
    intro i
    fin_cases i
    · exact hn.sub hc
    · exact hn
    · exact hn
    · exact hn.add hc
  have hm : LocLip (fun w => max (velOf w ⬝ᵥ d + soundOf (n := 2) γ w) 0) w := (hn.add hc).max_const 0
  have c0 := soundOf_pos hγ hw
  cases rs with
  | upwind => exact (hl i).max_const 0
  | laxFriedrich => exact hn.abs.add hc
  | roe => exact (hl i).abs
  | hll => exact hm
  | hllem θ₀ =>
    have hq : LocLip (fun w => |velOf w ⬝ᵥ d| / (|velOf w ⬝ᵥ d| + soundOf (n := 2) γ w)) w :=
      hn.abs.div (hn.abs.add hc) (by positivity)
    fin_cases i
    · exact hm.mul (.const 1 w)
    · exact hm.mul (hq.max_const θ₀)
    · exact hm.mul (hq.max_const θ₀)
    · exact hm.mul (.const 1 w)

theorem tauOf_locLip (hγ : 1 < γ) (rs : Riemann) (d : Fin 2 → ℝ) {w : Fin 4 → ℝ}
    (hw : GasVec (n := 2) w) (i j : Fin 4) : LocLip (fun w => tauOf γ rs d w i j) w := by
  have e : ∀ w, tauOf γ rs d w i j = ∑ l, matP γ (w 0) (soundOf (n := 2) γ w) (velOf w) d i l *
      rs.sigma (soundOf (n := 2) γ w) (velOf w) d l *
      matPinv γ (w 0) (soundOf (n := 2) γ w) (velOf w) d l j := fun w => by
    rw [tauOf, Matrix.mul_apply]
    simp only [mul_diagonal]
  simp only [e]
  exact LocLip.sum _ fun l => ((LocLip.of_contDiffAt (matP_contDiffAt hγ d hw i l)).mul
    (sigma_locLip hγ rs d hw l)).mul (.of_contDiffAt (matPinv_contDiffAt hγ d hw l j))

/-- A matrix as a continuous linear map. -/
def tauL (A : Matrix (Fin 4) (Fin 4) ℝ) : (Fin 4 → ℝ) →L[ℝ] (Fin 4 → ℝ) :=
  LinearMap.toContinuousLinearMap (Matrix.mulVecLin A)

theorem tauL_apply (A : Matrix (Fin 4) (Fin 4) ℝ) (v : Fin 4 → ℝ) : tauL A v = A *ᵥ v := rfl

theorem mulVec_strict {T : (Fin 4 → ℝ) → Matrix (Fin 4) (Fin 4) ℝ} {w : Fin 4 → ℝ}
    (hT : ∀ i j, LocLip (fun w => T w i j) w) :
    HasStrictFDerivAt (fun p : (Fin 4 → ℝ) × (Fin 4 → ℝ) => T p.2 *ᵥ (p.1 - p.2))
      ((tauL (T w)).comp (ContinuousLinearMap.fst ℝ (Fin 4 → ℝ) (Fin 4 → ℝ) -
            ContinuousLinearMap.snd ℝ _ _)) (w, w) := by
  refine hasStrictFDerivAt_pi'.2 fun i => ?_
  let j : Fin 4 → (Fin 4 → ℝ) × (Fin 4 → ℝ) →L[ℝ] ℝ := fun l =>
    (ContinuousLinearMap.proj l).comp (ContinuousLinearMap.fst ℝ (Fin 4 → ℝ) (Fin 4 → ℝ) -
            ContinuousLinearMap.snd ℝ _ _)
  have h2 : ∀ l, HasStrictFDerivAt (fun p : (Fin 4 → ℝ) × (Fin 4 → ℝ) => T p.2 i l • j l p)
      (T w i l • j l) (w, w) := by
    intro l
    obtain ⟨K, s, hs, hK⟩ := LocLip.comp (g := fun w => T w i l)
      (f := fun p : (Fin 4 → ℝ) × (Fin 4 → ℝ) => p.2) (p := (w, w)) (hT i l)
      (.of_contDiffAt contDiffAt_snd)
    exact strict_smul (s := fun p : (Fin 4 → ℝ) × (Fin 4 → ℝ) => T p.2 i l) (by simp [j]) hs hK
  have h3 := HasStrictFDerivAt.fun_sum (u := Finset.univ) fun l _ => h2 l
  refine h3.congr_fderiv ?_
  ext p
  · simp [tauL_apply, mulVec, dotProduct, j]
  · simp [tauL_apply, mulVec, dotProduct, j]

theorem stabFlux_strict (hγ : 1 < γ) (rs : Riemann) (d : Fin 2 → ℝ) {w : Fin 4 → ℝ}
    (hw : GasVec (n := 2) w) : HasStrictFDerivAt (stabFlux γ rs d)
      ((fluxJac (n := 2) γ d w).comp (ContinuousLinearMap.snd ℝ _ _) +
        (tauL (tauOf γ rs d w)).comp (ContinuousLinearMap.fst ℝ (Fin 4 → ℝ) (Fin 4 → ℝ) -
            ContinuousLinearMap.snd ℝ _ _)) (w, w) := by
  have h1 : HasStrictFDerivAt (fun p : (Fin 4 → ℝ) × (Fin 4 → ℝ) => eulerFluxOf (n := 2) γ d p.2)
      ((fluxJac (n := 2) γ d w).comp (ContinuousLinearMap.snd ℝ _ _)) (w, w) :=
    HasStrictFDerivAt.comp (g := eulerFluxOf (n := 2) γ d) (w, w)
      ((flux_contDiffAt (n := 2) γ d hw.1.ne').hasStrictFDerivAt one_ne_zero)
      (ContinuousLinearMap.snd ℝ (Fin 4 → ℝ) (Fin 4 → ℝ)).hasStrictFDerivAt
  exact h1.add (mulVec_strict (T := fun w => tauOf γ rs d w) fun i j => tauOf_locLip hγ rs d hw i j)

end Dream
