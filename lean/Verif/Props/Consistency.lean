import Verif.Props.FreestreamViscous
import Verif.Props.Contact
import Verif.Props.TimeScheme
import Verif.Spec.Exact
import Mathlib.Analysis.Calculus.Deriv.Polynomial

/-!
# C80: exact solutions satisfy the discrete equations
-/

noncomputable section

namespace Dream
open Matrix Spec

variable {V B : Type} [Fintype V] [Fintype B] {γ : ℝ}

/-- The left hand side of the discrete equations of a step (`hdgStep`). -/
def hdgResidual (M : HdgMesh 2 V B) (mask : B → ℝ) (q : ℝ → ℝ → ℝ → ℝ)
    (x cur prev : HdgState 2 4 V B) (φ : HdgTest 2 4 V B) : ℝ :=
  timeForm M (fun v i => q (x.U v i) (cur.U v i) (prev.U v i)) φ
    + convectionForm M mask x.F x.Fn φ + diffusionForm M mask x.G x.Gn φ
    + boundaryForm M x.R φ + timeForm M x.source φ

theorem conserved_eq (S : GasState 2) : conserved S = gasVec S := by
  funext i
  fin_cases i <;> rfl

theorem eulerTensor_mulVec (S : GasState 2) (d : Fin 2 → ℝ) :
    eulerTensor γ S *ᵥ d = eulerFlux γ d S.rho S.rho_u S.rho_E := by
  funext i
  simp only [mulVec, dotProduct, Fin.sum_univ_two, eulerTensor, of_apply]
  fin_cases i
  · show (S.rho_u ⬝ᵥ Pi.single 0 1) * d 0 + (S.rho_u ⬝ᵥ Pi.single 1 1) * d 1 = S.rho_u ⬝ᵥ d
    simp [dotProduct, Fin.sum_univ_two]
  · show (S.rho_u 0 * (S.rho_u ⬝ᵥ Pi.single 0 1) / S.rho + _ * (Pi.single 0 1 : Fin 2 → ℝ) 0) * d 0
      + (S.rho_u 0 * (S.rho_u ⬝ᵥ Pi.single 1 1) / S.rho + _ * (Pi.single 1 1 : Fin 2 → ℝ) 0) * d 1
      = S.rho_u 0 * (S.rho_u ⬝ᵥ d) / S.rho + _ * d 0
    simp [dotProduct, Fin.sum_univ_two]
    ring
  · show (S.rho_u 1 * (S.rho_u ⬝ᵥ Pi.single 0 1) / S.rho + _ * (Pi.single 0 1 : Fin 2 → ℝ) 1) * d 0
      + (S.rho_u 1 * (S.rho_u ⬝ᵥ Pi.single 1 1) / S.rho + _ * (Pi.single 1 1 : Fin 2 → ℝ) 1) * d 1
      = S.rho_u 1 * (S.rho_u ⬝ᵥ d) / S.rho + _ * d 1
    simp [dotProduct, Fin.sum_univ_two]
    ring
  · show (_ * (S.rho_u ⬝ᵥ Pi.single 0 1) / S.rho) * d 0
      + (_ * (S.rho_u ⬝ᵥ Pi.single 1 1) / S.rho) * d 1 = _ * (S.rho_u ⬝ᵥ d) / S.rho
    simp [dotProduct, Fin.sum_univ_two]
    ring

theorem viscousFlux_linear (τ : Matrix (Fin 2) (Fin 2) ℝ) (κ : ℝ) (g u d : Fin 2 → ℝ) (i : Fin 4) :
    viscousFlux τ κ g u (Pi.single 0 1) i * d 0 + viscousFlux τ κ g u (Pi.single 1 1) i * d 1
      = viscousFlux τ κ g u d i := by
  fin_cases i
  · show (0 : ℝ) * d 0 + 0 * d 1 = 0
    ring
  · show (∑ j, τ 0 j * (Pi.single 0 1 : Fin 2 → ℝ) j) * d 0
      + (∑ j, τ 0 j * (Pi.single 1 1 : Fin 2 → ℝ) j) * d 1 = ∑ j, τ 0 j * d j
    simp [Fin.sum_univ_two]
  · show (∑ j, τ 1 j * (Pi.single 0 1 : Fin 2 → ℝ) j) * d 0
      + (∑ j, τ 1 j * (Pi.single 1 1 : Fin 2 → ℝ) j) * d 1 = ∑ j, τ 1 j * d j
    simp [Fin.sum_univ_two]
  · show (∑ i, (∑ j, τ i j * (Pi.single 0 1 : Fin 2 → ℝ) j) * u i
        + κ * ∑ i, g i * (Pi.single 0 1 : Fin 2 → ℝ) i) * d 0
      + (∑ i, (∑ j, τ i j * (Pi.single 1 1 : Fin 2 → ℝ) j) * u i
        + κ * ∑ i, g i * (Pi.single 1 1 : Fin 2 → ℝ) i) * d 1
      = ∑ i, (∑ j, τ i j * d j) * u i + κ * ∑ i, g i * d i
    simp [Fin.sum_univ_two]
    ring

/-- The core of C80: the sum of the integrals for given total fluxes. -/
theorem residual_core (M : HdgMesh 2 V B) (mask : B → ℝ) (pos : V → Fin 2 → ℝ)
    (posB : B → Fin 2 → ℝ) (Φ : (Fin 2 → ℝ) → Matrix (Fin 4) (Fin 2) ℝ)
    (δ : (Fin 2 → ℝ) → Fin 4 → ℝ) (q : ℝ → ℝ → ℝ → ℝ) (x cur prev : HdgState 2 4 V B)
    (hF : ∀ v, x.F v - x.G v = Φ (pos v))
    (hFn : ∀ b, x.Fn b - x.Gn b = Φ (posB b) *ᵥ M.normal b) (hR : x.R = 0) (hs : x.source = 0)
    (φ : HdgTest 2 4 V B) :
    hdgResidual M mask q x cur prev φ
      = ∑ v, M.wV v * ∑ i, (q (x.U v i) (cur.U v i) (prev.U v i) + δ (pos v) i) * φ.val v i
        + quadratureDefect M mask pos posB Φ δ φ := by
  have e1 : (∑ v, M.wV v * -frobenius (x.F v) (φ.grad v))
      + (∑ v, M.wV v * frobenius (x.G v) (φ.grad v))
      = -∑ v, M.wV v * ∑ i, ∑ j, Φ (pos v) i j * φ.grad v i j := by
    rw [← Finset.sum_add_distrib, ← Finset.sum_neg_distrib]
    refine Finset.sum_congr rfl fun v _ => ?_
    rw [← hF v]
    simp only [frobenius, Matrix.sub_apply, sub_mul, Finset.sum_sub_distrib]
    ring
  have e2 : (∑ b, M.wB b * (x.Fn b ⬝ᵥ φ.trace b)) - (∑ b, M.wB b * (x.Gn b ⬝ᵥ φ.trace b))
      = ∑ b, M.wB b * ∑ i, (∑ j, Φ (posB b) i j * M.normal b j) * φ.trace b i := by
    rw [← Finset.sum_sub_distrib]
    refine Finset.sum_congr rfl fun b _ => ?_
    have h : ∀ i, ∑ j, Φ (posB b) i j * M.normal b j = x.Fn b i - x.Gn b i := fun i =>
      (congrFun (hFn b) i).symm
    simp only [h, dotProduct, sub_mul, Finset.sum_sub_distrib]
    ring
  have e3 : (∑ b, M.wB b * (-mask b * (x.Fn b ⬝ᵥ φ.hat b)))
        + (∑ b, M.wB b * (mask b * (x.Gn b ⬝ᵥ φ.hat b)))
      = -∑ b, M.wB b * (mask b * ∑ i, (∑ j, Φ (posB b) i j * M.normal b j) * φ.hat b i) := by
    rw [← Finset.sum_add_distrib, ← Finset.sum_neg_distrib]
    refine Finset.sum_congr rfl fun b _ => ?_
    have h : ∀ i, ∑ j, Φ (posB b) i j * M.normal b j = x.Fn b i - x.Gn b i := fun i =>
      (congrFun (hFn b) i).symm
    simp only [h, dotProduct, sub_mul, Finset.sum_sub_distrib]
    ring
  have e4 : ∑ v, M.wV v * ∑ i, (q (x.U v i) (cur.U v i) (prev.U v i) + δ (pos v) i) * φ.val v i
      = timeForm M (fun v i => q (x.U v i) (cur.U v i) (prev.U v i)) φ
        + ∑ v, M.wV v * ∑ i, δ (pos v) i * φ.val v i := by
    rw [timeForm, ← Finset.sum_add_distrib]
    refine Finset.sum_congr rfl fun v _ => ?_
    simp only [dotProduct, add_mul, Finset.sum_add_distrib]
    ring
  have e5 : boundaryForm M x.R φ = 0 := by simp [boundaryForm, hR]
  have e6 : timeForm M x.source φ = 0 := by simp [timeForm, hs]
  rw [hdgResidual, e4, e5, e6, convectionForm, diffusionForm, quadratureDefect]
  linear_combination e1 + e2 + e3

theorem source_zero {S : V → GasState 2} {x : HdgState 2 4 V B} {σ : V → ℝ}
    (hU : ∀ v, x.U v = conserved (S v))
    (hσ : ∀ v, spongeResidual γ (σ v) (conservativeDict (S v)) (x.U v) = .ok (x.source v)) :
    x.source = 0 := by
  funext v
  have := hσ v
  rw [spongeResidual, stateVec_dict, hU v, conserved_eq] at this
  simp only [bind, Except.bind, sub_self, smul_zero, Except.ok.injEq] at this
  exact this.symm

/-- The convective fluxes at an exact solution are those of the Euler equations. -/
theorem convective_exact {S : GasState 2} (hS : IdealGas γ S) {F : Matrix (Fin 4) (Fin 2) ℝ}
    {U : Flow 2}
    (h0 : getConservativeFields γ (conserved S 0) ![conserved S 1, conserved S 2] (conserved S 3)
      = .ok U) (h : convectiveFlux γ U = .ok F) : F = eulerTensor γ S := by
  rw [conserved_eq, fields_vec hS] at h0
  cases h0
  ext i j
  obtain ⟨A, hA, h2⟩ := C26_flux_conservative hS (Pi.single j 1)
  rw [h] at hA
  cases hA
  have h3 := congrFun h2 i
  simpa [eulerTensor] using h3

theorem numerical_exact {S : GasState 2} (hS : IdealGas γ S) (rs : Riemann) {d : Fin 2 → ℝ}
    (hd : d 0 ^ 2 + d 1 ^ 2 = 1) {f : Fin 4 → ℝ} {U : Flow 2}
    (h0 : getConservativeFields γ (conserved S 0) ![conserved S 1, conserved S 2] (conserved S 3)
      = .ok U) (h : convectiveNumericalFlux γ rs (conserved S) (conserved S) U d = .ok f) :
    f = eulerTensor γ S *ᵥ d := by
  rw [conserved_eq, fields_vec hS] at h0
  cases h0
  rw [conserved_eq, C28_consistent rs hS hd] at h
  rw [eulerTensor_mulVec]
  exact (Except.ok.inj h).symm

/-- **C80** Euler equations: insert an exact solution `U` (elements and facets) into the discrete
equations of any step, with boundary conditions and sponge layers that have it as target. What
remains is only the truncation error of the difference quotient and the quadrature error of the
divergence theorem for the exact flux; Riemann solver, facet variable and boundary conditions
contribute nothing. -/
theorem C80_euler (rs : Riemann) (M : HdgMesh 2 V B)
    (hn : ∀ b, M.normal b 0 ^ 2 + M.normal b 1 ^ 2 = 1) (mask : B → ℝ)
    {Ω : ℝ → Set (Fin 2 → ℝ)} {U : ℝ → (Fin 2 → ℝ) → GasState 2} {dw : ℝ → (Fin 2 → ℝ) → Fin 4 → ℝ}
    (hS : SolvesEuler γ Ω U dw) (t : ℝ) (pos : V → Fin 2 → ℝ) (hp : ∀ v, pos v ∈ Ω t)
    (posB : B → Fin 2 → ℝ) (hb : ∀ b, posB b ∈ Ω t)
    (x : ℝ → HdgState 2 4 V B) (hU : ∀ s v, (x s).U v = conserved (U s (pos v)))
    (hx : (x t).IsEuler γ rs M (fun b => conserved (U t (posB b)))
      (fun b => conserved (U t (posB b))))
    (hR : ∀ b, Matching γ (U t (posB b)) (M.normal b) ((x t).R b))
    (σ : V → ℝ) (hσ : ∀ v, spongeResidual γ (σ v) (conservativeDict (U t (pos v))) ((x t).U v)
      = .ok ((x t).source v)) (q : ℝ → ℝ → ℝ → ℝ) (s r : ℝ) (φ : HdgTest 2 4 V B) :
    hdgResidual M mask q (x t) (x s) (x r) φ
      = (∑ v, M.wV v * ∑ i, (q (conserved (U t (pos v)) i) (conserved (U s (pos v)) i)
          (conserved (U r (pos v)) i) - dw t (pos v) i) * φ.val v i)
        + quadratureDefect M mask pos posB (fun y => eulerTensor γ (U t y))
            (fun y => -dw t y) φ := by
  have hF : ∀ v, (x t).F v - (x t).G v = eulerTensor γ (U t (pos v)) := by
    intro v
    obtain ⟨W, h1, h2⟩ := hx.flux v
    rw [hU] at h1
    rw [convective_exact (hS.gas t _ (hp v)) h1 h2, hx.inviscid.1]
    simp
  have hFn : ∀ b, (x t).Fn b - (x t).Gn b = eulerTensor γ (U t (posB b)) *ᵥ M.normal b := by
    intro b
    obtain ⟨W, h1, h2⟩ := hx.numerical b
    rw [numerical_exact (hS.gas t _ (hb b)) rs (hn b) h1 h2, hx.inviscid.2]
    simp
  have hR' : (x t).R = 0 := funext fun b => (hR b).zero (hS.gas t _ (hb b)) (hn b)
  rw [residual_core M mask pos posB (fun y => eulerTensor γ (U t y)) (fun y => -dw t y) q _ _ _
    hF hFn hR' (source_zero (hU t) hσ) φ]
  simp only [hU, Pi.neg_apply, ← sub_eq_add_neg]

/-- **C80** Steady Euler flow: if the quadrature obeys the divergence theorem for the exact flux, an
exact steady solution solves the discrete equations of every step exactly, for every Riemann
solver, mesh, order, scheme and time step. -/
theorem C80_steady (rs : Riemann) (M : HdgMesh 2 V B)
    (hn : ∀ b, M.normal b 0 ^ 2 + M.normal b 1 ^ 2 = 1) (mask : B → ℝ)
    {Ω : Set (Fin 2 → ℝ)} {W : (Fin 2 → ℝ) → GasState 2}
    (hS : SolvesEuler γ (fun _ => Ω) (fun _ => W) 0) (pos : V → Fin 2 → ℝ) (hp : ∀ v, pos v ∈ Ω)
    (posB : B → Fin 2 → ℝ) (hb : ∀ b, posB b ∈ Ω)
    (x : HdgState 2 4 V B) (hU : ∀ v, x.U v = conserved (W (pos v)))
    (hx : x.IsEuler γ rs M (fun b => conserved (W (posB b))) (fun b => conserved (W (posB b))))
    (hR : ∀ b, Matching γ (W (posB b)) (M.normal b) (x.R b))
    (σ : V → ℝ) (hσ : ∀ v, spongeResidual γ (σ v) (conservativeDict (W (pos v))) (x.U v)
      = .ok (x.source v)) (T : Set (HdgTest 2 4 V B))
    (hQ : ∀ φ ∈ T, quadratureDefect M mask pos posB (fun y => eulerTensor γ (W y)) 0 φ = 0)
    (s : Scheme) (dt : ℝ) (t : ℚ) :
    hdgStep M mask T (s.quotient dt) t x x x := by
  intro φ hφ
  have hq : ∀ a : ℝ, s.quotient dt a a a = 0 := by
    intro a
    cases s <;> simp [Scheme.quotient, backwardEuler, backward2] <;> ring_nf <;> simp
  have h := C80_euler rs M hn mask hS 0 pos hp posB hb (fun _ => x) (fun _ => hU) hx hR σ hσ
    (s.quotient dt) 0 0 φ
  have e : (fun y : Fin 2 → ℝ => -(0 : ℝ → (Fin 2 → ℝ) → Fin 4 → ℝ) 0 y) = 0 := by
    funext y; simp
  rw [e, hQ φ hφ] at h
  simp only [hq, Pi.zero_apply, sub_zero, zero_mul, Finset.sum_const_zero, mul_zero, add_zero] at h
  exact h

open Polynomial Topology in
/-- **C80** Unsteady Euler flow: a solution whose conserved quantities are, at every quadrature point
and during the steps (times `J`), affine in time (quadratic for BDF2) solves the discrete equations of every step exactly, provided that the
old levels are taken from the solution and the quadrature obeys the divergence theorem. -/
theorem C80_polynomial (rs : Riemann) (M : HdgMesh 2 V B)
    (hn : ∀ b, M.normal b 0 ^ 2 + M.normal b 1 ^ 2 = 1) (mask : B → ℝ)
    {Ω : ℝ → Set (Fin 2 → ℝ)} {U : ℝ → (Fin 2 → ℝ) → GasState 2} {dw : ℝ → (Fin 2 → ℝ) → Fin 4 → ℝ}
    (hS : SolvesEuler γ Ω U dw) (t : ℝ) (pos : V → Fin 2 → ℝ) (hp : ∀ v, pos v ∈ Ω t)
    (posB : B → Fin 2 → ℝ) (hb : ∀ b, posB b ∈ Ω t)
    (x : ℝ → HdgState 2 4 V B) (hU : ∀ s v, (x s).U v = conserved (U s (pos v)))
    (hx : (x t).IsEuler γ rs M (fun b => conserved (U t (posB b)))
      (fun b => conserved (U t (posB b))))
    (hR : ∀ b, Matching γ (U t (posB b)) (M.normal b) ((x t).R b))
    (σ : V → ℝ) (hσ : ∀ v, spongeResidual γ (σ v) (conservativeDict (U t (pos v))) ((x t).U v)
      = .ok ((x t).source v)) (T : Set (HdgTest 2 4 V B))
    (hQ : ∀ φ ∈ T, quadratureDefect M mask pos posB (fun y => eulerTensor γ (U t y))
      (fun y => -dw t y) φ = 0)
    (s : Scheme) (w : V → Fin 4 → ℝ[X])
    (hw : ∀ v i, (w v i).natDegree ≤ match s with | .implicitEuler => 1 | .bdf2 => 2)
    (dt : ℝ) (hdt : dt ≠ 0) (J : Set ℝ) (hJ : J ∈ 𝓝 t) (hJ1 : t - dt ∈ J) (hJ2 : t - 2 * dt ∈ J)
    (hwU : ∀ τ ∈ J, ∀ v i, conserved (U τ (pos v)) i = (w v i).eval τ) (t' : ℚ) :
    hdgStep M mask T (s.quotient dt) t' (x t) (x (t - dt)) (x (t - 2 * dt)) := by
  intro φ hφ
  have h := C80_euler rs M hn mask hS t pos hp posB hb x hU hx hR σ hσ (s.quotient dt) (t - dt)
    (t - 2 * dt) φ
  rw [hQ φ hφ] at h
  refine h.trans ?_
  rw [add_zero]
  refine Finset.sum_eq_zero fun v _ => ?_
  refine mul_eq_zero_of_right _ (Finset.sum_eq_zero fun i _ => mul_eq_zero_of_left ?_ _)
  have hd : dw t (pos v) i = (derivative (w v i)).eval t := by
    refine ((hS.balance t _ (hp v)).1 i).unique ?_
    refine ((w v i).hasDerivAt t).congr_of_eventuallyEq ?_
    filter_upwards [hJ] with τ hτ using hwU τ hτ v i
  rw [hd, hwU t (mem_of_mem_nhds hJ), hwU _ hJ1, hwU _ hJ2]
  cases s with
  | implicitEuler =>
    have := C05_ie_exact_affine (w v i) (hw v i) t dt hdt
    rw [← this, sub_eq_zero]
    rfl
  | bdf2 =>
    have := C05_bdf2_exact_quadratic (w v i) (hw v i) t dt hdt
    rw [← this, sub_eq_zero]
    simp only [Scheme.quotient, backward2, bdf2Derivative]

open Filter Topology in
/-- **C80** Consistency in time: for every exact solution of the Euler equations the residual of the
discrete equations tends to the quadrature error alone when the time step tends to zero. -/
theorem C80_limit (rs : Riemann) (M : HdgMesh 2 V B)
    (hn : ∀ b, M.normal b 0 ^ 2 + M.normal b 1 ^ 2 = 1) (mask : B → ℝ)
    {Ω : ℝ → Set (Fin 2 → ℝ)} {U : ℝ → (Fin 2 → ℝ) → GasState 2} {dw : ℝ → (Fin 2 → ℝ) → Fin 4 → ℝ}
    (hS : SolvesEuler γ Ω U dw) (t : ℝ) (pos : V → Fin 2 → ℝ) (hp : ∀ v, pos v ∈ Ω t)
    (posB : B → Fin 2 → ℝ) (hb : ∀ b, posB b ∈ Ω t)
    (x : ℝ → HdgState 2 4 V B) (hU : ∀ s v, (x s).U v = conserved (U s (pos v)))
    (hx : (x t).IsEuler γ rs M (fun b => conserved (U t (posB b)))
      (fun b => conserved (U t (posB b))))
    (hR : ∀ b, Matching γ (U t (posB b)) (M.normal b) ((x t).R b))
    (σ : V → ℝ) (hσ : ∀ v, spongeResidual γ (σ v) (conservativeDict (U t (pos v))) ((x t).U v)
      = .ok ((x t).source v)) (s : Scheme) (φ : HdgTest 2 4 V B) :
    Tendsto (fun dt => hdgResidual M mask (s.quotient dt) (x t) (x (t - dt)) (x (t - 2 * dt)) φ)
      (𝓝[≠] 0) (𝓝 (quadratureDefect M mask pos posB (fun y => eulerTensor γ (U t y))
        (fun y => -dw t y) φ)) := by
  simp only [C80_euler rs M hn mask hS t pos hp posB hb x hU hx hR σ hσ]
  have key : ∀ v i, Tendsto (fun dt => (s.quotient dt (conserved (U t (pos v)) i)
      (conserved (U (t - dt) (pos v)) i) (conserved (U (t - 2 * dt) (pos v)) i)
        - dw t (pos v) i) * φ.val v i) (𝓝[≠] 0) (𝓝 0) := by
    intro v i
    have hd := C05_consistent _ _ t ((hS.balance t _ (hp v)).1 i)
    have hs : Tendsto (fun dt => s.quotient dt (conserved (U t (pos v)) i)
        (conserved (U (t - dt) (pos v)) i) (conserved (U (t - 2 * dt) (pos v)) i))
        (𝓝[≠] 0) (𝓝 (dw t (pos v) i)) := by
      cases s with
      | implicitEuler => exact hd.1
      | bdf2 => exact hd.2
    have := (hs.sub_const (dw t (pos v) i)).mul_const (φ.val v i)
    rwa [sub_self, zero_mul] at this
  have h := (tendsto_finset_sum (Finset.univ : Finset V) fun v _ =>
    (tendsto_finset_sum (Finset.univ : Finset (Fin 4)) fun i _ => key v i).const_mul
      (M.wV v)).add_const (quadratureDefect M mask pos posB (fun y => eulerTensor γ (U t y))
        (fun y => -dw t y) φ)
  simpa using h

/-- **C80** The mixed equations: the deviatoric strain rate and the temperature gradient of a flow
with differentiable velocity and temperature solve the mixed equations, if the quadrature integrates
by parts exactly. -/
theorem C80_mixed (M : HdgMesh 2 V B) (pos : V → Fin 2 → ℝ) (posB : B → Fin 2 → ℝ)
    (T : Set (MixedTest V B)) (u : (Fin 2 → ℝ) → Fin 2 → ℝ) (θ : (Fin 2 → ℝ) → ℝ)
    (G : (Fin 2 → ℝ) → Matrix (Fin 2) (Fin 2) ℝ) (g : (Fin 2 → ℝ) → Fin 2 → ℝ)
    (hu : ∀ k, IntegratesByParts M pos posB T (fun y => u y k) (fun y => G y k))
    (hθ : IntegratesByParts M pos posB T θ g) {P : MixedTest V B} (hP : P ∈ T) :
    mixedForm M (fun v => strainHeat (G (pos v)) (g (pos v))) (fun v => u (pos v))
      (fun v => θ (pos v)) (fun b => u (posB b)) (fun b => θ (posB b)) P = 0 := by
  have h0 := hu 0 P hP
  have h1 := hu 1 P hP
  have h2 := hθ P hP
  have e1 : ∀ v, M.wV v * (mixedStrainVolume (strainHeat (G (pos v)) (g (pos v))) (P.val v)
          (P.grad v) (u (pos v))
        + mixedHeatVolume (strainHeat (G (pos v)) (g (pos v))) (P.val v) (P.grad v) (θ (pos v)))
      = M.wV v * (u (pos v) 0 * P.grad v 0 0 + G (pos v) 0 0 * P.val v 0)
        + M.wV v * (u (pos v) 0 * P.grad v 1 1 + G (pos v) 0 1 * P.val v 1)
        - 1 / 3 * (M.wV v * (u (pos v) 0 * P.grad v 0 0 + G (pos v) 0 0 * P.val v 0))
        - 1 / 3 * (M.wV v * (u (pos v) 0 * P.grad v 2 0 + G (pos v) 0 0 * P.val v 2))
        + M.wV v * (u (pos v) 1 * P.grad v 1 0 + G (pos v) 1 0 * P.val v 1)
        + M.wV v * (u (pos v) 1 * P.grad v 2 1 + G (pos v) 1 1 * P.val v 2)
        - 1 / 3 * (M.wV v * (u (pos v) 1 * P.grad v 0 1 + G (pos v) 1 1 * P.val v 0))
        - 1 / 3 * (M.wV v * (u (pos v) 1 * P.grad v 2 1 + G (pos v) 1 1 * P.val v 2))
        + M.wV v * (θ (pos v) * P.grad v 3 0 + g (pos v) 0 * P.val v 3)
        + M.wV v * (θ (pos v) * P.grad v 4 1 + g (pos v) 1 * P.val v 4) := by
    intro v
    simp [mixedStrainVolume, mixedHeatVolume, mixedEps, mixedGradT, divDevZeta, divXi,
      Fin.sum_univ_two, dotProduct, strainHeat]
    ring
  have e2 : ∀ b, M.wB b * (mixedStrainFacet (P.trace b) (u (posB b)) (M.normal b)
        + mixedHeatFacet (P.trace b) (θ (posB b)) (M.normal b))
      = M.wB b * (u (posB b) 0 * (P.trace b 0 * M.normal b 0))
        + M.wB b * (u (posB b) 0 * (P.trace b 1 * M.normal b 1))
        - 1 / 3 * (M.wB b * (u (posB b) 0 * (P.trace b 0 * M.normal b 0)))
        - 1 / 3 * (M.wB b * (u (posB b) 0 * (P.trace b 2 * M.normal b 0)))
        + M.wB b * (u (posB b) 1 * (P.trace b 1 * M.normal b 0))
        + M.wB b * (u (posB b) 1 * (P.trace b 2 * M.normal b 1))
        - 1 / 3 * (M.wB b * (u (posB b) 1 * (P.trace b 0 * M.normal b 1)))
        - 1 / 3 * (M.wB b * (u (posB b) 1 * (P.trace b 2 * M.normal b 1)))
        + M.wB b * (θ (posB b) * (P.trace b 3 * M.normal b 0))
        + M.wB b * (θ (posB b) * (P.trace b 4 * M.normal b 1)) := by
    intro b
    simp [mixedStrainFacet, mixedHeatFacet, devZeta, mixedEps, mixedGradT, Matrix.trace,
      Fin.sum_univ_two, dotProduct, mulVec]
    ring
  rw [mixedForm, Finset.sum_congr rfl fun v _ => e1 v, Finset.sum_congr rfl fun b _ => e2 b]
  simp only [Finset.sum_add_distrib, Finset.sum_sub_distrib, ← Finset.mul_sum, h0, h1, h2]
  ring

theorem newtonian_strain (μ : ℝ) (G : Matrix (Fin 2) (Fin 2) ℝ) (g : Fin 2 → ℝ) :
    (2 * μ) • !![strainHeat G g 0, strainHeat G g 1; strainHeat G g 1, strainHeat G g 2]
      = newtonianStress μ G := by
  ext i j
  fin_cases i <;> fin_cases j <;>
    simp [strainHeat, newtonianStress, Fin.sum_univ_two] <;> ring

/-- The viscous flux at an exact solution is that of the Navier-Stokes equations. -/
theorem diffusive_exact {cfg : FlowCfg} (ha : cfg.Accepted) (hv : cfg.visc ≠ .inviscid)
    (hM : 0 < cfg.Ma) {S : GasState 2} (hS : IdealGas cfg.γ S) {ν r : ℝ}
    (hν : viscosity cfg (conservativeDict S) = .ok ν) (hr : cfg.referenceReynolds = .ok r)
    (G : Matrix (Fin 2) (Fin 2) ℝ) (g : Fin 2 → ℝ) {F : Matrix (Fin 4) (Fin 2) ℝ}
    (h : diffusiveFlux cfg (conservativeDict S) (strainHeatFields (strainHeat G g)) = .ok F) :
    F = Matrix.of fun i j => viscousFlux (newtonianStress (ν / r) G) (ν / (r * cfg.Pr)) g S.u
      (Pi.single j 1) i := by
  ext i j
  obtain ⟨F', ν', r', h1, h2, h3, h4⟩ :=
    C55_strain_heat_partial ha hv hM hS (strainHeat G g) (Pi.single j 1)
  rw [h] at h1
  cases h1
  rw [hν] at h2
  cases h2
  rw [hr] at h3
  cases h3
  have e : ![strainHeat G g 3, strainHeat G g 4] = g := by
    funext k; fin_cases k <;> rfl
  rw [newtonian_strain, e] at h4
  have := congrFun h4 i
  simpa using this

/-- **C80** Navier-Stokes equations: the same for every exact solution of the Navier-Stokes
equations with the viscosity and Prandtl number of the configuration. The mixed variables are the
exact strain rate and temperature gradient. -/
theorem C80_navier_stokes {cfg : FlowCfg} (ha : cfg.Accepted) (hv : cfg.visc ≠ .inviscid)
    (hM : 0 < cfg.Ma) (rs : Riemann) (M : HdgMesh 2 V B)
    (hn : ∀ b, M.normal b 0 ^ 2 + M.normal b 1 ^ 2 = 1) (mask : B → ℝ)
    {μ κ : ℝ → ℝ} {Ω : ℝ → Set (Fin 2 → ℝ)} {U : ℝ → (Fin 2 → ℝ) → GasState 2}
    {G : ℝ → (Fin 2 → ℝ) → Matrix (Fin 2) (Fin 2) ℝ} {g : ℝ → (Fin 2 → ℝ) → Fin 2 → ℝ}
    {dw : ℝ → (Fin 2 → ℝ) → Fin 4 → ℝ} (hS : SolvesNavierStokes cfg.γ μ κ Ω U G g dw)
    (t : ℝ) (pos : V → Fin 2 → ℝ) (hp : ∀ v, pos v ∈ Ω t) (posB : B → Fin 2 → ℝ)
    (hb : ∀ b, posB b ∈ Ω t)
    (hμ : ∀ y ∈ Ω t, ∃ ν r, viscosity cfg (conservativeDict (U t y)) = .ok ν ∧
      cfg.referenceReynolds = .ok r ∧ μ (U t y).T = ν / r ∧ κ (U t y).T = ν / (r * cfg.Pr))
    (x : ℝ → HdgState 2 4 V B) (hU : ∀ s v, (x s).U v = conserved (U s (pos v)))
    (hx : (x t).IsNavierStokes cfg rs M (fun b => conserved (U t (posB b)))
      (fun b => conserved (U t (posB b))) (fun v => strainHeat (G t (pos v)) (g t (pos v)))
      (fun b => strainHeat (G t (posB b)) (g t (posB b))))
    (hR : ∀ b, Matching cfg.γ (U t (posB b)) (M.normal b) ((x t).R b))
    (σ : V → ℝ) (hσ : ∀ v, spongeResidual cfg.γ (σ v) (conservativeDict (U t (pos v)))
      ((x t).U v) = .ok ((x t).source v)) (q : ℝ → ℝ → ℝ → ℝ) (s r : ℝ)
    (φ : HdgTest 2 4 V B) :
    hdgResidual M mask q (x t) (x s) (x r) φ
      = (∑ v, M.wV v * ∑ i, (q (conserved (U t (pos v)) i) (conserved (U s (pos v)) i)
          (conserved (U r (pos v)) i) - dw t (pos v) i) * φ.val v i)
        + quadratureDefect M mask pos posB (fun y => navierStokesTensor cfg.γ (μ (U t y).T)
            (κ (U t y).T) (U t y) (G t y) (g t y)) (fun y => -dw t y) φ := by
  have hF : ∀ v, (x t).F v - (x t).G v = navierStokesTensor cfg.γ (μ (U t (pos v)).T)
      (κ (U t (pos v)).T) (U t (pos v)) (G t (pos v)) (g t (pos v)) := by
    intro v
    have hg := hS.gas t _ (hp v)
    obtain ⟨W, h1, h2, h3⟩ := hx.flux v
    rw [hU] at h1
    obtain ⟨ν, r, k1, k2, k3, k4⟩ := hμ _ (hp v)
    rw [convective_exact hg h1 h2, k3, k4]
    rw [conserved_eq, fields_vec hg] at h1
    cases h1
    rw [diffusive_exact ha hv hM hg k1 k2 _ _ h3]
    rfl
  have hFn : ∀ b, (x t).Fn b - (x t).Gn b = navierStokesTensor cfg.γ (μ (U t (posB b)).T)
      (κ (U t (posB b)).T) (U t (posB b)) (G t (posB b)) (g t (posB b)) *ᵥ M.normal b := by
    intro b
    have hg := hS.gas t _ (hb b)
    obtain ⟨W, h1, h2, h3⟩ := hx.numerical b
    obtain ⟨ν, r, k1, k2, k3, k4⟩ := hμ _ (hb b)
    rw [numerical_exact hg rs (hn b) h1 h2, k3, k4]
    rw [conserved_eq, fields_vec hg] at h1
    cases h1
    obtain ⟨F, f1, f2⟩ := C56_consistent ha hv hM hg (strainHeat (G t (posB b)) (g t (posB b)))
      (conserved (U t (posB b))) (M.normal b)
    have h4 : (x t).Gn b = F *ᵥ M.normal b := (Except.ok.inj (f2.symm.trans h3)).symm
    rw [h4, diffusive_exact ha hv hM hg k1 k2 _ _ f1, ← sub_mulVec]
    rfl
  have hR' : (x t).R = 0 := funext fun b => (hR b).zero (hS.gas t _ (hb b)) (hn b)
  rw [residual_core M mask pos posB (fun y => navierStokesTensor cfg.γ (μ (U t y).T)
    (κ (U t y).T) (U t y) (G t y) (g t y)) (fun y => -dw t y) q _ _ _ hF hFn hR'
    (source_zero (hU t) hσ) φ]
  simp only [hU, Pi.neg_apply, ← sub_eq_add_neg]

/-- **C80** Steady viscous flow: an exact steady solution of the Navier-Stokes equations solves the
discrete equations of every step, mixed equations included, if the quadrature obeys the divergence
theorem. -/
theorem C80_steady_viscous {cfg : FlowCfg} (ha : cfg.Accepted) (hv : cfg.visc ≠ .inviscid)
    (hM : 0 < cfg.Ma) (rs : Riemann) (M : HdgMesh 2 V B)
    (hn : ∀ b, M.normal b 0 ^ 2 + M.normal b 1 ^ 2 = 1) (mask : B → ℝ)
    {μ κ : ℝ → ℝ} {Ω : Set (Fin 2 → ℝ)} {W : (Fin 2 → ℝ) → GasState 2}
    {G : (Fin 2 → ℝ) → Matrix (Fin 2) (Fin 2) ℝ} {g : (Fin 2 → ℝ) → Fin 2 → ℝ}
    (hS : SolvesNavierStokes cfg.γ μ κ (fun _ => Ω) (fun _ => W) (fun _ => G) (fun _ => g) 0)
    (hμ : ∀ y ∈ Ω, ∃ ν r, viscosity cfg (conservativeDict (W y)) = .ok ν ∧
      cfg.referenceReynolds = .ok r ∧ μ (W y).T = ν / r ∧ κ (W y).T = ν / (r * cfg.Pr))
    (pos : V → Fin 2 → ℝ) (hp : ∀ v, pos v ∈ Ω) (posB : B → Fin 2 → ℝ) (hb : ∀ b, posB b ∈ Ω)
    (x : HdgState 2 4 V B) (hU : ∀ v, x.U v = conserved (W (pos v)))
    (hx : x.IsNavierStokes cfg rs M (fun b => conserved (W (posB b)))
      (fun b => conserved (W (posB b))) (fun v => strainHeat (G (pos v)) (g (pos v)))
      (fun b => strainHeat (G (posB b)) (g (posB b))))
    (hR : ∀ b, Matching cfg.γ (W (posB b)) (M.normal b) (x.R b))
    (σ : V → ℝ) (hσ : ∀ v, spongeResidual cfg.γ (σ v) (conservativeDict (W (pos v))) (x.U v)
      = .ok (x.source v)) (T : Set (HdgTest 2 4 V B)) (T' : Set (MixedTest V B))
    (hQ : ∀ φ ∈ T, quadratureDefect M mask pos posB (fun y => navierStokesTensor cfg.γ (μ (W y).T)
      (κ (W y).T) (W y) (G y) (g y)) 0 φ = 0)
    (hu : ∀ k, IntegratesByParts M pos posB T' (fun y => (W y).u k) (fun y => G y k))
    (hθ : IntegratesByParts M pos posB T' (fun y => (W y).T) g)
    (s : Scheme) (dt : ℝ) (t : ℚ) :
    hdgStep M mask T (s.quotient dt) t x x x ∧
      ∀ P ∈ T', mixedForm M (fun v => strainHeat (G (pos v)) (g (pos v))) (fun v => (W (pos v)).u)
        (fun v => (W (pos v)).T) (fun b => (W (posB b)).u) (fun b => (W (posB b)).T) P = 0 := by
  refine ⟨fun φ hφ => ?_, fun P hP => C80_mixed M pos posB T' (fun y => (W y).u)
    (fun y => (W y).T) G g hu hθ hP⟩
  have hq : ∀ a : ℝ, s.quotient dt a a a = 0 := by
    intro a
    cases s <;> simp [Scheme.quotient, backwardEuler, backward2] <;> ring_nf <;> simp
  have h := C80_navier_stokes ha hv hM rs M hn mask hS 0 pos hp posB hb hμ (fun _ => x)
    (fun _ => hU) hx hR σ hσ (s.quotient dt) 0 0 φ
  have e : (fun y : Fin 2 → ℝ => -(0 : ℝ → (Fin 2 → ℝ) → Fin 4 → ℝ) 0 y) = 0 := by
    funext y; simp
  rw [e, hQ φ hφ] at h
  simp only [hq, Pi.zero_apply, sub_zero, zero_mul, Finset.sum_const_zero, mul_zero, add_zero] at h
  exact h

end Dream
