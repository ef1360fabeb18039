import Verif.Model.Examples
import Verif.Props.ExactFlows
import Verif.Props.Farfield
import Mathlib.Analysis.SpecialFunctions.Pow.Deriv
import Mathlib.Analysis.Complex.ExponentialBounds
import Mathlib.Analysis.SpecialFunctions.Trigonometric.Deriv
import Mathlib.MeasureTheory.Integral.IntervalIntegral.Basic

/-!
# C106: the vortex of the example is carried along by the stream
-/

noncomputable section

namespace Dream
open Matrix Spec

variable {γ : ℝ}

/-- The derivatives of `f` at time `t` and point `x`: in time and along the two axes. -/
structure PartialsAt (f : ℝ → (Fin 2 → ℝ) → ℝ) (t : ℝ) (x : Fin 2 → ℝ) (ft f0 f1 : ℝ) : Prop where
  time : HasDerivAt (fun s => f s x) ft t
  first : HasDerivAt (fun s : ℝ => f t (x + s • Pi.single 0 1)) f0 0
  second : HasDerivAt (fun s : ℝ => f t (x + s • Pi.single 1 1)) f1 0

/-- The flow with density `r`, velocity `(u, v)` and pressure `p`. -/
def primitiveFlow (γ : ℝ) (r u v p : ℝ → (Fin 2 → ℝ) → ℝ) (t : ℝ) (x : Fin 2 → ℝ) : GasState 2 :=
  GasState.of γ (r t x) ![u t x, v t x] (p t x / ((γ - 1) * r t x))

theorem primitiveFlow_eq (hγ : 1 < γ) {r u v p : ℝ → (Fin 2 → ℝ) → ℝ} {t : ℝ} {x : Fin 2 → ℝ}
    (hr : 0 < r t x) (hp : 0 < p t x) :
    IdealGas γ (primitiveFlow γ r u v p t x) ∧
    (primitiveFlow γ r u v p t x).p = p t x ∧
    conserved (primitiveFlow γ r u v p t x) = ![r t x, r t x * u t x, r t x * v t x,
      (γ - 1)⁻¹ * p t x + r t x * (u t x * u t x + v t x * v t x) * 2⁻¹] ∧
    (∀ i, eulerTensor γ (primitiveFlow γ r u v p t x) i 0 = ![r t x * u t x,
      r t x * u t x * u t x + p t x, r t x * v t x * u t x,
      (γ / (γ - 1) * p t x + r t x * (u t x * u t x + v t x * v t x) * 2⁻¹) * u t x] i) ∧
    ∀ i, eulerTensor γ (primitiveFlow γ r u v p t x) i 1 = ![r t x * v t x,
      r t x * u t x * v t x, r t x * v t x * v t x + p t x,
      (γ / (γ - 1) * p t x + r t x * (u t x * u t x + v t x * v t x) * 2⁻¹) * v t x] i := by
  have h1 : 0 < γ - 1 := by linarith
  have hi : IdealGas γ (primitiveFlow γ r u v p t x) := IdealGas.of hγ hr (by positivity)
  have h0 := hr.ne'
  have h2 := h1.ne'
  have hpp : (primitiveFlow γ r u v p t x).p = p t x := by
    simp only [primitiveFlow, GasState.of]
    field_simp
  refine ⟨hi, hpp, ?_, fun i => ?_, fun i => ?_⟩
  · funext i
    fin_cases i <;> simp [conserved, primitiveFlow, GasState.of] <;> field_simp
  · rw [eulerTensor, of_apply, euler_primitive hi, hpp]
    fin_cases i <;> simp [primitiveFlow, GasState.of] <;> field_simp <;> ring_nf
    tauto
  · rw [eulerTensor, of_apply, euler_primitive hi, hpp]
    fin_cases i <;> simp [primitiveFlow, GasState.of] <;> field_simp <;> ring_nf
    tauto

/-- A flow whose density, velocity and pressure satisfy the equations of continuity, momentum and
pressure (in the form with separate derivatives) solves the Euler equations. -/
theorem euler_of_primitive (hγ : 1 < γ) {r u v p rt r0 r1 ut u0 u1 vt v0 v1 pt p0 p1 :
      ℝ → (Fin 2 → ℝ) → ℝ}
    (hr : ∀ t x, 0 < r t x) (hp : ∀ t x, 0 < p t x)
    (dr : ∀ t x, PartialsAt r t x (rt t x) (r0 t x) (r1 t x))
    (du : ∀ t x, PartialsAt u t x (ut t x) (u0 t x) (u1 t x))
    (dv : ∀ t x, PartialsAt v t x (vt t x) (v0 t x) (v1 t x))
    (dp : ∀ t x, PartialsAt p t x (pt t x) (p0 t x) (p1 t x))
    (mass : ∀ t x, rt t x + u t x * r0 t x + v t x * r1 t x + r t x * (u0 t x + v1 t x) = 0)
    (mom0 : ∀ t x, r t x * (ut t x + u t x * u0 t x + v t x * u1 t x) + p0 t x = 0)
    (mom1 : ∀ t x, r t x * (vt t x + u t x * v0 t x + v t x * v1 t x) + p1 t x = 0)
    (pres : ∀ t x, pt t x + u t x * p0 t x + v t x * p1 t x + γ * p t x * (u0 t x + v1 t x) = 0) :
    SolvesEuler γ (fun _ => Set.univ) (primitiveFlow γ r u v p) (fun t x =>
      ![rt t x, rt t x * u t x + r t x * ut t x, rt t x * v t x + r t x * vt t x,
        (γ - 1)⁻¹ * pt t x + (rt t x * (u t x * u t x + v t x * v t x)
          + r t x * (2 * u t x * ut t x + 2 * v t x * vt t x)) * 2⁻¹]) := by
  refine ⟨fun t x _ => (primitiveFlow_eq hγ (hr t x) (hp t x)).1, fun t x _ => ⟨fun i => ?_, ?_⟩⟩
  · have e : (fun s => conserved (primitiveFlow γ r u v p s x) i) = fun s =>
        ![r s x, r s x * u s x, r s x * v s x,
          (γ - 1)⁻¹ * p s x + r s x * (u s x * u s x + v s x * v s x) * 2⁻¹] i := by
      funext s
      rw [(primitiveFlow_eq hγ (hr s x) (hp s x)).2.2.1]
    rw [e]
    have hr := (dr t x).time
    have hu := (du t x).time
    have hv := (dv t x).time
    have hp := (dp t x).time
    fin_cases i
    · exact hr
    · exact hr.mul hu
    · exact hr.mul hv
    · refine ((hp.const_mul (γ - 1)⁻¹).add
        ((hr.mul ((hu.mul hu).add (hv.mul hv))).mul_const 2⁻¹)).congr_deriv ?_
      simp only [Pi.add_apply, Pi.mul_apply]
      show _ = (γ - 1)⁻¹ * pt t x + (rt t x * (u t x * u t x + v t x * v t x)
          + r t x * (2 * u t x * ut t x + 2 * v t x * vt t x)) * 2⁻¹
      ring
  · refine ⟨Matrix.of fun i j => if j = 0 then ![r0 t x * u t x + r t x * u0 t x,
        (r0 t x * u t x + r t x * u0 t x) * u t x + r t x * u t x * u0 t x + p0 t x,
        (r0 t x * v t x + r t x * v0 t x) * u t x + r t x * v t x * u0 t x,
        (γ / (γ - 1) * p0 t x + (r0 t x * (u t x * u t x + v t x * v t x)
          + r t x * (2 * u t x * u0 t x + 2 * v t x * v0 t x)) * 2⁻¹) * u t x
        + (γ / (γ - 1) * p t x + r t x * (u t x * u t x + v t x * v t x) * 2⁻¹) * u0 t x] i
      else ![r1 t x * v t x + r t x * v1 t x,
        (r1 t x * u t x + r t x * u1 t x) * v t x + r t x * u t x * v1 t x,
        (r1 t x * v t x + r t x * v1 t x) * v t x + r t x * v t x * v1 t x + p1 t x,
        (γ / (γ - 1) * p1 t x + (r1 t x * (u t x * u t x + v t x * v t x)
          + r t x * (2 * u t x * u1 t x + 2 * v t x * v1 t x)) * 2⁻¹) * v t x
        + (γ / (γ - 1) * p t x + r t x * (u t x * u t x + v t x * v t x) * 2⁻¹) * v1 t x] i,
      fun i j => ?_, fun i => ?_⟩
    · fin_cases j
      · show HasDerivAt (fun s : ℝ => eulerTensor γ (primitiveFlow γ r u v p t (x + s • Pi.single 0 1))
          i 0) _ 0
        have e : (fun s : ℝ => eulerTensor γ (primitiveFlow γ r u v p t (x + s • Pi.single 0 1)) i 0)
            = fun s : ℝ => _ :=
          funext fun s => (primitiveFlow_eq (u := u) (v := v) hγ (hr t (x + s • Pi.single 0 1))
            (hp t (x + s • Pi.single 0 1))).2.2.2.1 i
        rw [e]
        have hr := (dr t x).first
        have hu := (du t x).first
        have hv := (dv t x).first
        have hp := (dp t x).first
        fin_cases i
        · exact (hr.mul hu).congr_deriv (by simp)
        · exact (((hr.mul hu).mul hu).add hp).congr_deriv (by simp)
        · exact ((hr.mul hv).mul hu).congr_deriv (by simp)
        · refine (((hp.const_mul (γ / (γ - 1))).add
            ((hr.mul ((hu.mul hu).add (hv.mul hv))).mul_const 2⁻¹)).mul hu).congr_deriv ?_
          simp
          ring_nf
          simp
      · show HasDerivAt (fun s : ℝ => eulerTensor γ (primitiveFlow γ r u v p t (x + s • Pi.single 1 1))
          i 1) _ 0
        have e : (fun s : ℝ => eulerTensor γ (primitiveFlow γ r u v p t (x + s • Pi.single 1 1)) i 1)
            = fun s : ℝ => _ :=
          funext fun s => (primitiveFlow_eq (u := u) (v := v) hγ (hr t (x + s • Pi.single 1 1))
            (hp t (x + s • Pi.single 1 1))).2.2.2.2 i
        rw [e]
        have hr := (dr t x).second
        have hu := (du t x).second
        have hv := (dv t x).second
        have hp := (dp t x).second
        fin_cases i
        · exact (hr.mul hv).congr_deriv (by simp)
        · exact ((hr.mul hu).mul hv).congr_deriv (by simp)
        · exact (((hr.mul hv).mul hv).add hp).congr_deriv (by simp)
        · refine (((hp.const_mul (γ / (γ - 1))).add
            ((hr.mul ((hu.mul hu).add (hv.mul hv))).mul_const 2⁻¹)).mul hv).congr_deriv ?_
          simp
          ring_nf
          simp
    · have h1 : γ - 1 ≠ 0 := by linarith
      have m := mass t x
      have a := mom0 t x
      have b := mom1 t x
      have c := pres t x
      fin_cases i
      · simp
        linear_combination -m
      · simp
        linear_combination -u t x * m - a
      · simp
        linear_combination -v t x * m - b
      · simp
        field_simp
        linear_combination -(γ - 1) * (u t x ^ 2 + v t x ^ 2) * m
          - 2 * (γ - 1) * u t x * a - 2 * (γ - 1) * v t x * b - 2 * c

/-- A function of the position relative to a point that moves with the velocity `(a, b)`. -/
def moving (a b : ℝ) (z : Fin 2 → ℝ) (g : ℝ → ℝ → ℝ) (t : ℝ) (x : Fin 2 → ℝ) : ℝ :=
  g (x 0 - z 0 - a * t) (x 1 - z 1 - b * t)

theorem moving_partials (a b : ℝ) (z : Fin 2 → ℝ) {g : ℝ → ℝ → ℝ} {D : ℝ → ℝ → ℝ → ℝ → ℝ}
    (h : ∀ (X Y : ℝ → ℝ) (s α β : ℝ), HasDerivAt X α s → HasDerivAt Y β s →
      HasDerivAt (fun s => g (X s) (Y s)) (D (X s) (Y s) α β) s) (t : ℝ) (x : Fin 2 → ℝ) :
    PartialsAt (moving a b z g) t x
      (D (x 0 - z 0 - a * t) (x 1 - z 1 - b * t) (-a) (-b))
      (D (x 0 - z 0 - a * t) (x 1 - z 1 - b * t) 1 0)
      (D (x 0 - z 0 - a * t) (x 1 - z 1 - b * t) 0 1) where
  time := h (fun s => x 0 - z 0 - a * s) (fun s => x 1 - z 1 - b * s) t (-a) (-b)
    (by simpa using ((hasDerivAt_id t).const_mul a).const_sub (x 0 - z 0))
    (by simpa using ((hasDerivAt_id t).const_mul b).const_sub (x 1 - z 1))
  first := by
    have := h (fun s => (x + s • (Pi.single 0 1 : Fin 2 → ℝ)) 0 - z 0 - a * t)
      (fun s => (x + s • (Pi.single 0 1 : Fin 2 → ℝ)) 1 - z 1 - b * t) 0 1 0
      (by simpa using (((hasDerivAt_id (0 : ℝ)).const_add (x 0)).sub_const (z 0)).sub_const (a * t))
      (by simpa using hasDerivAt_const _ _)
    simpa [moving] using this
  second := by
    have := h (fun s => (x + s • (Pi.single 1 1 : Fin 2 → ℝ)) 0 - z 0 - a * t)
      (fun s => (x + s • (Pi.single 1 1 : Fin 2 → ℝ)) 1 - z 1 - b * t) 0 0 1
      (by simpa using hasDerivAt_const _ _)
      (by simpa using (((hasDerivAt_id (0 : ℝ)).const_add (x 1)).sub_const (z 1)).sub_const (b * t))
    simpa [moving] using this

/-- The bell curve of the vortex. -/
def bell (R X Y : ℝ) : ℝ := Real.exp ((R ^ 2 - (X ^ 2 + Y ^ 2)) / (2 * R ^ 2))

theorem bell_deriv {R : ℝ} (hR : R ≠ 0) (X Y : ℝ → ℝ) (s α β : ℝ) (hX : HasDerivAt X α s)
    (hY : HasDerivAt Y β s) :
    HasDerivAt (fun s => bell R (X s) (Y s))
      (-(X s * α + Y s * β) / R ^ 2 * bell R (X s) (Y s)) s := by
  have h := ((((hX.pow 2).add (hY.pow 2)).const_sub (R ^ 2)).div_const (2 * R ^ 2)).exp
  refine (h.congr_deriv ?_)
  simp only [bell, Pi.add_apply, Pi.pow_apply]
  field_simp
  norm_num

/-- Temperature relative to the stream. -/
def warmth (γ Mt R X Y : ℝ) : ℝ := 1 - (γ - 1) / 2 * Mt ^ 2 * bell R X Y ^ 2

theorem bell_sq_le {R : ℝ} (hR : R ≠ 0) (X Y : ℝ) : bell R X Y ^ 2 ≤ Real.exp 1 := by
  rw [bell, ← Real.exp_nat_mul]
  apply Real.exp_le_exp.2
  have : 0 < R ^ 2 := by positivity
  push_cast
  rw [mul_div_assoc', div_le_one (by positivity)]
  nlinarith [sq_nonneg X, sq_nonneg Y]

theorem warmth_pos (hγ : 1 < γ) {Mt R : ℝ} (hR : R ≠ 0)
    (hM : (γ - 1) / 2 * Mt ^ 2 * Real.exp 1 < 1) (X Y : ℝ) : 0 < warmth γ Mt R X Y := by
  have h := mul_le_mul_of_nonneg_left (bell_sq_le hR X Y)
    (show 0 ≤ (γ - 1) / 2 * Mt ^ 2 by have : 0 < γ - 1 := by linarith
                                      positivity)
  rw [warmth]
  linarith

theorem warmth_deriv {Mt R : ℝ} (hR : R ≠ 0) (X Y : ℝ → ℝ) (s α β : ℝ) (hX : HasDerivAt X α s)
    (hY : HasDerivAt Y β s) :
    HasDerivAt (fun s => warmth γ Mt R (X s) (Y s))
      ((γ - 1) * Mt ^ 2 / R ^ 2 * (X s * α + Y s * β) * bell R (X s) (Y s) ^ 2) s := by
  have h := (((bell_deriv hR X Y s α β hX hY).pow 2).const_mul ((γ - 1) / 2 * Mt ^ 2)).const_sub 1
  refine h.congr_deriv ?_
  field_simp
  norm_num
  ring

/-- A vortex with the Mach number `Mt` and the radius `R` around the point `z`, in a stream with the
velocity `(a, b)` and the speed of sound `c`. -/
def vortexFlow (γ c Mt R a b : ℝ) (z : Fin 2 → ℝ) : ℝ → (Fin 2 → ℝ) → GasState 2 :=
  primitiveFlow γ (moving a b z fun X Y => warmth γ Mt R X Y ^ (1 / (γ - 1)))
    (moving a b z fun X Y => a - Mt * c / R * Y * bell R X Y)
    (moving a b z fun X Y => b + Mt * c / R * X * bell R X Y)
    (moving a b z fun X Y => c ^ 2 / γ * warmth γ Mt R X Y ^ (γ / (γ - 1)))

theorem vortexFlow_solves (hγ : 1 < γ) {c Mt R a b : ℝ} (hc : 0 < c) (hR : R ≠ 0)
    (hM : (γ - 1) / 2 * Mt ^ 2 * Real.exp 1 < 1) (z : Fin 2 → ℝ) :
    ∃ dw, SolvesEuler γ (fun _ => Set.univ) (vortexFlow γ c Mt R a b z) dw := by
  have g1 : γ - 1 ≠ 0 := by linarith
  have g0 : γ ≠ 0 := by linarith
  have hw := warmth_pos hγ hR hM
  refine ⟨_, euler_of_primitive hγ (fun t x => ?_) (fun t x => ?_)
    (moving_partials a b z (D := fun X Y α β => (γ - 1) * Mt ^ 2 / R ^ 2 * (X * α + Y * β)
        * bell R X Y ^ 2 * (1 / (γ - 1)) * warmth γ Mt R X Y ^ (1 / (γ - 1) - 1)) ?_)
    (moving_partials a b z (D := fun X Y α β => -(Mt * c / R * (β * bell R X Y
        + Y * (-(X * α + Y * β) / R ^ 2 * bell R X Y)))) ?_)
    (moving_partials a b z (D := fun X Y α β => Mt * c / R * (α * bell R X Y
        + X * (-(X * α + Y * β) / R ^ 2 * bell R X Y))) ?_)
    (moving_partials a b z (D := fun X Y α β => c ^ 2 * Mt ^ 2 / R ^ 2 * (X * α + Y * β)
        * bell R X Y ^ 2 * warmth γ Mt R X Y ^ (1 / (γ - 1))) ?_)
    (fun t x => ?_) (fun t x => ?_) (fun t x => ?_) fun t x => ?_⟩
  · exact Real.rpow_pos_of_pos (hw _ _) _
  · exact mul_pos (by positivity) (Real.rpow_pos_of_pos (hw _ _) _)
  · intro X Y s α β hX hY
    exact (warmth_deriv hR X Y s α β hX hY).rpow_const (Or.inl (hw _ _).ne')
  · intro X Y s α β hX hY
    have h := ((hY.mul (bell_deriv hR X Y s α β hX hY)).const_mul (Mt * c / R)).const_sub a
    refine (h.congr_of_eventuallyEq ?_).congr_deriv rfl
    exact Filter.Eventually.of_forall fun s => by simp only [Pi.mul_apply]; ring
  · intro X Y s α β hX hY
    have h := ((hX.mul (bell_deriv hR X Y s α β hX hY)).const_mul (Mt * c / R)).const_add b
    refine (h.congr_of_eventuallyEq ?_).congr_deriv rfl
    exact Filter.Eventually.of_forall fun s => by simp only [Pi.mul_apply]; ring
  · intro X Y s α β hX hY
    have h := ((warmth_deriv (γ := γ) (Mt := Mt) hR X Y s α β hX hY).rpow_const
      (p := γ / (γ - 1)) (Or.inl (hw _ _).ne')).const_mul (c ^ 2 / γ)
    refine h.congr_deriv ?_
    rw [show γ / (γ - 1) - 1 = 1 / (γ - 1) by field_simp; ring]
    field_simp
  all_goals
    simp only [moving]
    generalize x 0 - z 0 - a * t = X
    generalize x 1 - z 1 - b * t = Y
    generalize warmth γ Mt R X Y ^ (1 / (γ - 1)) = w
  · ring
  · field_simp
    ring
  · field_simp
    ring
  · ring

/-- What the example stores, written out. -/
theorem vortex_fields {cfg : FlowCfg} (h : cfg.Accepted) (hMa : 0 < cfg.Ma) (v : VortexSetup)
    (hR : v.R ≠ 0) (x y : ℝ) :
    v.fields cfg x y = .ok
      { u := some ((farState cfg v.direction).u
          + ![-(v.Mt * farC cfg / v.R * (y - v.centre 1) * bell v.R (x - v.centre 0) (y - v.centre 1)),
            v.Mt * farC cfg / v.R * (x - v.centre 0) * bell v.R (x - v.centre 0) (y - v.centre 1)]),
        p := some (farC cfg ^ 2 / cfg.γ
          * warmth cfg.γ v.Mt v.R (x - v.centre 0) (y - v.centre 1) ^ (cfg.γ / (cfg.γ - 1))),
        rho := some (warmth cfg.γ v.Mt v.R (x - v.centre 0) (y - v.centre 1)
          ^ (1 / (cfg.γ - 1))) } := by
  have g1 : cfg.γ - 1 ≠ 0 := by have := h.gamma; linarith
  have g0 : cfg.γ ≠ 0 := by have := h.gamma; linarith
  have hr : ∀ x y, v.r x y ^ 2 = (x - v.centre 0) ^ 2 + (y - v.centre 1) ^ 2 := fun x y =>
    Real.sq_sqrt (by positivity)
  have hvt : v.vt cfg = v.Mt * farC cfg := by
    rw [VortexSetup.vt, mag_eq h]
    field_simp
  have hpsi : ∀ x y, v.psi cfg x y
      = v.Mt * farC cfg * v.R * bell v.R (x - v.centre 0) (y - v.centre 1) := by
    intro x y
    rw [VortexSetup.psi, hvt, hr, bell]
  have hw : 1 - (cfg.γ - 1) / 2 * v.Mt ^ 2 * Real.exp ((v.R ^ 2 - v.r x y ^ 2) / v.R ^ 2)
      = warmth cfg.γ v.Mt v.R (x - v.centre 0) (y - v.centre 1) := by
    rw [hr, warmth, bell, ← Real.exp_nat_mul]
    congr 3
    push_cast
    field_simp
  have d1 : deriv (fun s => v.psi cfg x s) y
      = -(v.Mt * farC cfg / v.R * (y - v.centre 1)
        * bell v.R (x - v.centre 0) (y - v.centre 1)) := by
    simp only [hpsi]
    have := (bell_deriv hR (fun _ => x - v.centre 0) (fun s => s - v.centre 1) y 0 1
      (hasDerivAt_const _ _) ((hasDerivAt_id y).sub_const _)).const_mul (v.Mt * farC cfg * v.R)
    rw [this.deriv]
    field_simp
    ring
  have d0 : deriv (fun s => v.psi cfg s y) x
      = -(v.Mt * farC cfg / v.R * (x - v.centre 0)
        * bell v.R (x - v.centre 0) (y - v.centre 1)) := by
    simp only [hpsi]
    have := (bell_deriv hR (fun s => s - v.centre 0) (fun _ => y - v.centre 1) x 1 0
      ((hasDerivAt_id x).sub_const _) (hasDerivAt_const _ _)).const_mul (v.Mt * farC cfg * v.R)
    rw [this.deriv]
    field_simp
    ring
  have hp : (farState cfg v.direction).p = farC cfg ^ 2 / cfg.γ := by
    simp only [farState, GasState.of]
    field_simp
  have hrho : (farState cfg v.direction).rho = 1 := rfl
  rw [VortexSetup.fields, farfield_eq h]
  simp only [bind, Except.bind, farDict, hw, d1, d0, hp, hrho, one_mul, neg_neg]

/-- The conservative variables computed from density, velocity and pressure. -/
theorem stateVec_primitive (hγ : 1 < γ) {r u v p : ℝ → (Fin 2 → ℝ) → ℝ} {t : ℝ} {x : Fin 2 → ℝ}
    (hr : 0 < r t x) (hp : 0 < p t x) :
    stateVec γ ({ u := some ![u t x, v t x], p := some (p t x), rho := some (r t x) } : Flow 2)
      = .ok (conserved (primitiveFlow γ r u v p t x)) := by
  have h1 : γ - 1 ≠ 0 := by linarith
  rw [(primitiveFlow_eq hγ hr hp).2.2.1]
  simp [stateVec, density, momentum, energy, innerEnergy, kineticEnergy, EOS.density,
    EOS.innerEnergy, equation, equationE, bind, Except.bind, consVec]
  ring

/-- **C106** The initial state of the vortex example is the state at time zero of an exact solution of
the Euler equations, which is the same state moved along with the stream. For every scaling, Mach
number, heat capacity ratio, direction of the stream and place, size and strength of the vortex, as
long as the temperature stays positive in the centre. -/
theorem C106_carried {cfg : FlowCfg} (h : cfg.Accepted) (hMa : 0 < cfg.Ma) (v : VortexSetup)
    (hR : v.R ≠ 0) (hM : (cfg.γ - 1) / 2 * v.Mt ^ 2 * Real.exp 1 < 1) :
    ∃ (F : Flow 2) (uinf : Fin 2 → ℝ) (U : ℝ → (Fin 2 → ℝ) → GasState 2)
      (dw : ℝ → (Fin 2 → ℝ) → Fin 4 → ℝ),
      getFarfieldState cfg 2 v.direction = .ok F ∧ F.u = some uinf ∧
      SolvesEuler cfg.γ (fun _ => Set.univ) U dw ∧
      (∀ x, ∃ f, v.fields cfg (x 0) (x 1) = .ok f ∧
        f.rho = some (U 0 x).rho ∧ f.u = some (U 0 x).u ∧ f.p = some (U 0 x).p ∧
        stateVec cfg.γ f = .ok (conserved (U 0 x))) ∧
      ∀ t x, U t (x + t • uinf) = U 0 x := by
  have hγ := h.gamma
  have hc := farC_pos h
  have hw := warmth_pos hγ hR hM
  obtain ⟨a, ha⟩ : ∃ a, a = (farState cfg v.direction).u 0 := ⟨_, rfl⟩
  obtain ⟨b, hb⟩ : ∃ b, b = (farState cfg v.direction).u 1 := ⟨_, rfl⟩
  have hu : (farState cfg v.direction).u = ![a, b] := by
    funext i
    fin_cases i
    · exact ha.symm
    · exact hb.symm
  obtain ⟨dw, hS⟩ := vortexFlow_solves (a := a) (b := b) hγ hc hR hM v.centre
  refine ⟨_, (farState cfg v.direction).u, vortexFlow cfg.γ (farC cfg) v.Mt v.R a b v.centre, dw,
    farfield_eq h _, rfl, hS, fun x => ?_, fun t x => ?_⟩
  · have hrp : 0 < (moving a b v.centre fun X Y => warmth cfg.γ v.Mt v.R X Y ^ (1 / (cfg.γ - 1)))
        0 x := Real.rpow_pos_of_pos (hw _ _) _
    have hpp : 0 < (moving a b v.centre fun X Y => farC cfg ^ 2 / cfg.γ
        * warmth cfg.γ v.Mt v.R X Y ^ (cfg.γ / (cfg.γ - 1))) 0 x :=
      mul_pos (by have : 0 < cfg.γ := by linarith
                  positivity) (Real.rpow_pos_of_pos (hw _ _) _)
    have hvec := stateVec_primitive (u := moving a b v.centre fun X Y =>
        a - v.Mt * farC cfg / v.R * Y * bell v.R X Y) (v := moving a b v.centre fun X Y =>
        b + v.Mt * farC cfg / v.R * X * bell v.R X Y) hγ hrp hpp
    have hpe := (primitiveFlow_eq (u := moving a b v.centre fun X Y =>
        a - v.Mt * farC cfg / v.R * Y * bell v.R X Y) (v := moving a b v.centre fun X Y =>
        b + v.Mt * farC cfg / v.R * X * bell v.R X Y) hγ hrp hpp).2.1
    have he : (farState cfg v.direction).u + ![-(v.Mt * farC cfg / v.R * (x 1 - v.centre 1)
          * bell v.R (x 0 - v.centre 0) (x 1 - v.centre 1)),
        v.Mt * farC cfg / v.R * (x 0 - v.centre 0)
          * bell v.R (x 0 - v.centre 0) (x 1 - v.centre 1)]
        = (vortexFlow cfg.γ (farC cfg) v.Mt v.R a b v.centre 0 x).u := by
      rw [hu]
      funext i
      fin_cases i <;> simp [vortexFlow, primitiveFlow, GasState.of, moving]
      ring
    have hu0 : (vortexFlow cfg.γ (farC cfg) v.Mt v.R a b v.centre 0 x).u
        = ![moving a b v.centre (fun X Y => a - v.Mt * farC cfg / v.R * Y * bell v.R X Y) 0 x,
          moving a b v.centre (fun X Y => b + v.Mt * farC cfg / v.R * X * bell v.R X Y) 0 x] := rfl
    refine ⟨_, vortex_fields h hMa v hR (x 0) (x 1), ?_, congrArg some he, ?_, ?_⟩
    · simp [vortexFlow, primitiveFlow, GasState.of, moving]
    · rw [show (vortexFlow cfg.γ (farC cfg) v.Mt v.R a b v.centre 0 x).p = _ from hpe]
      simp [moving]
    · rw [vortexFlow, ← hvec, he, hu0]
      simp only [moving, mul_zero, sub_zero]
  · simp only [vortexFlow, primitiveFlow, moving, hu]
    have e0 : (x + t • ![a, b]) 0 - v.centre 0 - a * t = x 0 - v.centre 0 - a * 0 := by
      simp
      ring
    have e1 : (x + t • ![a, b]) 1 - v.centre 1 - b * t = x 1 - v.centre 1 - b * 0 := by
      simp
      ring
    rw [e0, e1]

/-- `q e^(1-q)` is at most one, and is one only for `q = 1`. -/
theorem hump (q : ℝ) : q * Real.exp (1 - q) ≤ 1 ∧ (q * Real.exp (1 - q) = 1 ↔ q = 1) := by
  have h1 : ∀ q : ℝ, q * Real.exp (1 - q) = q / Real.exp (q - 1) := by
    intro q
    rw [show (1 : ℝ) - q = -(q - 1) by ring, Real.exp_neg, div_eq_mul_inv]
  have hp := Real.exp_pos (q - 1)
  rw [h1]
  refine ⟨(div_le_one hp).2 (by linarith [Real.add_one_le_exp (q - 1)]), fun h => ?_, ?_⟩
  · by_contra hne
    have := Real.add_one_lt_exp (x := q - 1) (sub_ne_zero.2 hne)
    rw [div_eq_one_iff_eq hp.ne'] at h
    linarith
  · rintro rfl
    simp

/-- **C106** The disturbance of the stream is a rotation about the centre; its speed, divided by the
speed of sound of the stream, is at most `Mt`, and `Mt` exactly at the distance `R`. -/
theorem C106_strength {cfg : FlowCfg} (h : cfg.Accepted) (hMa : 0 < cfg.Ma) (v : VortexSetup)
    (hR : v.R ≠ 0) :
    ∃ (F : Flow 2) (uinf : Fin 2 → ℝ) (c : ℝ), getFarfieldState cfg 2 v.direction = .ok F ∧
      F.u = some uinf ∧ F.c = some c ∧ 0 < c ∧ ∀ x : Fin 2 → ℝ,
      ∃ f u, v.fields cfg (x 0) (x 1) = .ok f ∧ f.u = some u ∧
        (u - uinf) ⬝ᵥ (x - v.centre) = 0 ∧
        (u - uinf) ⬝ᵥ (u - uinf) ≤ (v.Mt * c) ^ 2 ∧
        (v.Mt ≠ 0 → ((u - uinf) ⬝ᵥ (u - uinf) = (v.Mt * c) ^ 2 ↔
          (x - v.centre) ⬝ᵥ (x - v.centre) = v.R ^ 2)) := by
  have hc := farC_pos h
  refine ⟨_, _, _, farfield_eq h _, rfl, rfl, by rw [farState_c h]; exact hc, fun x =>
    ⟨_, _, vortex_fields h hMa v hR (x 0) (x 1), rfl, ?_⟩⟩
  rw [farState_c h]
  have hR2 : 0 < v.R ^ 2 := by positivity
  obtain ⟨X, hX⟩ : ∃ X, X = x 0 - v.centre 0 := ⟨_, rfl⟩
  obtain ⟨Y, hY⟩ : ∃ Y, Y = x 1 - v.centre 1 := ⟨_, rfl⟩
  have hb : bell v.R X Y ^ 2 = Real.exp (1 - (X ^ 2 + Y ^ 2) / v.R ^ 2) := by
    rw [bell, ← Real.exp_nat_mul]
    congr 1
    push_cast
    field_simp
  have hxx : (x - v.centre) ⬝ᵥ (x - v.centre) = X ^ 2 + Y ^ 2 := by
    simp [dotProduct, Fin.sum_univ_two, hX, hY]
    ring
  have hq := hump ((X ^ 2 + Y ^ 2) / v.R ^ 2)
  have hs : ∀ w : Fin 2 → ℝ, (w + ![-(v.Mt * farC cfg / v.R * Y * bell v.R X Y),
        v.Mt * farC cfg / v.R * X * bell v.R X Y] - w) ⬝ᵥ
      (w + ![-(v.Mt * farC cfg / v.R * Y * bell v.R X Y),
        v.Mt * farC cfg / v.R * X * bell v.R X Y] - w)
      = (v.Mt * farC cfg) ^ 2 * ((X ^ 2 + Y ^ 2) / v.R ^ 2
        * Real.exp (1 - (X ^ 2 + Y ^ 2) / v.R ^ 2)) := by
    intro w
    rw [← hb, add_sub_cancel_left]
    simp [dotProduct, Fin.sum_univ_two]
    field_simp
    ring
  rw [← hX, ← hY, hs, hxx]
  refine ⟨?_, ?_, fun hM => ?_⟩
  · rw [add_sub_cancel_left]
    simp [dotProduct, Fin.sum_univ_two, ← hX, ← hY]
    ring
  · nlinarith [hq.1, sq_nonneg (v.Mt * farC cfg)]
  · have hm : (v.Mt * farC cfg) ^ 2 ≠ 0 := by positivity
    rw [mul_eq_left₀ hm, hq.2, div_eq_one_iff_eq hR2.ne']

/-- **C106** The pressure is lowest in the centre, where it is the value `p_00` of the example, and
below that of the stream everywhere; so the quantity `p*` that is drawn lies between zero and one and
is one in the centre only. The entropy is that of the stream. -/
theorem C106_pressure {cfg : FlowCfg} (h : cfg.Accepted) (hMa : 0 < cfg.Ma) (v : VortexSetup)
    (hR : v.R ≠ 0) (hM0 : v.Mt ≠ 0) (hM : (cfg.γ - 1) / 2 * v.Mt ^ 2 * Real.exp 1 < 1) :
    ∃ (F : Flow 2) (pinf rinf : ℝ), getFarfieldState cfg 2 v.direction = .ok F ∧
      F.p = some pinf ∧ F.rho = some rinf ∧ ∀ x : Fin 2 → ℝ,
      ∃ f p r, v.fields cfg (x 0) (x 1) = .ok f ∧ f.p = some p ∧ f.rho = some r ∧
        p < pinf ∧ v.p00 cfg pinf ≤ p ∧ (p = v.p00 cfg pinf ↔ x = v.centre) ∧
        0 < v.normalised cfg pinf p ∧ v.normalised cfg pinf p ≤ 1 ∧
        (v.normalised cfg pinf p = 1 ↔ x = v.centre) ∧
        p / pinf = (r / rinf) ^ cfg.γ := by
  have hγ := h.gamma
  have g1 : 0 < cfg.γ - 1 := by linarith
  have g0 : 0 < cfg.γ := by linarith
  have hc := farC_pos h
  have hR2 : 0 < v.R ^ 2 := by positivity
  have hpinf : (farState cfg v.direction).p = farC cfg ^ 2 / cfg.γ := by
    simp only [farState, GasState.of]
    field_simp
  have hp0 : 0 < farC cfg ^ 2 / cfg.γ := by positivity
  refine ⟨_, _, _, farfield_eq h _, rfl, rfl, fun x =>
    ⟨_, _, _, vortex_fields h hMa v hR (x 0) (x 1), rfl, rfl, ?_⟩⟩
  rw [hpinf, show (farState cfg v.direction).rho = 1 from rfl, div_one]
  obtain ⟨X, hX⟩ : ∃ X, X = x 0 - v.centre 0 := ⟨_, rfl⟩
  obtain ⟨Y, hY⟩ : ∃ Y, Y = x 1 - v.centre 1 := ⟨_, rfl⟩
  rw [← hX, ← hY]
  have hx : x = v.centre ↔ X = 0 ∧ Y = 0 := by
    rw [hX, hY, sub_eq_zero, sub_eq_zero]
    refine ⟨fun e => by rw [e]; exact ⟨rfl, rfl⟩, fun e => ?_⟩
    funext i
    fin_cases i
    · exact e.1
    · exact e.2
  have hw := warmth_pos hγ hR hM X Y
  have hk : 0 < (cfg.γ - 1) / 2 * v.Mt ^ 2 := by positivity
  have hbp : 0 < bell v.R X Y ^ 2 := by
    have : 0 < bell v.R X Y := Real.exp_pos _
    positivity
  have hlt : warmth cfg.γ v.Mt v.R X Y < 1 := by
    rw [warmth]
    nlinarith
  have hb : bell v.R X Y ^ 2 = Real.exp (1 - (X ^ 2 + Y ^ 2) / v.R ^ 2) := by
    rw [bell, ← Real.exp_nat_mul]
    congr 1
    push_cast
    field_simp
  have hbe : bell v.R X Y ^ 2 = Real.exp 1 ↔ X = 0 ∧ Y = 0 := by
    rw [hb, Real.exp_eq_exp]
    constructor
    · intro e
      have e2 : X ^ 2 + Y ^ 2 = 0 := by
        have : (X ^ 2 + Y ^ 2) / v.R ^ 2 = 0 := by linarith
        rcases div_eq_zero_iff.1 this with h | h
        · exact h
        · exact absurd h hR2.ne'
      constructor <;> nlinarith [sq_nonneg X, sq_nonneg Y]
    · rintro ⟨rfl, rfl⟩
      simp
  obtain ⟨w0, hw0⟩ : ∃ w0, w0 = 1 - (cfg.γ - 1) / 2 * v.Mt ^ 2 * Real.exp 1 := ⟨_, rfl⟩
  have hw0p : 0 < w0 := by rw [hw0]; linarith
  have hle : w0 ≤ warmth cfg.γ v.Mt v.R X Y := by
    rw [hw0, warmth]
    nlinarith [bell_sq_le hR X Y]
  have hweq : warmth cfg.γ v.Mt v.R X Y = w0 ↔ X = 0 ∧ Y = 0 := by
    rw [← hbe, hw0, warmth, sub_right_inj, mul_right_inj' hk.ne']
  have hex : 0 < cfg.γ / (cfg.γ - 1) := by positivity
  have hp00 : v.p00 cfg (farC cfg ^ 2 / cfg.γ)
      = farC cfg ^ 2 / cfg.γ * w0 ^ (cfg.γ / (cfg.γ - 1)) := by
    rw [VortexSetup.p00, hw0]
  have hlt0 : w0 < 1 := lt_of_le_of_lt hle hlt
  have s1 : warmth cfg.γ v.Mt v.R X Y ^ (cfg.γ / (cfg.γ - 1)) < 1 := Real.rpow_lt_one hw.le hlt hex
  have s2 : w0 ^ (cfg.γ / (cfg.γ - 1)) < 1 := Real.rpow_lt_one hw0p.le hlt0 hex
  have s3 : w0 ^ (cfg.γ / (cfg.γ - 1)) ≤ warmth cfg.γ v.Mt v.R X Y ^ (cfg.γ / (cfg.γ - 1)) :=
    Real.rpow_le_rpow hw0p.le hle hex.le
  have s4 : warmth cfg.γ v.Mt v.R X Y ^ (cfg.γ / (cfg.γ - 1)) = w0 ^ (cfg.γ / (cfg.γ - 1))
      ↔ x = v.centre := by
    rw [Real.rpow_left_inj hw.le hw0p.le hex.ne', hweq, hx]
  have s5 : warmth cfg.γ v.Mt v.R X Y ^ (cfg.γ / (cfg.γ - 1))
      = (warmth cfg.γ v.Mt v.R X Y ^ (1 / (cfg.γ - 1))) ^ cfg.γ := by
    rw [← Real.rpow_mul hw.le]
    congr 1
    field_simp
  rw [VortexSetup.normalised, hp00, ← s5]
  clear s5 hp00 hpinf
  generalize warmth cfg.γ v.Mt v.R X Y ^ (cfg.γ / (cfg.γ - 1)) = A at s1 s3 s4 ⊢
  generalize w0 ^ (cfg.γ / (cfg.γ - 1)) = B at s2 s3 s4 ⊢
  generalize farC cfg ^ 2 / cfg.γ = P at hp0 ⊢
  have hne : P * B - P ≠ 0 := by nlinarith
  have hn : (P * A - P) / (P * B - P) = (1 - A) / (1 - B) := by
    rw [div_eq_div_iff hne (by linarith)]
    ring
  rw [hn]
  have hB1 : 0 < 1 - B := by linarith
  refine ⟨by nlinarith, by nlinarith, ?_, div_pos (by linarith) hB1, ?_, ?_, ?_⟩
  · rw [mul_right_inj' hp0.ne', s4]
  · rw [div_le_one hB1]
    linarith
  · rw [div_eq_one_iff_eq hB1.ne', sub_right_inj, s4]
  · field_simp

open Filter Topology in
/-- **C106** The circulation of the vortex around circles about its centre vanishes with growing
radius: `u` are the velocities that the example stores. -/
theorem C106_circulation {cfg : FlowCfg} (h : cfg.Accepted) (hMa : 0 < cfg.Ma) (v : VortexSetup)
    (hR : v.R ≠ 0) {F : Flow 2} {uinf : Fin 2 → ℝ}
    (hF : getFarfieldState cfg 2 v.direction = .ok F) (hFu : F.u = some uinf)
    (u : ℝ → ℝ → Fin 2 → ℝ) (hu : ∀ x y, ∃ f, v.fields cfg x y = .ok f ∧ f.u = some (u x y)) :
    Tendsto (fun s : ℝ => ∫ θ in (0 : ℝ)..2 * Real.pi,
      (u (v.centre 0 + s * Real.cos θ) (v.centre 1 + s * Real.sin θ) - uinf)
        ⬝ᵥ ![-(s * Real.sin θ), s * Real.cos θ]) atTop (𝓝 0) := by
  rw [farfield_eq h] at hF
  cases hF
  cases hFu
  have hR2 : 0 < v.R ^ 2 := by positivity
  have hu' : ∀ x y, u x y - (farState cfg v.direction).u
      = ![-(v.Mt * farC cfg / v.R * (y - v.centre 1) * bell v.R (x - v.centre 0) (y - v.centre 1)),
        v.Mt * farC cfg / v.R * (x - v.centre 0)
          * bell v.R (x - v.centre 0) (y - v.centre 1)] := by
    intro x y
    obtain ⟨f, h1, h2⟩ := hu x y
    rw [vortex_fields h hMa v hR] at h1
    cases h1
    rw [← Option.some.inj h2, add_sub_cancel_left]
  have key : ∀ s : ℝ, (∫ θ in (0 : ℝ)..2 * Real.pi,
      (u (v.centre 0 + s * Real.cos θ) (v.centre 1 + s * Real.sin θ) - (farState cfg v.direction).u)
        ⬝ᵥ ![-(s * Real.sin θ), s * Real.cos θ])
      = (2 * Real.pi * (v.Mt * farC cfg / v.R) * Real.exp (1 / 2) * (2 * v.R ^ 2))
        * ((s ^ 2 / (2 * v.R ^ 2)) ^ 1 * Real.exp (-(s ^ 2 / (2 * v.R ^ 2)))) := by
    intro s
    have e : ∀ θ : ℝ, (u (v.centre 0 + s * Real.cos θ) (v.centre 1 + s * Real.sin θ)
          - (farState cfg v.direction).u) ⬝ᵥ ![-(s * Real.sin θ), s * Real.cos θ]
        = v.Mt * farC cfg / v.R * s ^ 2 * (Real.exp (1 / 2) * Real.exp (-(s ^ 2 / (2 * v.R ^ 2)))) := by
      intro θ
      have hcs := Real.cos_sq_add_sin_sq θ
      have hb : bell v.R (s * Real.cos θ) (s * Real.sin θ)
          = Real.exp (1 / 2) * Real.exp (-(s ^ 2 / (2 * v.R ^ 2))) := by
        rw [bell, ← Real.exp_add]
        congr 1
        field_simp
        linear_combination -s ^ 2 * hcs
      rw [hu']
      simp only [add_sub_cancel_left, hb]
      simp [dotProduct, Fin.sum_univ_two]
      linear_combination v.Mt * farC cfg / v.R * s ^ 2
        * (Real.exp 2⁻¹ * Real.exp (-(s ^ 2 / (2 * v.R ^ 2)))) * hcs
    simp only [e]
    rw [intervalIntegral.integral_const]
    simp only [smul_eq_mul]
    field_simp
    ring
  simp only [key]
  have ht : Tendsto (fun s : ℝ => s ^ 2 / (2 * v.R ^ 2)) atTop atTop :=
    (tendsto_pow_atTop two_ne_zero).atTop_div_const (by positivity)
  have := (Real.tendsto_pow_mul_exp_neg_atTop_nhds_zero 1).comp ht
  simpa using this.const_mul
    (2 * Real.pi * (v.Mt * farC cfg / v.R) * Real.exp (1 / 2) * (2 * v.R ^ 2))

/-- The configuration of the example (examples/compressible/zero_circulation_vortex_2d.py:18-26). -/
def vortexCfg : FlowCfg :=
  { γ := 14 / 10, Ma := 3 / 100, Re := 150, Pr := 72 / 100, scaling := .aerodynamic,
    visc := .inviscid, Tref := 1 }

/-- The vortex of the example. -/
def vortexSetup : VortexSetup := ⟨1 / 100, 1 / 10, ![2 / 10, 0], ![1, 0]⟩

theorem vortexCfg_accepted : vortexCfg.Accepted where
  gamma := by norm_num [vortexCfg]
  mach := by norm_num [vortexCfg]
  aero := fun _ => by norm_num [vortexCfg]
  reynolds := by norm_num [vortexCfg]
  prandtl := by norm_num [vortexCfg]
  tref := by norm_num [vortexCfg]
  tm := fun _ h => by cases h

/-- The values of the example meet the hypotheses of C106: the vortex it starts with is carried along
by the stream without changing, as long as nothing reaches the boundary. -/
example : ∃ (F : Flow 2) (uinf : Fin 2 → ℝ) (U : ℝ → (Fin 2 → ℝ) → GasState 2)
      (dw : ℝ → (Fin 2 → ℝ) → Fin 4 → ℝ),
      getFarfieldState vortexCfg 2 vortexSetup.direction = .ok F ∧ F.u = some uinf ∧
      SolvesEuler vortexCfg.γ (fun _ => Set.univ) U dw ∧
      (∀ x, ∃ f, vortexSetup.fields vortexCfg (x 0) (x 1) = .ok f ∧
        f.rho = some (U 0 x).rho ∧ f.u = some (U 0 x).u ∧ f.p = some (U 0 x).p ∧
        stateVec vortexCfg.γ f = .ok (conserved (U 0 x))) ∧
      ∀ t x, U t (x + t • uinf) = U 0 x :=
  C106_carried vortexCfg_accepted (by norm_num [vortexCfg]) vortexSetup
    (by norm_num [vortexSetup])
    (by
      have := Real.exp_one_lt_d9
      norm_num [vortexCfg, vortexSetup]
      linarith)

end Dream
