import Verif.Spec.Inexact
import Verif.Props.Convergence

/-!
# C87: steps that are solved approximately
-/

noncomputable section

namespace Dream

open _root_.Spec

variable {ι : Type} [Fintype ι]

theorem ie_near (S : Submodule ℝ (ι → ℝ)) (w : ι → ℝ) (hw : ∀ i, 0 ≤ w i)
    (a : ℚ → (ι → ℝ) → (ι → ℝ) → ℝ) (ha : Dissipative S a) (dt : ℝ) (hdt : 0 < dt) (t : ℚ)
    (x cur prev y cur' prev' : ι → ℝ) (ε δ : ℝ) (hε : 0 ≤ ε) (hδ : 0 ≤ δ)
    (hx : NearStep S w a (Scheme.implicitEuler.quotient dt) ε t x cur prev)
    (hy : NearStep S w a (Scheme.implicitEuler.quotient dt) δ t y cur' prev') :
    rms w (x - y) ≤ rms w (cur - cur') + dt * (ε + δ) := by
  have hxy : x - y ∈ S := S.sub_mem hx.1 hy.1
  have e1 := (abs_le.1 (hx.2 _ hxy)).2
  have e2 := (abs_le.1 (hy.2 _ hxy)).1
  have e3 := ha t x hx.1 y hy.1
  have key : dt * (dot w (fun i => Scheme.implicitEuler.quotient dt (x i) (cur i) (prev i)) (x - y)
      - dot w (fun i => Scheme.implicitEuler.quotient dt (y i) (cur' i) (prev' i)) (x - y))
      = dot w (x - y) (x - y) - dot w (cur - cur') (x - y) := by
    simp only [dot, ← Finset.sum_sub_distrib, Finset.mul_sum]
    apply Finset.sum_congr rfl
    intro i _
    simp only [Scheme.quotient, backwardEuler, Pi.sub_apply]
    field_simp
    ring
  have h1 : dot w (x - y) (x - y) ≤ dot w (cur - cur') (x - y)
      + dt * ((ε + δ) * rms w (x - y)) := by
    have : dt * (dot w (fun i => Scheme.implicitEuler.quotient dt (x i) (cur i) (prev i)) (x - y)
        - dot w (fun i => Scheme.implicitEuler.quotient dt (y i) (cur' i) (prev' i)) (x - y))
        ≤ dt * ((ε + δ) * rms w (x - y)) := mul_le_mul_of_nonneg_left (by linarith) hdt.le
    linarith
  have h2 := dot_cauchy w (cur - cur') (x - y) hw
  rw [← rms_sq w _ hw] at h1
  by_contra hlt
  push Not at hlt
  have h4 : 0 ≤ rms w (cur - cur') + dt * (ε + δ) :=
    add_nonneg (rms_nonneg _ _) (mul_nonneg hdt.le (by linarith))
  nlinarith [rms_nonneg w (x - y)]

theorem bdf2_near (S : Submodule ℝ (ι → ℝ)) (w : ι → ℝ) (hw : ∀ i, 0 ≤ w i)
    (a : ℚ → (ι → ℝ) → (ι → ℝ) → ℝ) (ha : Dissipative S a) (dt : ℝ) (hdt : 0 < dt) (t : ℚ)
    (x cur prev y cur' prev' : ι → ℝ) (ε δ : ℝ) (hε : 0 ≤ ε) (hδ : 0 ≤ δ)
    (hx : NearStep S w a (Scheme.bdf2.quotient dt) ε t x cur prev)
    (hy : NearStep S w a (Scheme.bdf2.quotient dt) δ t y cur' prev') :
    bdf2Norm w (x - y) (cur - cur')
      ≤ bdf2Norm w (cur - cur') (prev - prev') + 4 * dt * (ε + δ) := by
  have hxy : x - y ∈ S := S.sub_mem hx.1 hy.1
  have e1 := (abs_le.1 (hx.2 _ hxy)).2
  have e2 := (abs_le.1 (hy.2 _ hxy)).1
  have e3 := ha t x hx.1 y hy.1
  have nn : ∀ e e0 : ι → ℝ, 0 ≤ dot w e e + dot w ((2 : ℝ) • e - e0) ((2 : ℝ) • e - e0) :=
    fun e e0 => add_nonneg (dot_nonneg w _ hw) (dot_nonneg w _ hw)
  have hsq : ∀ e e0 : ι → ℝ, bdf2Norm w e e0 ^ 2
      = dot w e e + dot w ((2 : ℝ) • e - e0) ((2 : ℝ) • e - e0) := fun e e0 => Real.sq_sqrt (nn e e0)
  have key : 4 * dt * (dot w (fun i => Scheme.bdf2.quotient dt (x i) (cur i) (prev i)) (x - y)
      - dot w (fun i => Scheme.bdf2.quotient dt (y i) (cur' i) (prev' i)) (x - y))
      = bdf2Norm w (x - y) (cur - cur') ^ 2 - bdf2Norm w (cur - cur') (prev - prev') ^ 2
        + dot w (x - y - (2 : ℝ) • (cur - cur') + (prev - prev'))
            (x - y - (2 : ℝ) • (cur - cur') + (prev - prev')) := by
    rw [hsq, hsq]
    simp only [dot, ← Finset.sum_sub_distrib, ← Finset.sum_add_distrib, Finset.mul_sum]
    apply Finset.sum_congr rfl
    intro i _
    simp only [Scheme.quotient, backward2, Pi.sub_apply, Pi.add_apply, Pi.smul_apply, smul_eq_mul]
    field_simp
    ring
  have h0 := dot_nonneg w (x - y - (2 : ℝ) • (cur - cur') + (prev - prev')) hw
  have h1 : 4 * dt * (dot w (fun i => Scheme.bdf2.quotient dt (x i) (cur i) (prev i)) (x - y)
      - dot w (fun i => Scheme.bdf2.quotient dt (y i) (cur' i) (prev' i)) (x - y))
      ≤ 4 * dt * ((ε + δ) * rms w (x - y)) :=
    mul_le_mul_of_nonneg_left (by linarith) (by positivity)
  have h4 : (ε + δ) * rms w (x - y) ≤ (ε + δ) * bdf2Norm w (x - y) (cur - cur') :=
    mul_le_mul_of_nonneg_left (rms_le_bdf2Norm w _ _ hw) (by linarith)
  have h5 : 4 * dt * ((ε + δ) * rms w (x - y))
      ≤ 4 * dt * ((ε + δ) * bdf2Norm w (x - y) (cur - cur')) :=
    mul_le_mul_of_nonneg_left h4 (by positivity)
  obtain ⟨A, hA⟩ : ∃ A, bdf2Norm w (x - y) (cur - cur') = A := ⟨_, rfl⟩
  obtain ⟨B, hB⟩ : ∃ B, bdf2Norm w (cur - cur') (prev - prev') = B := ⟨_, rfl⟩
  have hB0 : 0 ≤ B := hB ▸ Real.sqrt_nonneg _
  have hA0 : 0 ≤ A := hA ▸ Real.sqrt_nonneg _
  have hD0 : 0 ≤ 4 * dt * (ε + δ) := mul_nonneg (by positivity) (by linarith)
  rw [hA, hB]
  rw [hA, hB] at key
  rw [hA] at h5
  by_contra hlt
  push Not at hlt
  nlinarith

/-- **C87** Steps solved approximately, implicit Euler: two sequences of states, whose steps satisfy
the equations up to residuals `ε` and `δ`, differ after every step by at most their distance at the
beginning and `(ε + δ) · (elapsed time)`. With `δ = 0` the second one is solved exactly. -/
theorem C87_inexact_euler (S : Submodule ℝ (ι → ℝ)) (w : ι → ℝ) (hw : ∀ i, 0 ≤ w i)
    (a : ℚ → (ι → ℝ) → (ι → ℝ) → ℝ) (ha : Dissipative S a) (dt : ℝ) (hdt : 0 < dt) (ε δ : ℝ)
    (hε : 0 ≤ ε) (hδ : 0 ≤ δ) (ts : List ℚ) (x0 y0 : ι → ℝ) (xs ys : List (ι → ℝ))
    (hx : Satisfies (NearStep S w a (Scheme.implicitEuler.quotient dt) ε) x0 x0 ts xs)
    (hy : Satisfies (NearStep S w a (Scheme.implicitEuler.quotient dt) δ) y0 y0 ts ys) :
    xs.length = ts.length ∧ ys.length = ts.length ∧
    ∀ k (hk : k < xs.length) (hk' : k < ys.length),
      rms w (xs[k] - ys[k]) ≤ rms w (x0 - y0) + (ε + δ) * ((k + 1) * dt) := by
  refine ⟨satisfies_length hx, satisfies_length hy, ?_⟩
  have main : ∀ (ts : List ℚ) (px x0 py y0 : ι → ℝ) (xs ys : List (ι → ℝ)),
      Satisfies (NearStep S w a (Scheme.implicitEuler.quotient dt) ε) px x0 ts xs →
      Satisfies (NearStep S w a (Scheme.implicitEuler.quotient dt) δ) py y0 ts ys →
      ∀ k (hk : k < xs.length) (hk' : k < ys.length),
        rms w (xs[k] - ys[k]) ≤ rms w (x0 - y0) + (ε + δ) * ((k + 1) * dt) := by
    intro ts
    induction ts with
    | nil => intro px x0 py y0 xs ys hx; cases xs <;> simp_all [Satisfies]
    | cons t ts ih =>
      intro px x0 py y0 xs ys hx hy k hk hk'
      cases xs with
      | nil => simp at hk
      | cons x xs =>
        cases ys with
        | nil => simp at hk'
        | cons y ys =>
          have e0 := ie_near S w hw a ha dt hdt t x x0 px y y0 py ε δ hε hδ hx.1 hy.1
          cases k with
          | zero =>
            simp only [List.getElem_cons_zero, Nat.cast_zero, zero_add, one_mul]
            linarith
          | succ k =>
            have := ih x0 x y0 y xs ys hx.2 hy.2 k (by simpa using hk) (by simpa using hk')
            simp only [List.getElem_cons_succ]
            push_cast
            linarith
  exact main ts x0 x0 y0 y0 xs ys hx hy

/-- **C87** Steps solved approximately, BDF2 as the solver starts it: as for implicit Euler, with
`2 · (distance at the beginning) + 4 (ε + δ) · (elapsed time)`. -/
theorem C87_inexact_bdf2 (S : Submodule ℝ (ι → ℝ)) (w : ι → ℝ) (hw : ∀ i, 0 ≤ w i)
    (a : ℚ → (ι → ℝ) → (ι → ℝ) → ℝ) (ha : Dissipative S a) (dt : ℝ) (hdt : 0 < dt) (ε δ : ℝ)
    (hε : 0 ≤ ε) (hδ : 0 ≤ δ) (ts : List ℚ) (x0 y0 : ι → ℝ) (xs ys : List (ι → ℝ))
    (hx : Satisfies (NearStep S w a (Scheme.bdf2.quotient dt) ε) x0 x0 ts xs)
    (hy : Satisfies (NearStep S w a (Scheme.bdf2.quotient dt) δ) y0 y0 ts ys) :
    xs.length = ts.length ∧ ys.length = ts.length ∧
    ∀ k (hk : k < xs.length) (hk' : k < ys.length),
      rms w (xs[k] - ys[k]) ≤ 2 * rms w (x0 - y0) + 4 * (ε + δ) * ((k + 1) * dt) := by
  refine ⟨satisfies_length hx, satisfies_length hy, fun k hk hk' => ?_⟩
  have main : ∀ (ts : List ℚ) (px x0 py y0 : ι → ℝ) (xs ys : List (ι → ℝ)),
      Satisfies (NearStep S w a (Scheme.bdf2.quotient dt) ε) px x0 ts xs →
      Satisfies (NearStep S w a (Scheme.bdf2.quotient dt) δ) py y0 ts ys →
      ∀ k (hk : k < xs.length) (hk' : k < ys.length),
        rms w (xs[k] - ys[k])
          ≤ bdf2Norm w (x0 - y0) (px - py) + 4 * (ε + δ) * ((k + 1) * dt) := by
    intro ts
    induction ts with
    | nil => intro px x0 py y0 xs ys hx; cases xs <;> simp_all [Satisfies]
    | cons t ts ih =>
      intro px x0 py y0 xs ys hx hy k hk hk'
      cases xs with
      | nil => simp at hk
      | cons x xs =>
        cases ys with
        | nil => simp at hk'
        | cons y ys =>
          have e0 := bdf2_near S w hw a ha dt hdt t x x0 px y y0 py ε δ hε hδ hx.1 hy.1
          cases k with
          | zero =>
            have := rms_le_bdf2Norm w (x - y) (x0 - y0) hw
            simp only [List.getElem_cons_zero, Nat.cast_zero, zero_add, one_mul]
            linarith
          | succ k =>
            have := ih x0 x y0 y xs ys hx.2 hy.2 k (by simpa using hk) (by simpa using hk')
            simp only [List.getElem_cons_succ]
            push_cast
            linarith
  refine (main ts x0 x0 y0 y0 xs ys hx hy k hk hk').trans ?_
  have hb : bdf2Norm w (x0 - y0) (x0 - y0) ≤ 2 * rms w (x0 - y0) := by
    have e : (2 : ℝ) • (x0 - y0) - (x0 - y0) = x0 - y0 := by rw [two_smul]; abel
    rw [bdf2Norm, e]
    refine Real.sqrt_le_iff.2 ⟨mul_nonneg (by norm_num) (rms_nonneg _ _), ?_⟩
    have := rms_sq w (x0 - y0) hw
    nlinarith [sq_nonneg (rms w (x0 - y0))]
  linarith

/-- **C87** Implicit Euler with approximate steps converges: with residuals of at most `ε`, the
computed states differ from the solution by at most
`(K/2 · dt + ε) · (elapsed time)`, provided the equations of the steps can be solved at all (`ys`). -/
theorem C87_inexact_converges (S : Submodule ℝ (ι → ℝ)) (w : ι → ℝ) (hw : ∀ i, 0 ≤ w i)
    (a : ℚ → (ι → ℝ) → (ι → ℝ) → ℝ) (ha : Dissipative S a) (t0 dt : ℚ) (hdt : 0 < dt) (n : ℕ)
    (u u' u'' : ℝ → ι → ℝ) (K ε : ℝ) (hε : 0 ≤ ε) (hu : SolvesOn S w a u u' t0 (t0 + n * dt))
    (hK : BoundedDeriv u' u'' t0 (t0 + n * dt) K) (xs ys : List (ι → ℝ))
    (hx : Satisfies (NearStep S w a (Scheme.implicitEuler.quotient dt) ε) (u t0) (u t0)
      (stepTimes t0 dt n) xs)
    (hy : Satisfies (weakStep S w a (Scheme.implicitEuler.quotient dt)) (u t0) (u t0)
      (stepTimes t0 dt n) ys) :
    xs.length = n ∧ ∀ k (hk : k < xs.length), rms w (xs[k] - u (t0 + (k + 1) * dt))
      ≤ (K / 2 * rms w 1 * dt + ε) * ((k + 1) * dt) := by
  have hdt' : (0 : ℝ) < dt := by exact_mod_cast hdt
  have hy0 : Satisfies (NearStep S w a (Scheme.implicitEuler.quotient dt) 0) (u t0) (u t0)
      (stepTimes t0 dt n) ys := by
    have weaken : ∀ (ts : List ℚ) (p c : ι → ℝ) (ys : List (ι → ℝ)),
        Satisfies (weakStep S w a (Scheme.implicitEuler.quotient dt)) p c ts ys →
        Satisfies (NearStep S w a (Scheme.implicitEuler.quotient dt) 0) p c ts ys := by
      intro ts
      induction ts with
      | nil => intro p c ys h; cases ys <;> simp_all [Satisfies]
      | cons t ts ih =>
        intro p c ys h
        cases ys with
        | nil => simp [Satisfies] at h
        | cons y ys =>
          exact ⟨⟨h.1.1, fun φ hφ => by rw [h.1.2 φ hφ]; simp⟩, ih _ _ _ h.2⟩
    exact weaken _ _ _ _ hy
  obtain ⟨l1, l2, h1⟩ := C87_inexact_euler S w hw a ha dt hdt' ε 0 hε le_rfl _ _ _ xs ys hx hy0
  obtain ⟨l3, h2⟩ := C87_implicit_euler S w hw a ha t0 dt hdt n u u' u'' K hu hK ys hy
  refine ⟨by rw [l1, convergence_stepTimes_length], fun k hk => ?_⟩
  have hk' : k < ys.length := by rw [l2, ← l1]; exact hk
  have e1 := h1 k hk hk'
  have e2 := h2 k hk'
  have e3 : rms w (u t0 - u t0) = 0 := by simp [rms, dot]
  have tri : rms w (xs[k] - u (t0 + (k + 1) * dt))
      ≤ rms w (xs[k] - ys[k]) + rms w (ys[k] - u (t0 + (k + 1) * dt)) := by
    obtain ⟨p, hp⟩ : ∃ p, p = xs[k] - ys[k] := ⟨_, rfl⟩
    obtain ⟨q, hq⟩ : ∃ q, q = ys[k] - u (t0 + (k + 1) * dt) := ⟨_, rfl⟩
    have e : xs[k] - u (t0 + (k + 1) * dt) = p + q := by rw [hp, hq]; abel
    rw [e, ← hp, ← hq]
    refine Real.sqrt_le_iff.2 ⟨add_nonneg (rms_nonneg _ _) (rms_nonneg _ _), ?_⟩
    have h1 := rms_sq w p hw
    have h2 := rms_sq w q hw
    have h3 := dot_cauchy w p q hw
    have h4 : dot w (p + q) (p + q) = dot w p p + 2 * dot w p q + dot w q q := by
      simp only [dot, ← Finset.sum_add_distrib, Finset.mul_sum, Pi.add_apply]
      exact Finset.sum_congr rfl fun i _ => by ring
    nlinarith
  rw [e3] at e1
  linarith

/-- Not vacuous: for `u' + u = 0`, step one, the state `6/10` after a step from one satisfies the
equation up to `1/5`, the state `1/2` exactly. -/
example : rms (fun _ : Unit => (1 : ℝ)) ((fun _ => 6 / 10) - fun _ => 1 / 2) ≤ 1 / 5 := by
  have hn : ∀ φ : Unit → ℝ, rms (fun _ => (1 : ℝ)) φ = |φ ()| := fun φ => by
    simp [rms, dot, Real.sqrt_mul_self_eq_abs]
  have ha : Dissipative (⊤ : Submodule ℝ (Unit → ℝ)) (fun _ x φ => x () * φ ()) := by
    intro t x _ y _
    simp only [Pi.sub_apply]
    nlinarith [sq_nonneg (x () - y ())]
  have h := (C87_inexact_euler ⊤ (fun _ : Unit => (1 : ℝ)) (fun _ => zero_le_one)
    (fun _ x φ => x () * φ ()) ha 1 one_pos (1 / 5) 0 (by norm_num) le_rfl [1] (fun _ => 1)
    (fun _ => 1) [fun _ => 6 / 10] [fun _ => 1 / 2]
    ⟨⟨trivial, fun φ _ => by
      rw [hn]
      simp only [dot, Finset.univ_unique, Finset.sum_singleton, Scheme.quotient, backwardEuler]
      rw [show (1 : ℝ) * ((6 / 10 - 1) / 1 * φ default) + 6 / 10 * φ () = 1 / 5 * φ () by
        rw [show (default : Unit) = () from rfl]; ring, abs_mul]
      norm_num⟩, trivial⟩
    ⟨⟨trivial, fun φ _ => by
      simp only [dot, Finset.univ_unique, Finset.sum_singleton, Scheme.quotient, backwardEuler]
      rw [show (1 : ℝ) * ((1 / 2 - 1) / 1 * φ default) + 1 / 2 * φ () = 0 by
        rw [show (default : Unit) = () from rfl]; ring]
      simp⟩, trivial⟩).2.2 0 (by simp) (by simp)
  have e : rms (fun _ : Unit => (1 : ℝ)) ((fun _ => 1) - fun _ => 1) = 0 := by simp [rms, dot]
  rw [e] at h
  norm_num at h ⊢
  linarith

end Dream
