import Verif.Props.Transient
import Mathlib.Algebra.BigOperators.Ring.Finset
import Mathlib.Algebra.Order.BigOperators.Ring.Finset
import Mathlib.LinearAlgebra.FiniteDimensional.Basic
import Mathlib.LinearAlgebra.FiniteDimensional.Lemmas
import Mathlib.LinearAlgebra.Pi
import Mathlib.Tactic.Positivity

/-!
# C63: unconditional stability of the time stepping schemes
-/

noncomputable section

namespace Dream

open Spec

variable {ι : Type} [Fintype ι]

theorem dot_nonneg (w u : ι → ℝ) (hw : ∀ i, 0 ≤ w i) : 0 ≤ dot w u u :=
  Finset.sum_nonneg fun i _ => mul_nonneg (hw i) (mul_self_nonneg _)

theorem dot_pos (w u : ι → ℝ) (hw : ∀ i, 0 < w i) (hu : u ≠ 0) : 0 < dot w u u := by
  obtain ⟨i, hi⟩ := Function.ne_iff.1 hu
  exact Finset.sum_pos' (fun i _ => mul_nonneg (hw i).le (mul_self_nonneg _))
    ⟨i, Finset.mem_univ i, mul_pos (hw i) (mul_self_pos.2 hi)⟩

/-- The equation of one step in weak form, tested with all functions of a space `S`. -/
def weakStep (S : Submodule ℝ (ι → ℝ)) (w : ι → ℝ) (a : ℚ → (ι → ℝ) → (ι → ℝ) → ℝ)
    (q : ℝ → ℝ → ℝ → ℝ) (t : ℚ) (x cur prev : ι → ℝ) : Prop :=
  x ∈ S ∧ ∀ φ ∈ S, dot w (fun i => q (x i) (cur i) (prev i)) φ + a t x φ = 0

/-- The spatial terms are dissipative (monotone). -/
def Dissipative (S : Submodule ℝ (ι → ℝ)) (a : ℚ → (ι → ℝ) → (ι → ℝ) → ℝ) : Prop :=
  ∀ t, ∀ x ∈ S, ∀ y ∈ S, 0 ≤ a t x (x - y) - a t y (x - y)

/-- Energy estimate of one implicit Euler step. -/
theorem ie_energy (S : Submodule ℝ (ι → ℝ)) (w : ι → ℝ) (hw : ∀ i, 0 ≤ w i)
    (a : ℚ → (ι → ℝ) → (ι → ℝ) → ℝ) (ha : Dissipative S a) (dt : ℝ) (hdt : 0 < dt) (t : ℚ)
    (x cur prev y cur' prev' : ι → ℝ)
    (hx : weakStep S w a (Scheme.implicitEuler.quotient dt) t x cur prev)
    (hy : weakStep S w a (Scheme.implicitEuler.quotient dt) t y cur' prev') :
    dist2 w x y ≤ dist2 w cur cur' := by
  have hxy : x - y ∈ S := S.sub_mem hx.1 hy.1
  have e1 := hx.2 _ hxy
  have e2 := hy.2 _ hxy
  have e3 := ha t x hx.1 y hy.1
  have key : 2 * dt * (dot w (fun i => Scheme.implicitEuler.quotient dt (x i) (cur i) (prev i)) (x - y)
      - dot w (fun i => Scheme.implicitEuler.quotient dt (y i) (cur' i) (prev' i)) (x - y))
      = dist2 w x y - dist2 w cur cur'
        + dist2 w (fun i => x i - cur i) (fun i => y i - cur' i) := by
    simp only [dist2, dot, ← Finset.sum_sub_distrib, ← Finset.sum_add_distrib, Finset.mul_sum]
    apply Finset.sum_congr rfl
    intro i _
    simp only [Scheme.quotient, backwardEuler, Pi.sub_apply]
    field_simp
    ring
  have h4 : 0 ≤ dist2 w (fun i => x i - cur i) (fun i => y i - cur' i) := dot_nonneg w _ hw
  have h5 : dot w (fun i => Scheme.implicitEuler.quotient dt (x i) (cur i) (prev i)) (x - y)
      - dot w (fun i => Scheme.implicitEuler.quotient dt (y i) (cur' i) (prev' i)) (x - y) ≤ 0 := by
    linarith
  have h6 : 2 * dt * (dot w (fun i => Scheme.implicitEuler.quotient dt (x i) (cur i) (prev i)) (x - y)
      - dot w (fun i => Scheme.implicitEuler.quotient dt (y i) (cur' i) (prev' i)) (x - y)) ≤ 0 :=
    mul_nonpos_of_nonneg_of_nonpos (by positivity) h5
  linarith

/-- The energy of BDF2: `|e|² + |2e - e_old|²`. -/
def bdf2Energy (w cur prev cur' prev' : ι → ℝ) : ℝ :=
  dist2 w cur cur' + dist2 w (fun i => 2 * cur i - prev i) (fun i => 2 * cur' i - prev' i)

/-- Energy estimate of one BDF2 step (G-stability). -/
theorem bdf2_energy (S : Submodule ℝ (ι → ℝ)) (w : ι → ℝ) (hw : ∀ i, 0 ≤ w i)
    (a : ℚ → (ι → ℝ) → (ι → ℝ) → ℝ) (ha : Dissipative S a) (dt : ℝ) (hdt : 0 < dt) (t : ℚ)
    (x cur prev y cur' prev' : ι → ℝ)
    (hx : weakStep S w a (Scheme.bdf2.quotient dt) t x cur prev)
    (hy : weakStep S w a (Scheme.bdf2.quotient dt) t y cur' prev') :
    bdf2Energy w x cur y cur' ≤ bdf2Energy w cur prev cur' prev' := by
  have hxy : x - y ∈ S := S.sub_mem hx.1 hy.1
  have e1 := hx.2 _ hxy
  have e2 := hy.2 _ hxy
  have e3 := ha t x hx.1 y hy.1
  have key : 4 * dt * (dot w (fun i => Scheme.bdf2.quotient dt (x i) (cur i) (prev i)) (x - y)
      - dot w (fun i => Scheme.bdf2.quotient dt (y i) (cur' i) (prev' i)) (x - y))
      = bdf2Energy w x cur y cur' - bdf2Energy w cur prev cur' prev'
        + dist2 w (fun i => x i - 2 * cur i + prev i) (fun i => y i - 2 * cur' i + prev' i) := by
    simp only [bdf2Energy, dist2, dot, ← Finset.sum_sub_distrib, ← Finset.sum_add_distrib,
      Finset.mul_sum]
    apply Finset.sum_congr rfl
    intro i _
    simp only [Scheme.quotient, backward2, Pi.sub_apply]
    field_simp
    ring
  have h4 : 0 ≤ dist2 w (fun i => x i - 2 * cur i + prev i) (fun i => y i - 2 * cur' i + prev' i) :=
    dot_nonneg w _ hw
  have h6 : 4 * dt * (dot w (fun i => Scheme.bdf2.quotient dt (x i) (cur i) (prev i)) (x - y)
      - dot w (fun i => Scheme.bdf2.quotient dt (y i) (cur' i) (prev' i)) (x - y)) ≤ 0 :=
    mul_nonpos_of_nonneg_of_nonpos (by positivity) (by linarith)
  linarith

/-- **C63** Implicit Euler, any positive time step, any dissipative (possibly nonlinear) spatial
terms, any finite element space and quadrature with non-negative weights: two solutions of the
discrete equations never move apart. -/
theorem C63_ie_contractive (S : Submodule ℝ (ι → ℝ)) (w : ι → ℝ) (hw : ∀ i, 0 ≤ w i)
    (a : ℚ → (ι → ℝ) → (ι → ℝ) → ℝ) (ha : Dissipative S a) (dt : ℝ) (hdt : 0 < dt)
    (ts : List ℚ) (x0 y0 : ι → ℝ) (xs ys : List (ι → ℝ))
    (hx : Satisfies (weakStep S w a (Scheme.implicitEuler.quotient dt)) x0 x0 ts xs)
    (hy : Satisfies (weakStep S w a (Scheme.implicitEuler.quotient dt)) y0 y0 ts ys) :
    (List.zipWith (dist2 w) (x0 :: xs) (y0 :: ys)).Pairwise (· ≥ ·) := by
  suffices h : ∀ px py x0 y0 : ι → ℝ,
      Satisfies (weakStep S w a (Scheme.implicitEuler.quotient dt)) px x0 ts xs →
      Satisfies (weakStep S w a (Scheme.implicitEuler.quotient dt)) py y0 ts ys →
      (List.zipWith (dist2 w) (x0 :: xs) (y0 :: ys)).Pairwise (· ≥ ·) from h x0 y0 x0 y0 hx hy
  clear hx hy
  induction ts generalizing xs ys with
  | nil =>
    intro px py x0 y0 hx hy
    cases xs <;> simp_all [Satisfies]
  | cons t ts ih =>
    intro px py x0 y0 hx hy
    cases xs with
    | nil => simp [Satisfies] at hx
    | cons x xs =>
      cases ys with
      | nil => simp [Satisfies] at hy
      | cons y ys =>
        obtain ⟨hx1, hx2⟩ := hx
        obtain ⟨hy1, hy2⟩ := hy
        have h1 := ie_energy S w hw a ha dt hdt t x x0 px y y0 py hx1 hy1
        have h2 := ih xs ys x0 y0 x y hx2 hy2
        rw [List.zipWith_cons_cons, List.pairwise_cons]
        refine ⟨?_, h2⟩
        intro z hz
        rw [List.zipWith_cons_cons] at h2 hz
        rcases List.mem_cons.1 hz with hz | hz
        · rw [hz]; exact h1
        · exact ((List.pairwise_cons.1 h2).1 z hz).trans h1

/-- **C63** BDF2 under the same assumptions: the distance of two solutions is at most `√2` times
the initial distance, after any number of steps of any size. -/
theorem C63_bdf2_stable (S : Submodule ℝ (ι → ℝ)) (w : ι → ℝ) (hw : ∀ i, 0 ≤ w i)
    (a : ℚ → (ι → ℝ) → (ι → ℝ) → ℝ) (ha : Dissipative S a) (dt : ℝ) (hdt : 0 < dt)
    (ts : List ℚ) (x0 y0 : ι → ℝ) (xs ys : List (ι → ℝ))
    (hx : Satisfies (weakStep S w a (Scheme.bdf2.quotient dt)) x0 x0 ts xs)
    (hy : Satisfies (weakStep S w a (Scheme.bdf2.quotient dt)) y0 y0 ts ys) :
    ∀ d ∈ List.zipWith (dist2 w) xs ys, d ≤ 2 * dist2 w x0 y0 := by
  suffices h : ∀ px py x0 y0 : ι → ℝ,
      Satisfies (weakStep S w a (Scheme.bdf2.quotient dt)) px x0 ts xs →
      Satisfies (weakStep S w a (Scheme.bdf2.quotient dt)) py y0 ts ys →
      ∀ d ∈ List.zipWith (dist2 w) xs ys, d ≤ bdf2Energy w x0 px y0 py by
    intro d hd
    have := h x0 y0 x0 y0 hx hy d hd
    have e : bdf2Energy w x0 x0 y0 y0 = 2 * dist2 w x0 y0 := by
      have : (fun i => 2 * x0 i - x0 i) = x0 := by funext i; ring
      have h' : (fun i => 2 * y0 i - y0 i) = y0 := by funext i; ring
      rw [bdf2Energy, this, h']; ring
    rwa [e] at this
  clear hx hy
  induction ts generalizing xs ys with
  | nil =>
    intro px py x0 y0 hx hy
    cases xs <;> simp_all [Satisfies]
  | cons t ts ih =>
    intro px py x0 y0 hx hy
    cases xs with
    | nil => simp [Satisfies] at hx
    | cons x xs =>
      cases ys with
      | nil => simp [Satisfies] at hy
      | cons y ys =>
        obtain ⟨hx1, hx2⟩ := hx
        obtain ⟨hy1, hy2⟩ := hy
        have h1 := bdf2_energy S w hw a ha dt hdt t x x0 px y y0 py hx1 hy1
        have h2 := ih xs ys x0 y0 x y hx2 hy2
        intro d hd
        rw [List.zipWith_cons_cons] at hd
        rcases List.mem_cons.1 hd with hd | hd
        · rw [hd]
          have : 0 ≤ dist2 w (fun i => 2 * x i - x0 i) (fun i => 2 * y i - y0 i) :=
            dot_nonneg w _ hw
          have : dist2 w x y ≤ bdf2Energy w x x0 y y0 := by unfold bdf2Energy; linarith
          linarith
        · exact (h2 d hd).trans h1

/-- The problem `w u' + B(t) u + b(t) = 0` with positive weights `w`. -/
def linearProblem (w : ι → ℝ) (B : ℚ → (ι → ℝ) →ₗ[ℝ] (ι → ℝ)) (b : ℚ → ι → ℝ) :
    Problem ι (ι → ℝ) (ι → ℝ) :=
  { spatial := fun t x => B t x + b t, mass := fun f i => w i * f i, comp := fun x => x }

theorem linear_invertible (w : ι → ℝ) (hw : ∀ i, 0 < w i) (B : ℚ → (ι → ℝ) →ₗ[ℝ] (ι → ℝ))
    (hB : ∀ t x, 0 ≤ ∑ i, B t x i * x i) (b : ℚ → ι → ℝ) (s : Scheme) (dt : ℝ) (hdt : 0 < dt)
    (t : ℚ) (cur prev : ι → ℝ) :
    ∃ (L : (ι → ℝ) ≃ₗ[ℝ] (ι → ℝ)) (c : ι → ℝ), ∀ x,
      (linearProblem w B b).spatial t x + (linearProblem w B b).mass (fun i =>
        s.quotient dt ((linearProblem w B b).comp x i) ((linearProblem w B b).comp cur i)
          ((linearProblem w B b).comp prev i)) = L x + c := by
  let κ : ℝ := match s with
    | .implicitEuler => 1 / dt
    | .bdf2 => 3 / (2 * dt)
  have hκ : 0 < κ := by cases s <;> simp only [κ] <;> positivity
  let L0 : (ι → ℝ) →ₗ[ℝ] (ι → ℝ) :=
    B t + LinearMap.pi fun i => (κ * w i) • (LinearMap.proj i : (ι → ℝ) →ₗ[ℝ] ℝ)
  have hL0 : ∀ x i, L0 x i = B t x i + κ * w i * x i := by
    intro x i
    simp [L0]
  have hinj : Function.Injective L0 := by
    rw [← LinearMap.ker_eq_bot, LinearMap.ker_eq_bot']
    intro x hx
    by_contra hne
    have h1 : ∑ i, L0 x i * x i = 0 := by rw [hx]; simp
    have h2 : ∑ i, L0 x i * x i = ∑ i, B t x i * x i + κ * dot w x x := by
      simp only [hL0, dot, Finset.mul_sum, ← Finset.sum_add_distrib]
      apply Finset.sum_congr rfl
      intro i _
      ring
    have h3 := mul_pos hκ (dot_pos w x hw hne)
    have h4 := hB t x
    linarith
  refine ⟨LinearEquiv.ofInjectiveEndo L0 hinj, (fun i => b t i + w i * s.quotient dt 0 (cur i) (prev i)), ?_⟩
  intro x
  funext i
  have e : (LinearEquiv.ofInjectiveEndo L0 hinj) x = L0 x := rfl
  rw [e]
  simp only [Pi.add_apply, hL0, linearProblem]
  cases s
  · simp only [κ, Scheme.quotient, backwardEuler]
    field_simp
    ring
  · simp only [κ, Scheme.quotient, backward2]
    field_simp
    ring

theorem satisfies_weak (w : ι → ℝ) (B : ℚ → (ι → ℝ) →ₗ[ℝ] (ι → ℝ)) (b : ℚ → ι → ℝ)
    (q : ℝ → ℝ → ℝ → ℝ) (ts : List ℚ) (prev cur : ι → ℝ) (xs : List (ι → ℝ))
    (h : Satisfies (fun t x cur prev => (linearProblem w B b).spatial t x +
      (linearProblem w B b).mass (fun i => q ((linearProblem w B b).comp x i)
        ((linearProblem w B b).comp cur i) ((linearProblem w B b).comp prev i)) = 0)
      prev cur ts xs) :
    Satisfies (weakStep ⊤ w (fun t x φ => ∑ i, (B t x i + b t i) * φ i) q) prev cur ts xs := by
  induction ts generalizing xs prev cur with
  | nil => cases xs <;> simp_all [Satisfies]
  | cons t ts ih =>
    cases xs with
    | nil => simp [Satisfies] at h
    | cons x xs =>
      refine ⟨⟨trivial, ?_⟩, ih _ _ _ h.2⟩
      intro φ _
      have h1 := h.1
      have : ∀ i, (B t x i + b t i) + w i * q (x i) (cur i) (prev i) = 0 := fun i => congrFun h1 i
      simp only [dot, ← Finset.sum_add_distrib]
      apply Finset.sum_eq_zero
      intro i _
      have := this i
      calc w i * (q (x i) (cur i) (prev i) * φ i) + (B t x i + b t i) * φ i
          = ((B t x i + b t i) + w i * q (x i) (cur i) (prev i)) * φ i := by ring
        _ = 0 := by rw [this, zero_mul]

/-- **C63** Complete runs: for every linear dissipative problem, positive time step and exact
linear solver with default damping, two transient runs with implicit Euler from different initial
states never move apart, and with BDF2 their distance stays below `√2` times the initial one. -/
theorem C63_runs_stable (w : ι → ℝ) (hw : ∀ i, 0 < w i) (B : ℚ → (ι → ℝ) →ₗ[ℝ] (ι → ℝ))
    (hB : ∀ t x, 0 ≤ ∑ i, B t x i * x i) (b : ℚ → ι → ℝ)
    (N : Newton (ι → ℝ) (ι → ℝ)) (hN : N.Exact) (hd : N.damping = 1) (hm : 1 ≤ N.maxIter)
    (tm : Timer) (hdt : 0 < tm.step) (ts : List (ℚ × ℚ)) (hts : tm.run false 1 = .ok ts)
    (x0 y0 : ι → ℝ) :
    (∃ xs ys : List (ι → ℝ),
      transientRun (linearProblem w B b) .implicitEuler N tm x0
        = .ok ((ts.map Prod.snd).zip xs) ∧
      transientRun (linearProblem w B b) .implicitEuler N tm y0
        = .ok ((ts.map Prod.snd).zip ys) ∧
      (List.zipWith (dist2 w) (x0 :: xs) (y0 :: ys)).Pairwise (· ≥ ·)) ∧
    (∃ xs ys : List (ι → ℝ),
      transientRun (linearProblem w B b) .bdf2 N tm x0 = .ok ((ts.map Prod.snd).zip xs) ∧
      transientRun (linearProblem w B b) .bdf2 N tm y0 = .ok ((ts.map Prod.snd).zip ys) ∧
      ∀ d ∈ List.zipWith (dist2 w) xs ys, d ≤ 2 * dist2 w x0 y0) := by
  have hdt' : (0 : ℝ) < tm.step := by exact_mod_cast hdt
  have hmono : Dissipative ⊤ (fun t x φ => ∑ i, (B t x i + b t i) * φ i) := by
    intro t x _ y _
    have := hB t (x - y)
    rw [← Finset.sum_sub_distrib]
    refine le_of_le_of_eq this (Finset.sum_congr rfl fun i _ => ?_)
    rw [map_sub]
    simp only [Pi.sub_apply]
    ring
  constructor
  · obtain ⟨xs, hx, hx'⟩ := C61_linear_exact (linearProblem w B b) .implicitEuler N tm x0 hN hd hm
      (linear_invertible w hw B hB b _ _ hdt') ts hts
    obtain ⟨ys, hy, hy'⟩ := C61_linear_exact (linearProblem w B b) .implicitEuler N tm y0 hN hd hm
      (linear_invertible w hw B hB b _ _ hdt') ts hts
    exact ⟨xs, ys, hx, hy, C63_ie_contractive ⊤ w (fun i => (hw i).le) _ hmono _ hdt' _ x0 y0 xs ys
      (satisfies_weak w B b _ _ _ _ _ hx') (satisfies_weak w B b _ _ _ _ _ hy')⟩
  · obtain ⟨xs, hx, hx'⟩ := C61_linear_exact (linearProblem w B b) .bdf2 N tm x0 hN hd hm
      (linear_invertible w hw B hB b _ _ hdt') ts hts
    obtain ⟨ys, hy, hy'⟩ := C61_linear_exact (linearProblem w B b) .bdf2 N tm y0 hN hd hm
      (linear_invertible w hw B hB b _ _ hdt') ts hts
    exact ⟨xs, ys, hx, hy, C63_bdf2_stable ⊤ w (fun i => (hw i).le) _ hmono _ hdt' _ x0 y0 xs ys
      (satisfies_weak w B b _ _ _ _ _ hx') (satisfies_weak w B b _ _ _ _ _ hy')⟩

open Classical in
/-- An exact linear solver for the example below. -/
def exactNewton : Newton (ι → ℝ) (ι → ℝ) :=
  { lin := fun F _ x =>
      if h : ∃ (L : (ι → ℝ) ≃ₗ[ℝ] (ι → ℝ)) (b : ι → ℝ), ∀ x, F x = L x + b
      then (h.choose.symm (F x), some 0) else (0, none)
    damping := 1, crit := 1, maxIter := 3 }

omit [Fintype ι] in
theorem exactNewton_exact : (exactNewton (ι := ι)).Exact := by
  intro F L b hF it x
  have h : ∃ (L : (ι → ℝ) ≃ₗ[ℝ] (ι → ℝ)) (b : ι → ℝ), ∀ x, F x = L x + b := ⟨L, b, hF⟩
  refine ⟨0, ?_⟩
  simp only [exactNewton, dif_pos h]
  obtain ⟨b', hb'⟩ := h.choose_spec
  have hL : h.choose = L := by
    ext1 y
    have h0 : b' = b := by
      have := (hb' 0).symm.trans (hF 0)
      simpa using this
    have := (hb' y).symm.trans (hF y)
    rw [h0] at this
    exact add_right_cancel this
  rw [hL]

/-- C63, concrete instance: a damped rotation in the plane, two steps of size 1/2. -/
example (x0 y0 : Fin 2 → ℝ) :=
  C63_runs_stable (ι := Fin 2) (fun _ => 1) (fun _ => one_pos)
    (fun _ => LinearMap.pi ![LinearMap.proj 0 - (5 : ℝ) • LinearMap.proj 1,
      LinearMap.proj 1 + (5 : ℝ) • LinearMap.proj 0])
    (by
      intro t x
      simp [Fin.sum_univ_two]
      nlinarith [mul_self_nonneg (x 0), mul_self_nonneg (x 1)])
    (fun _ _ => 1) exactNewton exactNewton_exact rfl (by decide) ⟨0, 1, 1/2, 1, 0⟩ (by norm_num)
    [(1/2, 1/2), (1, 1)] (by decide +kernel) x0 y0

end Dream
