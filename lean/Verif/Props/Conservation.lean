import Verif.Spec.Conservation
import Verif.Props.Transient
import Verif.Props.Conditions
import Verif.Props.Walls

/-!
# C66: discrete conservation; C68: where the conditions act
-/

noncomputable section

namespace Dream
open Matrix Spec

variable {n k : ℕ} {V B : Type} [Fintype V] [Fintype B]

/-! ### C68: the mask -/

/-- **C68** The transmission condition is replaced exactly on the boundaries that have at least
one condition and no periodic one. -/
theorem C68_mask (M : HdgMesh n V B) (bcs : Conditions) (hC : bcs.regions.Nodup) (b : B) :
    (M.mask bcs b = 0 ∨ M.mask bcs b = 1) ∧
    (M.mask bcs b = 0 ↔ ∃ r l c, M.region b = some r ∧ bcs.data.get? r = some l ∧ c ∈ l ∧
      ∀ c' ∈ l, c'.isA .periodic = false) := by
  have hmem : ∀ r, r ∈ bcs.getDomainBoundaries ↔ ∃ l, bcs.data.get? r = some l ∧
      (∃ c, c ∈ l) ∧ ∀ c' ∈ l, c'.isA .periodic = false := by
    intro r
    simp only [Conditions.getDomainBoundaries, List.mem_map, List.mem_filter, Prod.exists,
      Bool.and_eq_true, Bool.not_eq_true', exists_and_right, exists_eq_right,
      List.any_eq_false, Bool.not_eq_true]
    constructor
    · rintro ⟨l, h1, h2, h3⟩
      exact ⟨l, Dict.get?_of_mem hC h1, List.exists_mem_of_ne_nil _ (by simpa using h3), h2⟩
    · rintro ⟨l, h1, ⟨c, hc⟩, h2⟩
      exact ⟨l, Dict.mem_of_get? h1, h2, by simpa using List.ne_nil_of_mem hc⟩
  unfold HdgMesh.mask
  cases hr : M.region b with
  | none => simp
  | some r =>
    simp only [Option.some.injEq]
    constructor
    · split_ifs <;> simp
    · constructor
      · intro h
        split_ifs at h with hm
        · obtain ⟨l, h1, ⟨c, hc⟩, h2⟩ := (hmem r).1 hm
          exact ⟨r, l, c, rfl, h1, hc, h2⟩
        · simp at h
      · rintro ⟨_, l, c, rfl, h1, hc, h2⟩
        rw [if_pos ((hmem r).2 ⟨l, h1, ⟨c, hc⟩, h2⟩)]

/-- C68, concrete instance: a wall, a periodic boundary and a boundary without condition. -/
example :
    let C : Conditions :=
      ⟨[(['w'], [⟨0, .inviscidWall⟩]), (['p'], [⟨1, .periodic⟩]), (['f'], [])], [], 2⟩
    let M : HdgMesh 2 Unit (Fin 4) := ⟨1, 1, 0, ![some ['w'], some ['p'], some ['f'], none]⟩
    C.regions.Nodup ∧ M.mask C 0 = 0 ∧ M.mask C 1 = 1 ∧ M.mask C 2 = 1 ∧ M.mask C 3 = 1 := by
  intro C M
  have h : C.getDomainBoundaries = [['w']] := by decide
  refine ⟨by decide, ?_, ?_, ?_, ?_⟩ <;> simp [HdgMesh.mask, M, h]

/-! ### C66 -/

/-- The constant test function of the `i`-th equation, with the facet part switched off on the
boundaries that have a condition. -/
def constantTest (mask : B → ℝ) (i : Fin k) : HdgTest n k V B where
  grad := fun _ => 0
  val := fun _ => Pi.single i 1
  trace := fun _ => Pi.single i 1
  hat := fun b => mask b • Pi.single i 1

/-- Constants, and piecewise constant facet functions, are test functions. -/
def HasConstants (mask : B → ℝ) (T : Set (HdgTest n k V B)) : Prop :=
  ∀ i, constantTest mask i ∈ T

theorem step_tested (M : HdgMesh n V B) (mask : B → ℝ) (hmask : ∀ b, mask b = 0 ∨ mask b = 1)
    (T : Set (HdgTest n k V B)) (hT : HasConstants mask T) (q : ℝ → ℝ → ℝ → ℝ) (t : ℚ)
    (x cur prev : HdgState n k V B) (hR : ∀ b, mask b = 1 → x.R b = 0)
    (h : hdgStep M mask T q t x cur prev) (i : Fin k) :
    (∑ v, M.wV v * q (x.U v i) (cur.U v i) (prev.U v i)) + x.loss M mask i = 0 := by
  have := h _ (hT i)
  have e1 : ∀ dU : V → Fin k → ℝ, timeForm M dU (constantTest mask i : HdgTest n k V B)
      = ∑ v, M.wV v * dU v i := by
    intro dU
    simp [timeForm, constantTest]
  have e2 : convectionForm M mask x.F x.Fn (constantTest mask i)
      = ∑ b, if mask b = 0 then M.wB b * x.Fn b i else 0 := by
    simp only [convectionForm, constantTest, frobenius, Matrix.zero_apply, mul_zero, Finset.sum_const_zero,
      neg_zero, zero_add, dotProduct_smul, dotProduct_single_one, smul_eq_mul,
      ← Finset.sum_add_distrib]
    apply Finset.sum_congr rfl
    intro b _
    rcases hmask b with hb | hb
    · simp [hb]
    · simp [hb]
  have e3 : diffusionForm M mask x.G x.Gn (constantTest mask i)
      = -∑ b, if mask b = 0 then M.wB b * x.Gn b i else 0 := by
    simp only [diffusionForm, constantTest, frobenius, Matrix.zero_apply, mul_zero, Finset.sum_const_zero,
      zero_sub, dotProduct_smul, dotProduct_single_one, smul_eq_mul, ← Finset.sum_neg_distrib,
      ← Finset.sum_add_distrib]
    apply Finset.sum_congr rfl
    intro b _
    rcases hmask b with hb | hb
    · simp [hb]
    · simp [hb]
  have e4 : boundaryForm M x.R (constantTest mask i) = 0 := by
    simp only [boundaryForm, constantTest]
    apply Finset.sum_eq_zero
    intro b _
    rcases hmask b with hb | hb
    · simp [hb]
    · simp [hR b hb]
  rw [e1, e1, e2, e3, e4] at this
  have e5 : x.loss M mask i = (∑ b, if mask b = 0 then M.wB b * x.Fn b i else 0)
      + (-∑ b, if mask b = 0 then M.wB b * x.Gn b i else 0) + ∑ v, M.wV v * x.source v i := by
    rw [HdgState.loss, ← sub_eq_add_neg, ← Finset.sum_sub_distrib]
    congr 1
    apply Finset.sum_congr rfl
    intro b _
    split_ifs <;> ring
  rw [e5]
  linarith

/-- **C66** Conservation in one step: for every mesh, quadrature, flux, boundary condition and
scheme, the difference quotient of the total amount of every conserved quantity is what leaves
through the boundaries with a condition plus what the sponge layers take out. Interior facets and
boundaries without condition contribute nothing. -/
theorem C66_balance (M : HdgMesh n V B) (mask : B → ℝ) (hmask : ∀ b, mask b = 0 ∨ mask b = 1)
    (T : Set (HdgTest n k V B)) (hT : HasConstants mask T) (s : Scheme) (dt : ℝ) (t : ℚ)
    (x cur prev : HdgState n k V B) (hR : ∀ b, mask b = 1 → x.R b = 0)
    (h : hdgStep M mask T (s.quotient dt) t x cur prev) (i : Fin k) :
    s.quotient dt (x.total M i) (cur.total M i) (prev.total M i) = -x.loss M mask i := by
  have := step_tested M mask hmask T hT _ t x cur prev hR h i
  have e : (∑ v, M.wV v * s.quotient dt (x.U v i) (cur.U v i) (prev.U v i))
      = s.quotient dt (x.total M i) (cur.total M i) (prev.total M i) := by
    cases s
    · simp only [Scheme.quotient, backwardEuler, HdgState.total, ← Finset.sum_sub_distrib,
        Finset.sum_div]
      exact Finset.sum_congr rfl fun v _ => by ring
    · simp only [Scheme.quotient, backward2, HdgState.total, Finset.mul_sum,
        ← Finset.sum_sub_distrib, ← Finset.sum_add_distrib, Finset.sum_div]
      exact Finset.sum_congr rfl fun v _ => by ring
  rw [e] at this
  linarith

/-- **C66** A whole implicit Euler run: the total amount at the end is the initial one minus the
time step times everything that was lost. -/
theorem C66_run (M : HdgMesh n V B) (mask : B → ℝ) (hmask : ∀ b, mask b = 0 ∨ mask b = 1)
    (T : Set (HdgTest n k V B)) (hT : HasConstants mask T) (dt : ℝ) (hdt : dt ≠ 0) (ts : List ℚ)
    (x0 : HdgState n k V B) (xs : List (HdgState n k V B))
    (hR : ∀ x ∈ xs, ∀ b, mask b = 1 → x.R b = 0)
    (h : Satisfies (hdgStep M mask T (Scheme.implicitEuler.quotient dt)) x0 x0 ts xs) (i : Fin k) :
    ((x0 :: xs).getLast (by simp)).total M i
      = x0.total M i - dt * (xs.map (HdgState.loss M mask i)).sum := by
  suffices key : ∀ p x0 : HdgState n k V B,
      Satisfies (hdgStep M mask T (Scheme.implicitEuler.quotient dt)) p x0 ts xs →
      ((x0 :: xs).getLast (by simp)).total M i
        = x0.total M i - dt * (xs.map (HdgState.loss M mask i)).sum from key x0 x0 h
  clear h
  induction ts generalizing xs with
  | nil =>
    intro p x0 h
    cases xs <;> simp_all [Satisfies]
  | cons t ts ih =>
    intro p x0 h
    cases xs with
    | nil => simp [Satisfies] at h
    | cons x xs =>
      obtain ⟨h1, h2⟩ := h
      have b1 := C66_balance M mask hmask T hT .implicitEuler dt t x x0 p (hR x (by simp)) h1 i
      have b2 := ih xs (fun y hy => hR y (by simp [hy])) x0 x h2
      rw [List.getLast_cons (by simp), b2]
      simp only [Scheme.quotient, backwardEuler] at b1
      simp only [List.map_cons, List.sum_cons]
      field_simp at b1
      linarith

/-- **C66** If nothing is lost the total amount never changes, with both schemes. -/
theorem C66_closed (M : HdgMesh n V B) (mask : B → ℝ) (hmask : ∀ b, mask b = 0 ∨ mask b = 1)
    (T : Set (HdgTest n k V B)) (hT : HasConstants mask T) (s : Scheme) (dt : ℝ) (hdt : dt ≠ 0)
    (ts : List ℚ) (x0 : HdgState n k V B) (xs : List (HdgState n k V B))
    (hR : ∀ x ∈ xs, ∀ b, mask b = 1 → x.R b = 0)
    (h : Satisfies (hdgStep M mask T (s.quotient dt)) x0 x0 ts xs) (i : Fin k)
    (hloss : ∀ x ∈ xs, x.loss M mask i = 0) :
    ∀ x ∈ xs, x.total M i = x0.total M i := by
  suffices key : ∀ m : ℝ, ∀ p x0 : HdgState n k V B, p.total M i = m → x0.total M i = m →
      Satisfies (hdgStep M mask T (s.quotient dt)) p x0 ts xs →
      ∀ x ∈ xs, x.total M i = m from key _ x0 x0 rfl rfl h
  clear h
  induction ts generalizing xs with
  | nil =>
    intro m p x0 _ _ h
    cases xs <;> simp_all [Satisfies]
  | cons t ts ih =>
    intro m p x0 hp h0 h
    cases xs with
    | nil => simp [Satisfies] at h
    | cons x xs =>
      obtain ⟨h1, h2⟩ := h
      have b1 := C66_balance M mask hmask T hT s dt t x x0 p (hR x (by simp)) h1 i
      rw [hloss x (by simp), hp, h0] at b1
      have hx : x.total M i = m := by
        cases s
        · simp only [Scheme.quotient, backwardEuler] at b1
          field_simp at b1
          linarith
        · simp only [Scheme.quotient, backward2] at b1
          field_simp at b1
          linarith
      intro y hy
      rcases List.mem_cons.1 hy with rfl | hy
      · exact hx
      · exact ih xs (fun y hy => hR y (by simp [hy])) (fun y hy => hloss y (by simp [hy])) m x0 x
          h0 hx h2 y hy

/-- The point lies on an inviscid wall or symmetry plane: the trace satisfies the wall condition
for the interior state, and the flux is the numerical flux of the two. -/
def AtWall (γ : ℝ) (rs : Riemann) (d : Fin 2 → ℝ) (f : Fin 4 → ℝ) : Prop :=
  ∃ (S : GasState 2) (wHat : Fin 4 → ℝ) (UHat : Flow 2), IdealGas γ S ∧
    inviscidWallResidual γ d (conservativeDict S) wHat = .ok 0 ∧
    getConservativeFields γ (wHat 0) ![wHat 1, wHat 2] (wHat 3) = .ok UHat ∧
    convectiveNumericalFlux γ rs (consVec S.rho S.rho_u S.rho_E) wHat UHat d = .ok f

/-- **C66** A gas in a container: inviscid flow in a domain whose boundaries are inviscid walls,
symmetry planes, periodic or without condition, with any Riemann solver but Upwind: mass and
energy are the same after every step of a transient run, with both schemes and any time step. -/
theorem C66_container {γ : ℝ} (rs : Riemann) (hrs : rs ≠ .upwind) (M : HdgMesh 2 V B)
    (hn : ∀ b, M.normal b 0 ^ 2 + M.normal b 1 ^ 2 = 1)
    (bcs : Conditions) (hC : bcs.regions.Nodup)
    (T : Set (HdgTest 2 4 V B)) (hT : HasConstants (M.mask bcs) T) (s : Scheme) (dt : ℝ)
    (hdt : dt ≠ 0) (ts : List ℚ) (x0 : HdgState 2 4 V B) (xs : List (HdgState 2 4 V B))
    (hR : ∀ x ∈ xs, ∀ b, M.mask bcs b = 1 → x.R b = 0)
    (hG : ∀ x ∈ xs, ∀ b, x.Gn b = 0) (hsrc : ∀ x ∈ xs, ∀ v, x.source v = 0)
    (hwall : ∀ x ∈ xs, ∀ b, M.mask bcs b = 0 → AtWall γ rs (M.normal b) (x.Fn b))
    (h : Satisfies (hdgStep M (M.mask bcs) T (s.quotient dt)) x0 x0 ts xs) :
    ∀ x ∈ xs, x.total M 0 = x0.total M 0 ∧ x.total M 3 = x0.total M 3 := by
  have hmask : ∀ b, M.mask bcs b = 0 ∨ M.mask bcs b = 1 := fun b => (C68_mask M bcs hC b).1
  have hfl : ∀ x ∈ xs, ∀ b, M.mask bcs b = 0 → x.Fn b 0 = 0 ∧ x.Fn b 3 = 0 := by
    intro x hx b hb
    obtain ⟨S, wHat, UHat, hS, hw, hU, hf⟩ := hwall x hx b hb
    obtain ⟨UHat', f, hU', hf', W, -, -, -, -, e⟩ := C67_wall_partial rs hrs hS (hn b) hw
    rw [hU] at hU'
    cases hU'
    rw [hf] at hf'
    cases hf'
    rw [e]
    exact ⟨rfl, rfl⟩
  have hl : ∀ i : Fin 4, (i = 0 ∨ i = 3) → ∀ x ∈ xs, x.loss M (M.mask bcs) i = 0 := by
    intro i hi x hx
    rw [HdgState.loss]
    have e1 : (∑ b, if M.mask bcs b = 0 then M.wB b * (x.Fn b i - x.Gn b i) else 0) = 0 := by
      apply Finset.sum_eq_zero
      intro b _
      split_ifs with hb
      · rw [hG x hx b]
        rcases hi with rfl | rfl
        · simp [(hfl x hx b hb).1]
        · simp [(hfl x hx b hb).2]
      · rfl
    rw [e1, zero_add]
    exact Finset.sum_eq_zero fun v _ => by simp [hsrc x hx v]
  intro x hx
  exact ⟨C66_closed M _ hmask T hT s dt hdt ts x0 xs hR h 0 (hl 0 (.inl rfl)) x hx,
    C66_closed M _ hmask T hT s dt hdt ts x0 xs hR h 3 (hl 3 (.inr rfl)) x hx⟩

/-- C66, concrete instance: one implicit Euler step of a scalar on an interval, what flows out
through the right end is missing afterwards. -/
example :
    let M : HdgMesh 1 Unit Bool := ⟨fun _ => 1, fun _ => 1, fun b _ => if b then 1 else -1,
      fun b => if b then some ['r'] else none⟩
    let mask : Bool → ℝ := fun b => if b then 0 else 1
    let x (u f : ℝ) : HdgState 1 1 Unit Bool := ⟨fun _ _ => u, 0, 0, fun _ _ => f, 0, 0, 0⟩
    HasConstants (n := 1) (k := 1) (V := Unit) mask {constantTest mask 0} ∧
    hdgStep M mask {constantTest mask 0} (Scheme.implicitEuler.quotient 2) 0 (x 1 3) (x 7 0) (x 7 0)
      ∧ (x 1 3).loss M mask 0 = 3 := by
  intro M mask x
  refine ⟨fun i => by rw [Subsingleton.elim i 0]; rfl, ?_, ?_⟩
  · rintro φ rfl
    simp [timeForm, convectionForm, diffusionForm, boundaryForm, constantTest, frobenius,
      Scheme.quotient, backwardEuler, M, mask, x]
    norm_num
  · simp [HdgState.loss, M, mask, x]

/-- C66, concrete instance: a point of an inviscid wall towards which the gas moves. -/
example : ∃ f, AtWall (7 / 5) .roe ![1, 0] f := by
  have hS : IdealGas (7 / 5) (GasState.of (7 / 5) 1 ![1, 2] 1 : GasState 2) :=
    IdealGas.of (by norm_num) (by norm_num) (by norm_num)
  have hw : inviscidWallResidual (7 / 5) ![1, 0]
      (conservativeDict (GasState.of (7 / 5) 1 ![1, 2] 1)) ![1, 0, 2, 7 / 2] = .ok 0 := by
    obtain ⟨h1, h2, h3⟩ := dictState (7 / 5) (GasState.of (7 / 5) 1 ![1, 2] 1 : GasState 2)
    simp only [inviscidWallResidual, h1, h2, h3, bind, Except.bind, Except.ok.injEq]
    funext i
    fin_cases i <;>
      simp [consVec, GasState.of, Fin.snoc, Fin.cons, dotProduct, Fin.sum_univ_two] <;> norm_num
  obtain ⟨UHat, f, h1, h2, -⟩ := C67_wall_partial .roe (by simp) hS (by simp) hw
  exact ⟨f, _, _, UHat, hS, hw, h1, h2⟩

end Dream
