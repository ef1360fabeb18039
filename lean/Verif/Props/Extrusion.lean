import Verif.Props.Dimensions

/-!
# C83: two-dimensional solutions as three-dimensional ones
-/

noncomputable section

namespace Dream
open Matrix _root_.Spec

variable {n : ℕ} {γ : ℝ} {V B K E : Type} [Fintype V] [Fintype B] [Fintype K] [Fintype E]

/-- The component of the momentum in the new direction. -/
abbrev newMom (n : ℕ) : Fin (n + 3) := (Fin.last n).castSucc.succ

theorem newMom_succAbove (w : Fin (n + 3) → ℝ) :
    (fun i => w ((newMom n).succAbove i)) = consVec (w 0)
      (fun i : Fin n => w i.castSucc.castSucc.succ) (w (Fin.last (n + 2))) := by
  refine cons_ext ?_ (fun i => ?_) ?_
  · have : (newMom n).succAbove 0 = 0 := by
      rw [Fin.succAbove_of_castSucc_lt]
      · rfl
      · simp [newMom, Fin.lt_def]
    simp [this]
  · have : (newMom n).succAbove i.castSucc.succ = i.castSucc.castSucc.succ := by
      rw [Fin.succAbove_of_castSucc_lt]
      · rfl
      · simp [newMom, Fin.lt_def]
    simp [this]
  · have : (newMom n).succAbove (Fin.last (n + 1)) = Fin.last (n + 2) := by
      rw [Fin.succAbove_of_le_castSucc]
      · rfl
      · simp [newMom, Fin.le_def]
    simp [this]

theorem embedCons_new (w : Fin (n + 2) → ℝ) : embedCons w (newMom n) = 0 := by
  rw [embedCons_eq, consVec_mom]; simp

theorem embedCons_old (w : Fin (n + 2) → ℝ) (i : Fin (n + 2)) :
    embedCons w ((newMom n).succAbove i) = w i := by
  have := congrFun (newMom_succAbove (embedCons w)) i
  rw [this]
  have h : consVec (embedCons w 0) (fun i : Fin n => embedCons w i.castSucc.castSucc.succ)
      (embedCons w (Fin.last (n + 2))) = w := by
    refine cons_ext ?_ (fun i => ?_) ?_
    · simp [embedCons_eq]
    · simp only [embedCons_eq, consVec_mom]; simp
    · simp [embedCons_eq]
  rw [h]

theorem embedCons_dot (w : Fin (n + 2) → ℝ) (v : Fin (n + 3) → ℝ) :
    embedCons w ⬝ᵥ v = w ⬝ᵥ fun i => v ((newMom n).succAbove i) := by
  simp only [dotProduct]
  rw [Fin.sum_univ_succAbove _ (newMom n), embedCons_new]
  simp [embedCons_old]

/-- The mesh of layers over a plane mesh: `K` are the quadrature points across the layers with
weights `wz`, `E` the faces between and at the ends of the layers, each once for every layer it
belongs to, with the direction `sgn` of its normal and its region. -/
def HdgMesh.layers (M : HdgMesh n V B) (wz : K → ℝ) (sgn : E → ℝ) (reg : E → Option Name) :
    HdgMesh (n + 1) (V × K) ((B × K) ⊕ (V × E)) where
  wV := fun p => M.wV p.1 * wz p.2
  wB := Sum.elim (fun p => M.wB p.1 * wz p.2) (fun p => M.wV p.1)
  normal := Sum.elim (fun p => Fin.snoc (M.normal p.1) 0)
    (fun p => sgn p.2 • Pi.single (Fin.last n) 1)
  region := Sum.elim (fun p => M.region p.1) (fun p => reg p.2)

/-- The test function at one height, without the momentum in the new direction. -/
def HdgTest.slice (φ : HdgTest (n + 1) (n + 3) (V × K) ((B × K) ⊕ (V × E))) (k : K) :
    HdgTest n (n + 2) V B where
  grad := fun v => Matrix.of fun i j => φ.grad (v, k) ((newMom n).succAbove i) j.castSucc
  val := fun v i => φ.val (v, k) ((newMom n).succAbove i)
  trace := fun b i => φ.trace (.inl (b, k)) ((newMom n).succAbove i)
  hat := fun b i => φ.hat (.inl (b, k)) ((newMom n).succAbove i)

/-- Test functions on the layers: at every height they are test functions of the plane mesh, and
across the layers the quadrature integrates the derivative of the new momentum component exactly;
facet functions are the same from both sides. -/
structure LayerTest (sgn : E → ℝ) (wz : K → ℝ) (maskE : E → ℝ) (T : Set (HdgTest n (n + 2) V B))
    (φ : HdgTest (n + 1) (n + 3) (V × K) ((B × K) ⊕ (V × E))) : Prop where
  slice : ∀ k, φ.slice k ∈ T
  across : ∀ v, ∑ k, wz k * φ.grad (v, k) (newMom n) (Fin.last n)
    = ∑ e, sgn e * φ.trace (.inr (v, e)) (newMom n)
  cancel : ∀ v, ∑ e, maskE e * (sgn e * φ.hat (.inr (v, e)) (newMom n)) = 0

/-- A flux matrix in one more dimension: the pressure `p` pushes across the new direction. -/
def extrudeFlux (A : Matrix (Fin (n + 2)) (Fin n) ℝ) (p : ℝ) :
    Matrix (Fin (n + 3)) (Fin (n + 1)) ℝ :=
  Matrix.of ((newMom n).insertNth (α := fun _ => Fin (n + 1) → ℝ) (Fin.snoc (fun _ => 0) p)
    fun i => Fin.snoc (A i) 0)

/-- The pressure of a vector of conservative variables. -/
def pressureOf (γ : ℝ) (w : Fin (n + 2) → ℝ) : ℝ :=
  (γ - 1) * (w (Fin.last (n + 1)) - (mom w ⬝ᵥ mom w) / (2 * w 0))

/-- The plane state at every height: the same values, nothing in the new direction; across the
layers only the pressure acts. -/
def HdgState.extrude (γ : ℝ) (sgn : E → ℝ) (x : HdgState n (n + 2) V B) :
    HdgState (n + 1) (n + 3) (V × K) ((B × K) ⊕ (V × E)) where
  U := fun v => embedCons (x.U v.1)
  F := fun v => extrudeFlux (x.F v.1) (pressureOf γ (x.U v.1))
  G := 0
  Fn := Sum.elim (fun b => embedCons (x.Fn b.1))
    (fun v => consVec 0 ((sgn v.2 * pressureOf γ (x.U v.1)) • Pi.single (Fin.last n) 1) 0)
  Gn := 0
  R := Sum.elim (fun b => embedCons (x.R b.1)) (fun _ => 0)
  source := fun v => embedCons (x.source v.1)

/-- The mask on the layers. -/
def layerMask (mask : B → ℝ) (maskE : E → ℝ) : (B × K) ⊕ (V × E) → ℝ :=
  Sum.elim (fun b => mask b.1) (fun v => maskE v.2)

theorem mulVec_col {k m : ℕ} (A : Matrix (Fin k) (Fin m) ℝ) (i : Fin k) (j : Fin m) :
    (A *ᵥ Pi.single j 1) i = A i j := by simp

/-- The flux matrix of an embedded state. -/
theorem flux_embed {S : GasState n} (hS : IdealGas γ S) :
    ∃ A A', convectiveFlux γ (conservativeDict S) = .ok A ∧
      convectiveFlux γ (conservativeDict S.embed) = .ok A' ∧
      (∀ i j, A' ((newMom n).succAbove i) j.castSucc = A i j) ∧
      (∀ i, A' ((newMom n).succAbove i) (Fin.last n) = 0) ∧
      (∀ j : Fin n, A' (newMom n) j.castSucc = 0) ∧ A' (newMom n) (Fin.last n) = S.p := by
  have hE := embed_ideal hS
  have hF : ∀ (m : ℕ) (S : GasState m), IdealGas γ S → ∃ A, convectiveFlux γ (conservativeDict S)
      = .ok A ∧ ∀ d, A *ᵥ d = eulerFlux γ d S.rho S.rho_u S.rho_E := by
    intro m S hS
    obtain ⟨A, hA, -⟩ := C26_flux_conservative hS 0
    refine ⟨A, hA, fun d => ?_⟩
    obtain ⟨A', hA', h⟩ := C26_flux_conservative hS d
    rw [hA] at hA'
    cases hA'
    exact h
  obtain ⟨A, hA, hAd⟩ := hF n S hS
  obtain ⟨A', hA', hAd'⟩ := hF (n + 1) S.embed hE
  have h1 : ∀ j : Fin n, A' *ᵥ Pi.single j.castSucc 1 = embedCons (A *ᵥ Pi.single j 1) := by
    intro j
    have hs : (Pi.single j.castSucc 1 : Fin (n + 1) → ℝ) = Fin.snoc (Pi.single j 1) 0 := by
      funext i
      refine Fin.lastCases ?_ (fun l => ?_) i
      · have : Fin.last n ≠ j.castSucc := (Fin.castSucc_lt_last j).ne'
        simp [this]
      · simp [Pi.single_apply]
    obtain ⟨-, ⟨f, e1, e2⟩, -⟩ := C83_embedding (rs := .hll) (.inr rfl) hS (Pi.single j 1) 0 0
    rw [anyDim_flux_eq (.inr rfl) hS, sub_self, smul_zero, add_zero] at e1
    rw [anyDim_flux_eq (.inr rfl) hE, sub_self, smul_zero, add_zero] at e2
    cases e1
    rw [hs, hAd', hAd]
    exact Except.ok.inj e2
  have h2 : A' *ᵥ Pi.single (Fin.last n) 1
      = consVec 0 (S.p • Pi.single (Fin.last n) 1) 0 := by
    have e2 := (C83_embedding (rs := .hll) (.inr rfl) hS 0 0 0).2.2.1
    rw [anyDim_flux_eq (.inr rfl) hE, sub_self, smul_zero, add_zero] at e2
    rw [hAd']
    exact Except.ok.inj e2
  refine ⟨A, A', hA, hA', fun i j => ?_, fun i => ?_, fun j => ?_, ?_⟩
  · rw [← mulVec_col A', h1, embedCons_old, mulVec_col]
  · rw [← mulVec_col A', h2]
    have := congrFun (newMom_succAbove
      (consVec 0 (S.p • (Pi.single (Fin.last n) 1 : Fin (n + 1) → ℝ)) 0)) i
    rw [this]
    have h3 : consVec 0 (fun i : Fin n => consVec 0
        (S.p • (Pi.single (Fin.last n) 1 : Fin (n + 1) → ℝ)) 0 i.castSucc.castSucc.succ) 0 i
        = (0 : Fin (n + 2) → ℝ) i := by
      refine congrFun (cons_ext (by simp) (fun i => ?_) (by simp)) i
      have : i.castSucc ≠ Fin.last n := (Fin.castSucc_lt_last i).ne
      simp only [consVec_mom]
      simp [this]
    simpa using h3
  · rw [← mulVec_col A', h1, embedCons_new]
  · rw [← mulVec_col A', h2]
    simp [newMom]

theorem flux_extrude {S : GasState n} (hS : IdealGas γ S) {A : Matrix (Fin (n + 2)) (Fin n) ℝ}
    (hA : convectiveFlux γ (conservativeDict S) = .ok A) :
    convectiveFlux γ (conservativeDict S.embed) = .ok (extrudeFlux A S.p) := by
  obtain ⟨A₀, A', h1, h2, e1, e2, e3, e4⟩ := flux_embed hS
  rw [hA] at h1
  cases h1
  rw [h2]
  congr 1
  funext i j
  refine (newMom n).succAboveCases ?_ (fun i => ?_) i
  · refine Fin.lastCases ?_ (fun j => ?_) j
    · rw [e4]; simp [extrudeFlux]
    · rw [e3]; simp [extrudeFlux]
  · refine Fin.lastCases ?_ (fun j => ?_) j
    · rw [e2]; simp [extrudeFlux]
    · rw [e1]; simp [extrudeFlux]

theorem frobenius_extrude (A : Matrix (Fin (n + 2)) (Fin n) ℝ) (p : ℝ)
    (G : Matrix (Fin (n + 3)) (Fin (n + 1)) ℝ) :
    frobenius (extrudeFlux A p) G
      = frobenius A (Matrix.of fun i j => G ((newMom n).succAbove i) j.castSucc)
        + p * G (newMom n) (Fin.last n) := by
  simp only [frobenius]
  rw [Fin.sum_univ_succAbove _ (newMom n)]
  simp [extrudeFlux, Fin.sum_univ_castSucc]
  ring

theorem pressureOf_gas {S : GasState n} (hS : IdealGas γ S) :
    pressureOf γ (consVec S.rho S.rho_u S.rho_E) = S.p := by
  have h : mom (consVec S.rho S.rho_u S.rho_E) = S.rho_u := by funext i; simp
  rw [pressureOf, h, consVec_last, consVec_zero, pressure_of_cons hS]

theorem pair_sum {α β : Type} [Fintype α] [Fintype β] (a : α → ℝ) (b : β → ℝ) (f : α → β → ℝ) :
    ∑ p : α × β, a p.1 * b p.2 * f p.1 p.2 = ∑ y, b y * ∑ x, a x * f x y := by
  rw [Fintype.sum_prod_type, Finset.sum_comm]
  refine Finset.sum_congr rfl fun y _ => ?_
  rw [Finset.mul_sum]
  exact Finset.sum_congr rfl fun x _ => by ring

theorem embedCons_zero : embedCons (0 : Fin (n + 2) → ℝ) = 0 := by
  refine cons_ext (by simp [embedCons_eq]) (fun i => ?_) (by simp [embedCons_eq])
  refine Fin.lastCases ?_ (fun j => ?_) i <;> simp [embedCons_eq]

theorem embedCons_q {q : ℝ → ℝ → ℝ → ℝ} (hq : q 0 0 0 = 0) (a b c : Fin (n + 2) → ℝ) :
    (fun i => q (embedCons a i) (embedCons b i) (embedCons c i))
      = embedCons fun i => q (a i) (b i) (c i) := by
  funext i
  refine (newMom n).succAboveCases ?_ (fun i => ?_) i
  · simp only [embedCons_new, hq]
  · simp only [embedCons_old]

theorem pressForce_dot (p : ℝ) (v : Fin (n + 3) → ℝ) :
    consVec 0 (p • Pi.single (Fin.last n) 1) 0 ⬝ᵥ v = p * v (newMom n) := by
  have : (consVec 0 (p • Pi.single (Fin.last n) 1) 0 : Fin (n + 3) → ℝ)
      = Pi.single (newMom n) p := by
    funext i
    by_cases h : i = newMom n
    · subst h; simp
    · rw [Pi.single_eq_of_ne h]
      revert h
      refine Fin.cases (fun _ => rfl) (fun j => ?_) i
      refine Fin.lastCases (fun _ => ?_) (fun k => ?_) j
      · rw [Fin.succ_last, consVec_last]
      · intro h
        have : k ≠ Fin.last n := fun hk => h (by rw [hk])
        rw [consVec_mom]
        simp [this]
  rw [this, single_dotProduct]

/-- One step of the extruded equations. -/
theorem extrude_step (M : HdgMesh n V B) (wz : K → ℝ) (sgn : E → ℝ) (reg : E → Option Name)
    (mask : B → ℝ) (maskE : E → ℝ) (T : Set (HdgTest n (n + 2) V B)) {q : ℝ → ℝ → ℝ → ℝ}
    (hq : q 0 0 0 = 0) (t : ℚ) {x cur prev : HdgState n (n + 2) V B}
    (hG : x.G = 0) (hGn : x.Gn = 0) (h : hdgStep M mask T q t x cur prev) :
    hdgStep (M.layers wz sgn reg) (layerMask mask maskE) {φ | LayerTest sgn wz maskE T φ} q t
      (x.extrude γ sgn) (cur.extrude γ sgn) (prev.extrude γ sgn) := by
  intro φ hφ
  have hk := fun k => h (φ.slice k) (hφ.slice k)
  have eT : ∀ dU : V → Fin (n + 2) → ℝ,
      timeForm (M.layers wz sgn reg) (fun v => embedCons (dU v.1)) φ
        = ∑ k, wz k * timeForm M dU (φ.slice k) := by
    intro dU
    simp only [timeForm, HdgMesh.layers, embedCons_dot]
    exact pair_sum M.wV wz (fun v k => dU v ⬝ᵥ fun i => φ.val (v, k) ((newMom n).succAbove i))
  have eB : boundaryForm (M.layers wz sgn reg) (x.extrude γ sgn).R φ
      = ∑ k, wz k * boundaryForm M x.R (φ.slice k) := by
    simp only [boundaryForm, HdgMesh.layers, HdgState.extrude, Fintype.sum_sum_type, Sum.elim_inl,
      Sum.elim_inr, zero_dotProduct, mul_zero, Finset.sum_const_zero, add_zero, embedCons_dot]
    exact pair_sum M.wB wz
      (fun b k => x.R b ⬝ᵥ fun i => φ.hat (.inl (b, k)) ((newMom n).succAbove i))
  have eC : convectionForm (M.layers wz sgn reg) (layerMask mask maskE) (x.extrude γ sgn).F
      (x.extrude γ sgn).Fn φ = ∑ k, wz k * convectionForm M mask x.F x.Fn (φ.slice k) := by
    have c1 : ∑ v : V × K, M.wV v.1 * wz v.2 * -frobenius
        (extrudeFlux (x.F v.1) (pressureOf γ (x.U v.1))) (φ.grad v)
        = (∑ k, wz k * ∑ v, M.wV v * -frobenius (x.F v) ((φ.slice k).grad v))
          - ∑ v, M.wV v * (pressureOf γ (x.U v) *
            ∑ k, wz k * φ.grad (v, k) (newMom n) (Fin.last n)) := by
      rw [← pair_sum M.wV wz (fun v k => -frobenius (x.F v) ((φ.slice k).grad v)),
        Fintype.sum_prod_type, Fintype.sum_prod_type, ← Finset.sum_sub_distrib]
      refine Finset.sum_congr rfl fun v _ => ?_
      rw [Finset.mul_sum, Finset.mul_sum, ← Finset.sum_sub_distrib]
      refine Finset.sum_congr rfl fun k _ => ?_
      rw [frobenius_extrude]
      simp only [HdgTest.slice]
      ring
    have c2 : ∑ b : B × K, M.wB b.1 * wz b.2 * (embedCons (x.Fn b.1) ⬝ᵥ φ.trace (.inl b))
        = ∑ k, wz k * ∑ b, M.wB b * (x.Fn b ⬝ᵥ (φ.slice k).trace b) := by
      simp only [embedCons_dot]
      exact pair_sum M.wB wz
        (fun b k => x.Fn b ⬝ᵥ fun i => φ.trace (.inl (b, k)) ((newMom n).succAbove i))
    have c3 : ∑ b : B × K, M.wB b.1 * wz b.2 *
        (-mask b.1 * (embedCons (x.Fn b.1) ⬝ᵥ φ.hat (.inl b)))
        = ∑ k, wz k * ∑ b, M.wB b * (-mask b * (x.Fn b ⬝ᵥ (φ.slice k).hat b)) := by
      simp only [embedCons_dot]
      exact pair_sum M.wB wz (fun b k =>
        -mask b * (x.Fn b ⬝ᵥ fun i => φ.hat (.inl (b, k)) ((newMom n).succAbove i)))
    have c4 : ∑ v : V × E, M.wV v.1 * (consVec 0 ((sgn v.2 * pressureOf γ (x.U v.1)) •
        Pi.single (Fin.last n) 1) 0 ⬝ᵥ φ.trace (.inr v))
        = ∑ v, M.wV v * (pressureOf γ (x.U v) *
            ∑ e, sgn e * φ.trace (.inr (v, e)) (newMom n)) := by
      rw [Fintype.sum_prod_type]
      refine Finset.sum_congr rfl fun v _ => ?_
      rw [Finset.mul_sum, Finset.mul_sum]
      refine Finset.sum_congr rfl fun e _ => ?_
      rw [pressForce_dot]
      ring
    have c5 : ∑ v : V × E, M.wV v.1 * (-maskE v.2 * (consVec 0 ((sgn v.2 *
        pressureOf γ (x.U v.1)) • Pi.single (Fin.last n) 1) 0 ⬝ᵥ φ.hat (.inr v))) = 0 := by
      rw [Fintype.sum_prod_type]
      refine Finset.sum_eq_zero fun v _ => ?_
      have e : ∀ e : E, M.wV v * (-maskE e * (consVec 0 ((sgn e *
          pressureOf γ (x.U v)) • Pi.single (Fin.last n) 1) 0 ⬝ᵥ φ.hat (.inr (v, e))))
          = -(M.wV v * pressureOf γ (x.U v)) *
            (maskE e * (sgn e * φ.hat (.inr (v, e)) (newMom n))) := by
        intro e
        rw [pressForce_dot]
        ring
      rw [Finset.sum_congr rfl fun y _ => e y, ← Finset.mul_sum, hφ.cancel v, mul_zero]
    have c6 : ∑ v, M.wV v * (pressureOf γ (x.U v) *
            ∑ k, wz k * φ.grad (v, k) (newMom n) (Fin.last n))
        = ∑ v, M.wV v * (pressureOf γ (x.U v) *
            ∑ e, sgn e * φ.trace (.inr (v, e)) (newMom n)) :=
      Finset.sum_congr rfl fun v _ => by rw [hφ.across v]
    simp only [convectionForm, HdgMesh.layers, HdgState.extrude, layerMask, Fintype.sum_sum_type,
      Sum.elim_inl, Sum.elim_inr]
    rw [c1, c2, c3, c4, c5, c6]
    simp only [mul_add, Finset.sum_add_distrib]
    ring
  have eD : diffusionForm (M.layers wz sgn reg) (layerMask mask maskE) (x.extrude γ sgn).G
      (x.extrude γ sgn).Gn φ = ∑ k, wz k * diffusionForm M mask x.G x.Gn (φ.slice k) := by
    rw [hG, hGn]
    simp [diffusionForm, HdgState.extrude, frobenius]
  have eQ : (fun (v : V × K) i => q ((x.extrude γ sgn : HdgState (n + 1) (n + 3) (V × K)
      ((B × K) ⊕ (V × E))).U v i) ((cur.extrude γ sgn : HdgState (n + 1) (n + 3) (V × K)
      ((B × K) ⊕ (V × E))).U v i) ((prev.extrude γ sgn : HdgState (n + 1) (n + 3) (V × K)
      ((B × K) ⊕ (V × E))).U v i))
      = fun v => embedCons fun i => q (x.U v.1 i) (cur.U v.1 i) (prev.U v.1 i) := by
    funext v
    exact embedCons_q hq _ _ _
  rw [eQ, eT fun v i => q (x.U v i) (cur.U v i) (prev.U v i), eC, eD, eB]
  have eS := eT x.source
  change timeForm (M.layers wz sgn reg) (x.extrude γ sgn).source φ = _ at eS
  rw [eS, ← Finset.sum_add_distrib, ← Finset.sum_add_distrib, ← Finset.sum_add_distrib,
    ← Finset.sum_add_distrib]
  refine Finset.sum_eq_zero fun k _ => ?_
  rw [← mul_add, ← mul_add, ← mul_add, ← mul_add, hk k, mul_zero]

/-- **C83** Plane solutions are spatial solutions: if a sequence of states solves the discrete
Euler equations on a mesh in `n` dimensions, then the same values on any number of layers of that
mesh solve the discrete equations in `n + 1` dimensions, with Lax–Friedrichs or HLL and either
scheme. The fluxes of the extruded states are those the program computes in `n + 1` dimensions. -/
theorem C83_extrusion {rs : Riemann} (hrs : rs.AnyDim) (M : HdgMesh n V B) (wz : K → ℝ)
    (sgn : E → ℝ) (reg : E → Option Name) (mask : B → ℝ) (maskE : E → ℝ)
    (T : Set (HdgTest n (n + 2) V B)) (s : Scheme) (dt : ℝ) (ts : List ℚ)
    (prev cur : HdgState n (n + 2) V B) (xs : List (HdgState n (n + 2) V B))
    (tr hat : HdgState n (n + 2) V B → B → Fin (n + 2) → ℝ)
    (hx : ∀ x ∈ xs, x.IsEulerIn γ rs M (tr x) (hat x))
    (hV : ∀ x ∈ xs, ∀ v, ∃ S : GasState n, IdealGas γ S ∧ x.U v = consVec S.rho S.rho_u S.rho_E)
    (hB : ∀ x ∈ xs, ∀ b, ∃ S : GasState n, IdealGas γ S ∧
      hat x b = consVec S.rho S.rho_u S.rho_E)
    (h : Satisfies (hdgStep M mask T (s.quotient dt)) prev cur ts xs) :
    Satisfies (hdgStep (M.layers wz sgn reg) (layerMask mask maskE)
        {φ | LayerTest sgn wz maskE T φ} (s.quotient dt)) (prev.extrude γ sgn)
        (cur.extrude γ sgn) ts (xs.map fun x => x.extrude γ sgn) ∧
      ∀ x ∈ xs, (x.extrude γ sgn).IsEulerIn γ rs (M.layers wz sgn reg)
        (Sum.elim (fun b => embedCons (tr x b.1)) fun v => embedCons (x.U v.1))
        (Sum.elim (fun b => embedCons (hat x b.1)) fun v => embedCons (x.U v.1)) := by
  have hfields : ∀ S : GasState n, IdealGas γ S →
      conservativeFields γ (embedCons (consVec S.rho S.rho_u S.rho_E))
        = .ok (conservativeDict S.embed) := by
    intro S hS
    have e : (consVec S.rho (Fin.snoc S.rho_u 0) S.rho_E : Fin (n + 3) → ℝ)
        = consVec S.embed.rho S.embed.rho_u S.embed.rho_E := rfl
    rw [embedCons_consVec, e, conservativeFields_gas (embed_ideal hS)]
  constructor
  · have hq : s.quotient dt 0 0 0 = 0 := by
      cases s <;> simp [Scheme.quotient, backwardEuler, backward2]
    clear hV hB
    induction ts generalizing prev cur xs with
    | nil => cases xs with
      | nil => trivial
      | cons x xs => exact h.elim
    | cons t ts ih => cases xs with
      | nil => exact h.elim
      | cons x xs =>
        have hi := (hx x (by simp)).inviscid
        exact ⟨extrude_step M wz sgn reg mask maskE T hq t hi.1 hi.2 h.1,
          ih cur x xs (fun y hy => hx y (by simp [hy])) h.2⟩
  · intro x hxs
    refine ⟨fun v => ?_, fun b => ?_, rfl, rfl⟩
    · obtain ⟨S, hS, e⟩ := hV x hxs v.1
      obtain ⟨Uf, h1, h2⟩ := (hx x hxs).flux v.1
      rw [e, conservativeFields_gas hS] at h1
      cases h1
      refine ⟨conservativeDict S.embed, ?_, ?_⟩
      · simp only [HdgState.extrude]
        rw [e, hfields S hS]
      · rw [flux_extrude hS h2]
        simp only [HdgState.extrude]
        rw [e, pressureOf_gas hS]
    · rcases b with b | v
      · obtain ⟨S, hS, e⟩ := hB x hxs b.1
        obtain ⟨Uf, h1, h2⟩ := (hx x hxs).numerical b.1
        rw [e, conservativeFields_gas hS] at h1
        cases h1
        refine ⟨conservativeDict S.embed, ?_, ?_⟩
        · simp only [Sum.elim_inl]
          rw [e, hfields S hS]
        · obtain ⟨-, ⟨f, e1, e2⟩, -⟩ := C83_embedding hrs hS (M.normal b.1) (tr x b.1) (hat x b.1)
          rw [h2] at e1
          cases e1
          exact e2
      · obtain ⟨S, hS, e⟩ := hV x hxs v.1
        refine ⟨conservativeDict S.embed, ?_, ?_⟩
        · simp only [Sum.elim_inr]
          rw [e, hfields S hS]
        · simp only [Sum.elim_inr]
          rw [anyDim_flux_eq hrs (embed_ideal hS), sub_self, smul_zero, add_zero]
          simp only [HdgMesh.layers, HdgState.extrude, Sum.elim_inr]
          rw [e, pressureOf_gas hS, eulerFlux_gas (embed_ideal hS)]
          have h0 : S.embed.rho_u ⬝ᵥ (sgn v.2 • Pi.single (Fin.last n) 1) = 0 := by
            change (Fin.snoc S.rho_u 0 : Fin (n + 1) → ℝ) ⬝ᵥ _ = 0
            simp
          rw [h0]
          congr 1
          refine cons_ext (by simp) (fun i => ?_) (by simp)
          simp only [consVec_mom]
          have hp : S.embed.p = S.p := rfl
          rw [hp]
          simp
          ring

/-- C83, concrete instance: two layers over the unit square, with a test function that has a slope
across the layers. -/
example : LayerTest (n := 2) (V := Unit) (B := Fin 4) (K := Fin 2) (E := Fin 4) ![1, -1, 1, -1]
    (fun _ => 1 / 2) ![1, 0, 0, 1] Set.univ
    { grad := fun _ => Matrix.of fun i j => if i = newMom 2 ∧ j = Fin.last 2 then 2 else 0
      val := fun p _ => if p.2 = 0 then 1 / 2 else 3 / 2
      trace := Sum.elim (fun p _ => if p.2 = 0 then 1 / 2 else 3 / 2) (fun p _ => ![1, 0, 2, 1] p.2)
      hat := Sum.elim (fun p _ => if p.2 = 0 then 1 / 2 else 3 / 2)
        (fun p _ => ![1, 0, 2, 1] p.2) } := by
  refine ⟨fun _ => trivial, fun v => ?_, fun v => ?_⟩
  · simp [Fin.sum_univ_four]
  · simp [Fin.sum_univ_four]

end Dream
