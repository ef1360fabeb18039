import Verif.Spec.SymmetricViscous
import Verif.Props.Symmetric

/-!
# C115: symmetric problems with viscosity
-/

noncomputable section

namespace Dream

open Matrix _root_.Spec Filter Topology

variable {V B : Type}

/-! ## The mixed variables -/

theorem rotMixed_linear (Q : Matrix (Fin 2) (Fin 2) ℝ) (q p : Fin 5 → ℝ) (r : ℝ) :
    rotMixed Q (q + r • p) = rotMixed Q q + r • rotMixed Q p := by
  funext i
  fin_cases i <;>
    simp [rotMixed, Matrix.mul_apply, mulVec, dotProduct, Fin.sum_univ_two] <;> ring

theorem rotMixed_back {Q : Matrix (Fin 2) (Fin 2) ℝ} (hQ : Q * Qᵀ = 1) (q : Fin 5 → ℝ) :
    rotMixed Q (rotMixed Qᵀ q) = q := by
  have h1 := rotMixed_eps Q (rotMixed Qᵀ q)
  have h2 := rotMixed_gradT Q (rotMixed Qᵀ q)
  rw [rotMixed_eps Qᵀ q, transpose_transpose, ← Matrix.mul_assoc, ← Matrix.mul_assoc, hQ, Matrix.one_mul,
    Matrix.mul_assoc, hQ, Matrix.mul_one] at h1
  rw [rotMixed_gradT Qᵀ q, mulVec_mulVec, hQ, one_mulVec] at h2
  funext i
  fin_cases i
  · exact congrFun (congrFun h1 0) 0
  · exact congrFun (congrFun h1 0) 1
  · exact congrFun (congrFun h1 1) 1
  · exact congrFun h2 0
  · exact congrFun h2 1

/-- The matrix of `rotMixed`. -/
def rotMixedM (Q : Matrix (Fin 2) (Fin 2) ℝ) : Matrix (Fin 5) (Fin 5) ℝ :=
  Matrix.of fun i l => rotMixed Q (Pi.single l 1) i

theorem rotMixed_eq (Q : Matrix (Fin 2) (Fin 2) ℝ) (q : Fin 5 → ℝ) : rotMixed Q q = rotMixedM Q *ᵥ q := by
  have h0 : rotMixed Q 0 = 0 := by
    funext i
    fin_cases i <;> simp [rotMixed, Matrix.mul_apply, mulVec, dotProduct, Fin.sum_univ_two]
  have hs : ∀ (c : Fin 5 → ℝ) (s : Finset (Fin 5)),
      rotMixed Q (∑ l ∈ s, c l • Pi.single l 1) = ∑ l ∈ s, c l • rotMixed Q (Pi.single l 1) := by
    intro c s
    induction s using Finset.induction_on with
    | empty => simpa using h0
    | insert a s ha ih => rw [Finset.sum_insert ha, Finset.sum_insert ha, add_comm, rotMixed_linear, ih, add_comm]
  have hq : q = ∑ l, q l • (Pi.single l 1 : Fin 5 → ℝ) := by
    funext i; simp [Finset.sum_apply, Pi.single_apply]
  conv_lhs => rw [hq, hs]
  funext i
  simp [mulVec, dotProduct, rotMixedM, Finset.sum_apply, mul_comm]

theorem rotMixedGrad_eq (Q : Matrix (Fin 2) (Fin 2) ℝ) (m : Matrix (Fin 5) (Fin 2) ℝ) :
    rotMixedGrad Q m = rotMixedM Q * m * Qᵀ := by
  rw [rotMixedGrad]
  congr 1
  ext i j
  simp only [of_apply, rotMixed_eq]
  rfl

theorem rotMixedM_back {Q : Matrix (Fin 2) (Fin 2) ℝ} (hQ : Q * Qᵀ = 1) :
    rotMixedM Q * rotMixedM Qᵀ = 1 := by
  have : ∀ q, (rotMixedM Q * rotMixedM Qᵀ) *ᵥ q = (1 : Matrix (Fin 5) (Fin 5) ℝ) *ᵥ q := by
    intro q
    rw [← mulVec_mulVec, ← rotMixed_eq, ← rotMixed_eq, rotMixed_back hQ, one_mulVec]
  ext i j
  have := congrFun (this (Pi.single j 1)) i
  simpa using this

theorem Motion.mixed_linear (g : Motion V B) (m k : ElementFn 2 5 V B) (r : ℝ) :
    g.mixed (m + r • k) = g.mixed m + r • g.mixed k := by
  refine Prod.ext ?_ (Prod.ext ?_ ?_)
  · funext v
    show rotMixedGrad g.Q (Matrix.of (m.1 (g.onV.symm v)) + r • Matrix.of (k.1 (g.onV.symm v)))
      = rotMixedGrad g.Q (Matrix.of (m.1 (g.onV.symm v)))
        + r • rotMixedGrad g.Q (Matrix.of (k.1 (g.onV.symm v)))
    simp only [rotMixedGrad_eq, Matrix.mul_add, Matrix.add_mul, Matrix.mul_smul, Matrix.smul_mul]
  · funext v; exact rotMixed_linear _ _ _ _
  · funext b; exact rotMixed_linear _ _ _ _

/-- A mixed test function moved. -/
def Motion.mixedTest (g : Motion V B) (P : MixedTest V B) : MixedTest V B where
  val := fun v => rotMixed g.Q (P.val (g.onV.symm v))
  grad := fun v => rotMixedGrad g.Q (P.grad (g.onV.symm v))
  trace := fun b => rotMixed g.Q (P.trace (g.onB.symm b))

theorem Motion.KeepsMixed.test {g : Motion V B} {W : Submodule ℝ (ElementFn 2 5 V B)} (h : g.KeepsMixed W)
    {P : MixedTest V B} (hP : P ∈ mixedTests W) : g.inv.mixedTest P ∈ mixedTests W := by
  have h1 := h.mixedBack _ hP
  have h2 : ((fun v i j => (g.inv.mixedTest P).grad v i j, (g.inv.mixedTest P).val,
      (g.inv.mixedTest P).trace) : ElementFn 2 5 V B)
      = g.inv.mixed (fun v i j => P.grad v i j, P.val, P.trace) :=
    Prod.ext (funext fun v => rfl) (Prod.ext (funext fun v => rfl) (funext fun b => rfl))
  show _ ∈ W
  rw [h2]
  exact h1

/-- What the mixed form sees, moved. -/
def Motion.mixedState (g : Motion V B) (y : MixedState V B) : MixedState V B where
  Q := fun v => rotMixed g.Q (y.Q (g.onV.symm v))
  u := fun v => g.Q *ᵥ y.u (g.onV.symm v)
  T := fun v => y.T (g.onV.symm v)
  uHat := fun b => g.Q *ᵥ y.uHat (g.onB.symm b)
  THat := fun b => y.THat (g.onB.symm b)

theorem mixedForm_moved [Fintype V] [Fintype B] {g : Motion V B} {M : HdgMesh 2 V B} {mask : B → ℝ}
    (hg : g.Keeps M mask) (y : MixedState V B) (P : MixedTest V B) :
    mixedForm M (g.mixedState y).Q (g.mixedState y).u (g.mixedState y).T (g.mixedState y).uHat
      (g.mixedState y).THat P = mixedForm M y.Q y.u y.T y.uHat y.THat (g.inv.mixedTest P) := by
  have hQ := hg.orthogonal
  have h1 : g.Q * g.Qᵀ = 1 := hQ.symm
  have h2 := rotMixedM_back h1
  refine Eq.trans ?_ (C76_mixed hQ M y.Q y.u y.T y.uHat y.THat (g.inv.mixedTest P))
  simp only [mixedForm]
  rw [← Equiv.sum_comp g.onV, ← Equiv.sum_comp g.onB]
  have e1 : ∀ v, rotMixed g.Q ((g.inv.mixedTest P).val v) = P.val (g.onV v) := fun v => rotMixed_back h1 _
  have e2 : ∀ b, rotMixed g.Q ((g.inv.mixedTest P).trace b) = P.trace (g.onB b) := fun v => rotMixed_back h1 _
  have e3 : ∀ v, rotMixedGrad g.Q ((g.inv.mixedTest P).grad v) = P.grad (g.onV v) := by
    intro v
    show rotMixedGrad g.Q (rotMixedGrad g.Qᵀ (P.grad (g.onV v))) = _
    rw [rotMixedGrad_eq, rotMixedGrad_eq, transpose_transpose, ← Matrix.mul_assoc, ← Matrix.mul_assoc, h2,
      Matrix.one_mul, Matrix.mul_assoc, h1, Matrix.mul_one]
  simp only [rotMixedTest, e1, e2, e3, rotMesh, Motion.mixedState, Equiv.symm_apply_apply, hg.volume,
    hg.boundary, hg.normal]

/-! ## Fluxes of the moved state -/

/-- Without its viscous fluxes, the state is that of a flow without viscosity. -/
theorem HdgState.IsViscousFlow.plain {cfg : FlowCfg} {rs : Riemann} {M : HdgMesh 2 V B} {mask : B → ℝ}
    {cond : B → OuterCond} {p : V → ℝ} {target : GasState 2} {x : HdgState 2 4 V B} {a : ElementFn 2 4 V B}
    {ζ : B → Fin 4 → ℝ} {m : ElementFn 2 5 V B} (h : x.IsViscousFlow cfg rs M mask cond p target a ζ m) :
    HdgState.IsOuterFlow cfg.γ rs M mask cond p target { x with G := 0, Gn := 0 } a ζ where
  values := h.values
  euler :=
    { flux := fun v => by obtain ⟨U, h1, h2, -⟩ := h.stokes.flux v; exact ⟨U, h1, h2⟩
      numerical := fun b => by obtain ⟨U, h1, h2, -⟩ := h.stokes.numerical b; exact ⟨U, h1, h2⟩
      inviscid := ⟨rfl, rfl⟩ }
  inside := h.inside
  conditions := h.conditions
  sponge := h.sponge

/-- The state of the moved functions is the moved state. -/
theorem moved_viscous {cfg : FlowCfg} (ha : cfg.Accepted) (hv : cfg.visc ≠ .inviscid) (hM : 0 < cfg.Ma)
    {rs : Riemann} {M : HdgMesh 2 V B} {mask : B → ℝ} {cond : B → OuterCond} {p : V → ℝ}
    {target : GasState 2} {g : Motion V B} (hg : g.Keeps M mask)
    (hn : ∀ b, M.normal b 0 ^ 2 + M.normal b 1 ^ 2 = 1)
    (hc : g.KeepsConditions mask cond p target) {x y : HdgState 2 4 V B} {a : ElementFn 2 4 V B}
    {ζ : B → Fin 4 → ℝ} {m : ElementFn 2 5 V B} (h1 : ∀ v, IsGas (n := 2) cfg.γ (a.2.1 v))
    (h2 : ∀ b, IsGas (n := 2) cfg.γ (a.2.2 b)) (h3 : ∀ b, IsGas (n := 2) cfg.γ (ζ b))
    (hx : x.IsViscousFlow cfg rs M mask cond p target a ζ m)
    (hy : y.IsViscousFlow cfg rs M mask cond p target (g.element a) (g.facet ζ) (g.mixed m)) :
    y = g.state x := by
  have hQ := hg.orthogonal
  have e := moved_flow hg hn hc h1 h2 h3 hx.plain hy.plain
  have eU := congrArg HdgState.U e
  have eF := congrArg HdgState.F e
  have eN := congrArg HdgState.Fn e
  have eR := congrArg HdgState.R e
  have eS := congrArg HdgState.source e
  have eG : y.G = fun v => rotFlux g.Q (x.G (g.onV.symm v)) := by
    funext v
    obtain ⟨S, hS, e1, hS', e2⟩ := rotVec_isGas hQ (h1 (g.onV.symm v))
    obtain ⟨U, f1, -, f2⟩ := hx.stokes.flux (g.onV.symm v)
    obtain ⟨U', f3, -, f4⟩ := hy.stokes.flux v
    rw [hx.values, e1, fields_vec hS] at f1
    rw [show y.U v = gasVec (S.rotate g.Q) by rw [hy.values, ← e2]; rfl, fields_vec hS'] at f3
    cases f1
    cases f3
    obtain ⟨F₁, F₂, e3, e4, e5, -⟩ := C76_diffusive hQ ha hv hM hS (m.2.1 (g.onV.symm v))
    rw [f2] at e3
    rw [show (g.mixed m).2.1 v = rotMixed g.Q (m.2.1 (g.onV.symm v)) from rfl, e4] at f4
    rw [← Except.ok.inj f4, Except.ok.inj e3]
    exact rotFlux_apply hQ e5
  have eGn : y.Gn = fun b => rotVec g.Q (x.Gn (g.onB.symm b)) := by
    funext b
    obtain ⟨S, hS, e1, hS', e2⟩ := rotVec_isGas hQ (h3 (g.onB.symm b))
    obtain ⟨U, f1, -, f2⟩ := hx.stokes.numerical (g.onB.symm b)
    obtain ⟨U', f3, -, f4⟩ := hy.stokes.numerical b
    rw [e1, fields_vec hS] at f1
    rw [show g.facet ζ b = gasVec (S.rotate g.Q) from e2, fields_vec hS'] at f3
    cases f1
    cases f3
    obtain ⟨-, -, -, -, -, k⟩ := C76_diffusive hQ ha hv hM hS (m.2.2 (g.onB.symm b))
    obtain ⟨f, e3, e4⟩ := k (M.normal (g.onB.symm b)) (a.2.2 (g.onB.symm b)) (ζ (g.onB.symm b))
    rw [f2] at e3
    rw [← hg.normal, Equiv.apply_symm_apply] at e4
    rw [show (g.mixed m).2.2 b = rotMixed g.Q (m.2.2 (g.onB.symm b)) from rfl,
      show (g.element a).2.2 b = rotVec g.Q (a.2.2 (g.onB.symm b)) from rfl,
      show g.facet ζ b = rotVec g.Q (ζ (g.onB.symm b)) from rfl, e4] at f4
    rw [← Except.ok.inj f4, Except.ok.inj e3]
  cases y
  simp only at eU eF eN eR eS eG eGn
  subst eU eF eN eR eS eG eGn
  rfl

/-- What the mixed form sees of the moved functions is moved. -/
theorem moved_mixed {γ : ℝ} {g : Motion V B} (hQ : Orthogonal g.Q) {x y : MixedState V B}
    {a : ElementFn 2 4 V B} {ζ : B → Fin 4 → ℝ} {m : ElementFn 2 5 V B}
    (h1 : ∀ v, IsGas (n := 2) γ (a.2.1 v)) (h3 : ∀ b, IsGas (n := 2) γ (ζ b))
    (hx : x.IsFlow γ a ζ m) (hy : y.IsFlow γ (g.element a) (g.facet ζ) (g.mixed m)) :
    y = g.mixedState x := by
  have key : ∀ {w : Fin 4 → ℝ} {U U' : Flow 2} {u u' : Fin 2 → ℝ} {T T' : ℝ}, IsGas (n := 2) γ w →
      conservativeFields (n := 2) γ w = .ok U → conservativeFields (n := 2) γ (rotVec g.Q w) = .ok U' →
      U.u = some u → U'.u = some u' → U.T = some T → U'.T = some T' → u' = g.Q *ᵥ u ∧ T' = T := by
    intro w U U' u u' T T' hw k1 k2 k3 k4 k5 k6
    obtain ⟨S, hS, e1, hS', e2⟩ := rotVec_isGas hQ hw
    have q1 : conservativeFields (n := 2) γ w = .ok (conservativeDict S) := by
      rw [e1]; exact conservativeFields_gas hS
    have q2 : conservativeFields (n := 2) γ (rotVec g.Q w) = .ok (conservativeDict (S.rotate g.Q)) := by
      rw [e2]; exact conservativeFields_gas hS'
    rw [q1] at k1
    rw [q2] at k2
    cases k1
    cases k2
    cases k3
    cases k5
    exact ⟨(Option.some.inj k4).symm, (Option.some.inj k6).symm⟩
  have kv : ∀ v, y.u v = g.Q *ᵥ x.u (g.onV.symm v) ∧ y.T v = x.T (g.onV.symm v) := by
    intro v
    obtain ⟨U, f1, f2, f3⟩ := hx.element (g.onV.symm v)
    obtain ⟨U', f4, f5, f6⟩ := hy.element v
    exact key (h1 _) f1 f4 f2 f5 f3 f6
  have kb : ∀ b, y.uHat b = g.Q *ᵥ x.uHat (g.onB.symm b) ∧ y.THat b = x.THat (g.onB.symm b) := by
    intro b
    obtain ⟨U, f1, f2, f3⟩ := hx.facet (g.onB.symm b)
    obtain ⟨U', f4, f5, f6⟩ := hy.facet b
    exact key (h3 _) f1 f4 f2 f5 f3 f6
  have e1 : y.Q = fun v => rotMixed g.Q (x.Q (g.onV.symm v)) := by rw [hy.values, hx.values]; rfl
  have e2 := funext fun v => (kv v).1
  have e3 := funext fun v => (kv v).2
  have e4 := funext fun b => (kb b).1
  have e5 := funext fun b => (kb b).2
  cases y
  simp only at e1 e2 e3 e4 e5
  subst e1 e2 e3 e4 e5
  rfl

/-! ## Symmetric runs -/

/-- What a user sets up: a mesh, conditions, sponge layers and spaces with a symmetry, a viscous gas and the
strain-heat method. -/
structure ViscousSetup (cfg : FlowCfg) (rs : Riemann) (M : HdgMesh 2 V B) (mask : B → ℝ)
    (cond : B → OuterCond) (p : V → ℝ) (target : GasState 2) (P : HdgSpaces 2 4 V B)
    (W : Submodule ℝ (ElementFn 2 5 V B)) (st : ℚ → ViscousUnknowns P W → HdgState 2 4 V B)
    (ms : ViscousUnknowns P W → MixedState V B) (g : Motion V B) : Prop where
  accepted : cfg.Accepted
  viscous : cfg.visc ≠ .inviscid
  mach : 0 < cfg.Ma
  unit : ∀ b, M.normal b 0 ^ 2 + M.normal b 1 ^ 2 = 1
  mesh : g.Keeps M mask
  spaces : g.KeepsSpaces P
  mixed : g.KeepsMixed W
  conditions : g.KeepsConditions mask cond p target
  states : ∀ t x, AreGas cfg.γ x.1 →
    (st t x).IsViscousFlow cfg rs M mask cond p target x.1.1.1 x.1.2.1 x.2.1
  mixedStates : ∀ x, AreGas cfg.γ x.1 → (ms x).IsFlow cfg.γ x.1.1.1 x.1.2.1 x.2.1

/-- The motion of the unknowns. -/
def Motion.moveViscous (g : Motion V B) {P : HdgSpaces 2 4 V B} {W : Submodule ℝ (ElementFn 2 5 V B)}
    (h : g.KeepsSpaces P) (h' : g.KeepsMixed W) (x : ViscousUnknowns P W) : ViscousUnknowns P W :=
  (g.move h x.1, ⟨g.mixed x.2.1, h'.mixed _ x.2.2⟩)

theorem Motion.fixesViscous_iff {g : Motion V B} {P : HdgSpaces 2 4 V B}
    {W : Submodule ℝ (ElementFn 2 5 V B)} (h : g.KeepsSpaces P) (h' : g.KeepsMixed W)
    (x : ViscousUnknowns P W) : g.FixesViscous x ↔ g.moveViscous h h' x = x := by
  rw [Motion.FixesViscous, Motion.fixes_iff h]
  exact ⟨fun k => Prod.ext k.1 (Subtype.ext k.2),
    fun k => ⟨congrArg Prod.fst k, congrArg (fun z : ViscousUnknowns P W => z.2.1) k⟩⟩

/-- The equations one by one: those of the conservation laws and those of the mixed variables. -/
def viscousEquation {T : Set (HdgTest 2 4 V B)} {T' : Set (MixedTest V B)} (j : T ⊕ T')
    (y : (T → ℝ) × (T' → ℝ)) : ℝ :=
  match j with
  | .inl φ => y.1 φ
  | .inr P => y.2 P

section Runs

variable [Fintype V] [Fintype B] {cfg : FlowCfg} {rs : Riemann} {M : HdgMesh 2 V B} {mask : B → ℝ}
  {cond : B → OuterCond} {p : V → ℝ} {target : GasState 2} {P : HdgSpaces 2 4 V B}
  {W : Submodule ℝ (ElementFn 2 5 V B)} {st : ℚ → ViscousUnknowns P W → HdgState 2 4 V B}
  {ms : ViscousUnknowns P W → MixedState V B} {g : Motion V B}

theorem viscous_symmetry (hs : ViscousSetup cfg rs M mask cond p target P W st ms g) (s : Scheme) :
    StepSymmetry (hdgMixedProblem M mask P.tests (mixedTests W) st ms fun x => x.1.1.1.2.1) s viscousEquation
      (fun x => AreGas cfg.γ x.1) (g.moveViscous hs.spaces hs.mixed) where
  linear := by
    intro x y r
    refine Prod.ext (Prod.ext (Subtype.ext ?_) (Subtype.ext ?_)) (Subtype.ext ?_)
    · exact g.element_linear _ _ _
    · exact g.facet_linear _ _ _
    · exact g.mixed_linear _ _ _
  near := fun x δ h => areGas_near hs.accepted.gamma x.1 δ.1 h
  eqn := by
    have hgas : ∀ x : ViscousUnknowns P W, AreGas cfg.γ x.1 →
        AreGas cfg.γ (g.moveViscous hs.spaces hs.mixed x).1 := by
      intro x h
      have key : ∀ w : Fin 4 → ℝ, IsGas (n := 2) cfg.γ w → IsGas (n := 2) cfg.γ (rotVec g.Q w) := by
        intro w hw
        obtain ⟨S, -, -, h1, h2⟩ := rotVec_isGas hs.mesh.orthogonal hw
        exact ⟨_, h1, h2⟩
      exact ⟨fun v => key _ (h.1 _), fun b => key _ (h.2.1 _), fun b => key _ (h.2.2 _)⟩
    rintro (⟨φ, hφ⟩ | ⟨R, hR⟩)
    · refine ⟨.inl ⟨g.inv.test φ, hs.spaces.test hφ⟩, fun dt t cur prev x hc hp hx => ?_⟩
      have e := moved_viscous hs.accepted hs.viscous hs.mach hs.mesh hs.unit hs.conditions hx.1 hx.2.1 hx.2.2
        (hs.states t x hx) (hs.states t (g.moveViscous hs.spaces hs.mixed x) (hgas x hx))
      have eq : (fun v i => s.quotient dt ((g.moveViscous hs.spaces hs.mixed x).1.1.1.2.1 v i)
            (cur.1.1.1.2.1 v i) (prev.1.1.1.2.1 v i))
          = fun v => rotVec g.Q ((fun v i => s.quotient dt (x.1.1.1.2.1 v i) (cur.1.1.1.2.1 v i)
            (prev.1.1.1.2.1 v i)) (g.onV.symm v)) := by
        funext v
        conv_lhs => rw [← hc, ← hp]
        exact quotient_moved g s dt _ _ _
      have r := residual_moved hs.mesh (st t x) (fun v i => s.quotient dt (x.1.1.1.2.1 v i)
        (cur.1.1.1.2.1 v i) (prev.1.1.1.2.1 v i)) φ
      rw [← e, ← eq] at r
      exact r
    · refine ⟨.inr ⟨g.inv.mixedTest R, hs.mixed.test hR⟩, fun dt t cur prev x hc hp hx => ?_⟩
      have e := moved_mixed hs.mesh.orthogonal hx.1 hx.2.2 (hs.mixedStates x hx)
        (hs.mixedStates (g.moveViscous hs.spaces hs.mixed x) (hgas x hx))
      have r := mixedForm_moved hs.mesh (ms x) R
      rw [← e] at r
      show mixedForm M _ _ _ _ _ R + 0 = mixedForm M _ _ _ _ _ _ + 0
      rw [r]

/-- **C115** With viscosity and the strain-heat method: if mesh, conditions, sponge layers and spaces have a
symmetry, every run from a symmetric state yields symmetric states only, strain rates and temperature
gradients included. -/
theorem C115_viscous (hs : ViscousSetup cfg rs M mask cond p target P W st ms g) (s : Scheme)
    {D : (ℝ → ℝ) → ℝ → Prop} (hD : LocalRule D)
    {N : Newton (ViscousUnknowns P W) ((P.tests → ℝ) × (mixedTests W → ℝ))}
    (hN : N.SolvesOnly (hdgMixedProblem M mask P.tests (mixedTests W) st ms fun x => x.1.1.1.2.1) s
      viscousEquation D fun x => AreGas cfg.γ x.1)
    (tm : Timer) (x0 : ViscousUnknowns P W) (h0 : g.FixesViscous x0) (ys : List (ℚ × ViscousUnknowns P W))
    (h : transientRun (hdgMixedProblem M mask P.tests (mixedTests W) st ms fun x => x.1.1.1.2.1) s N tm x0
      = .ok ys) :
    ∀ y ∈ ys, g.FixesViscous y.2 := by
  intro y hy
  exact (Motion.fixesViscous_iff hs.spaces hs.mixed _).2 (symmetric_run (viscous_symmetry hs s) hD hN tm x0
    ((Motion.fixesViscous_iff hs.spaces hs.mixed _).1 h0) ys h y hy)

/-- **C115** The same for pseudo time stepping. -/
theorem C115_viscous_pseudo (hs : ViscousSetup cfg rs M mask cond p target P W st ms g) (s : Scheme)
    {D : (ℝ → ℝ) → ℝ → Prop} (hD : LocalRule D)
    {N : Newton (ViscousUnknowns P W) ((P.tests → ℝ) × (mixedTests W → ℝ))}
    (hN : N.SolvesOnly (hdgMixedProblem M mask P.tests (mixedTests W) st ms fun x => x.1.1.1.2.1) s
      viscousEquation D fun x => AreGas cfg.γ x.1)
    (ps : Pseudo) (t dt : ℚ) (x0 : ViscousUnknowns P W) (h0 : g.FixesViscous x0)
    (r : PseudoState (V × Fin 4) (ViscousUnknowns P W) ((P.tests → ℝ) × (mixedTests W → ℝ)))
    (h : pseudoRun (hdgMixedProblem M mask P.tests (mixedTests W) st ms fun x => x.1.1.1.2.1) s ps N t dt x0
      = .ok r) : g.FixesViscous r.x :=
  (Motion.fixesViscous_iff hs.spaces hs.mixed _).2 (symmetric_pseudo (viscous_symmetry hs s) hD hN ps t dt x0
    ((Motion.fixesViscous_iff hs.spaces hs.mixed _).1 h0) r h)

/-- **C115** With viscosity, pressure and friction together give a body that is symmetric to the direction of the
flow no lift. -/
theorem C115_viscous_no_lift (ha : cfg.Accepted) (hv : cfg.visc ≠ .inviscid) (hM : 0 < cfg.Ma)
    (hg : g.Keeps M mask) {x : ViscousUnknowns P W} (hx : g.FixesViscous x) (hgas : AreGas cfg.γ x.1)
    {lift : Fin 2 → ℝ} (hlift : g.Q *ᵥ lift = -lift) {body : Name}
    (hbody : ∀ b, M.onRegion body (g.onB b) = M.onRegion body b) (Uref : Flow 2) {cd cl : B → ℝ}
    (hcl : ∀ b, ∃ U, conservativeFields (n := 2) cfg.γ (x.1.1.1.2.2 b) = .ok U ∧
      forceCoefficient cfg U (strainHeatFields (x.2.1.2.2 b)) Uref (M.normal b) lift = .ok (cl b))
    (name : String) (rate : ℕ) (plain : Bool) :
    ∃ drag, (forceSensor name rate body cd cl).measure M.integrateOver plain = .ok [drag, 0] := by
  refine ⟨M.integrateOver cd body, ?_⟩
  rw [forceSensor_measure]
  have hneg : ∀ {U : Flow 2} {dU : Grads 2} {d : Fin 2 → ℝ} {c c' : ℝ},
      forceCoefficient cfg U dU Uref d lift = .ok c → forceCoefficient cfg U dU Uref d (-lift) = .ok c' →
      c' = -c := by
    intro U dU d c c' k1 k2
    have hu : Bla.unitVector (-lift) = -Bla.unitVector lift := by
      simp [Bla.unitVector]
    simp only [forceCoefficient, Bind.bind, Except.bind, hu] at k1 k2
    cases hσ : stressTensor cfg U dU with
    | error e => rw [hσ] at k1; cases k1
    | ok σ =>
      rw [hσ] at k1 k2
      cases hk : kineticEnergy Uref with
      | error e => rw [hk] at k1; cases k1
      | ok k =>
        rw [hk] at k1 k2
        simp only [Except.ok.injEq] at k1 k2
        rw [← k1, ← k2, dotProduct_neg, neg_div]
  have hodd : ∀ b, cl (g.onB b) = -cl b := by
    intro b
    obtain ⟨S, hS, e1, hS', e2⟩ := rotVec_isGas hg.orthogonal (hgas.2.1 b)
    obtain ⟨U, f1, f2⟩ := hcl b
    obtain ⟨U', f3, f4⟩ := hcl (g.onB b)
    have hb : x.1.1.1.2.2 (g.onB b) = gasVec (S.rotate g.Q) := by
      conv_lhs => rw [← hx.1.1]
      show rotVec g.Q (x.1.1.1.2.2 (g.onB.symm (g.onB b))) = _
      rw [Equiv.symm_apply_apply]
      exact e2
    have hm : x.2.1.2.2 (g.onB b) = rotMixed g.Q (x.2.1.2.2 b) := by
      conv_lhs => rw [← hx.2]
      show rotMixed g.Q (x.2.1.2.2 (g.onB.symm (g.onB b))) = _
      rw [Equiv.symm_apply_apply]
    have q1 : conservativeFields (n := 2) cfg.γ (gasVec S) = .ok (conservativeDict S) :=
      conservativeFields_gas hS
    have q2 : conservativeFields (n := 2) cfg.γ (gasVec (S.rotate g.Q))
        = .ok (conservativeDict (S.rotate g.Q)) := conservativeFields_gas hS'
    rw [e1, q1] at f1
    rw [hb, q2] at f3
    cases f1
    cases f3
    rw [hm, hg.normal] at f4
    have hl : lift = g.Q *ᵥ (-lift) := by rw [mulVec_neg, hlift, neg_neg]
    rw [hl, C76_forces hg.orthogonal ha hv hM hS] at f4
    exact hneg f2 f4
  have hz : M.integrateOver cl body = -M.integrateOver cl body := by
    conv_lhs => rw [HdgMesh.integrateOver, ← Equiv.sum_comp g.onB]
    rw [HdgMesh.integrateOver, ← Finset.sum_neg_distrib]
    refine Finset.sum_congr rfl fun b _ => ?_
    rw [hbody, hg.boundary, hodd]
    split_ifs <;> simp
  rw [show M.integrateOver cl body = 0 by linarith]

end Runs

/-! ## A case: viscous gas between two walls -/

/-- Constant viscosity, all numbers one. -/
def ductCfg : FlowCfg := ⟨7 / 5, 1, 1, 1, .aerodynamic, .constant, 1⟩

theorem ductCfg_accepted : ductCfg.Accepted :=
  ⟨by norm_num [ductCfg], by norm_num [ductCfg], fun _ => by norm_num [ductCfg], by norm_num [ductCfg],
    by norm_num [ductCfg], by norm_num [ductCfg], fun _ h => by simp [ductCfg] at h⟩

/-- Constant strain rates and temperature gradients. -/
def ductMixedSpace : Submodule ℝ (ElementFn 2 5 Unit Bool) where
  carrier := {a | ∃ q : Fin 5 → ℝ, a = (0, fun _ => q, fun _ => q)}
  add_mem' := by
    rintro _ _ ⟨w, rfl⟩ ⟨z, rfl⟩
    exact ⟨w + z, by ext <;> simp⟩
  zero_mem' := ⟨0, rfl⟩
  smul_mem' := by
    rintro r _ ⟨w, rfl⟩
    exact ⟨r • w, by ext <;> simp⟩

/-- The gas of `wellState` with friction. -/
def ductState (t : ℚ) (x : ViscousUnknowns wellSpaces ductMixedSpace) : HdgState 2 4 Unit Bool :=
  { wellState t x.1 with
    G := fun v => valueOr 0 (diffusiveFlux ductCfg (conservativeDict (gasOf (n := 2) (7 / 5) (x.1.1.1.2.1 v)))
      (strainHeatFields (x.2.1.2.1 v)))
    Gn := fun b => valueOr 0 (diffusiveNumericalFlux ductCfg (x.1.1.1.2.2 b) (x.1.2.1 b)
      (conservativeDict (gasOf (n := 2) (7 / 5) (x.1.2.1 b))) (strainHeatFields (x.2.1.2.2 b))
      (wellMesh.normal b)) }

/-- Velocities and temperatures. -/
def ductMixed (x : ViscousUnknowns wellSpaces ductMixedSpace) : MixedState Unit Bool where
  Q := x.2.1.2.1
  u := fun v => (gasOf (n := 2) (7 / 5) (x.1.1.1.2.1 v)).u
  T := fun v => (gasOf (n := 2) (7 / 5) (x.1.1.1.2.1 v)).T
  uHat := fun b => (gasOf (n := 2) (7 / 5) (x.1.2.1 b)).u
  THat := fun b => (gasOf (n := 2) (7 / 5) (x.1.2.1 b)).T

theorem duct_setup : ViscousSetup ductCfg .laxFriedrich wellMesh (fun _ => 0)
    (fun _ => .plain (.isothermal { T := some (7 / 5) })) (fun _ => 0) (GasState.of (7 / 5) 1 0 1)
    wellSpaces ductMixedSpace ductState ductMixed wellMirror where
  accepted := ductCfg_accepted
  viscous := by simp [ductCfg]
  mach := by norm_num [ductCfg]
  unit := well_setup.unit
  mesh := well_setup.mesh
  spaces := well_setup.spaces
  mixed := by
    have key : ∀ (g : Motion Unit Bool), ∀ a ∈ ductMixedSpace, g.mixed a ∈ ductMixedSpace := by
      rintro g _ ⟨w, rfl⟩
      refine ⟨rotMixed g.Q w, ?_⟩
      have z : rotMixedGrad g.Q (0 : Matrix (Fin 5) (Fin 2) ℝ) = 0 := by simp [rotMixedGrad_eq]
      exact Prod.ext (funext fun v => z) rfl
    exact ⟨key _, key _⟩
  conditions := well_setup.conditions
  states := by
    intro t x hx
    have hw := well_flow t x.1 hx
    have ideal : ∀ {w : Fin 4 → ℝ}, IsGas (n := 2) (7 / 5) w →
        IdealGas ductCfg.γ (gasOf (n := 2) (7 / 5) w) := fun h =>
      gasOf_ideal (n := 2) (γ := 7 / 5) (by norm_num) ((isGas_iff (n := 2) (by norm_num)).1 h)
    have fields : ∀ {w : Fin 4 → ℝ}, IsGas (n := 2) (7 / 5) w →
        getConservativeFields (7 / 5 : ℝ) (w 0) ![w 1, w 2] (w 3)
          = .ok (conservativeDict (gasOf (n := 2) (7 / 5) w)) := by
      intro w h
      have hw := (isGas_iff (n := 2) (by norm_num)).1 h
      have h1 := fields_vec (gasOf_ideal (n := 2) (γ := 7 / 5) (by norm_num) hw)
      rwa [show gasVec (gasOf (n := 2) (7 / 5) w) = w from gasOf_vec hw] at h1
    have hQ : Orthogonal (1 : Matrix (Fin 2) (Fin 2) ℝ) := by simp [Orthogonal]
    refine ⟨hw.values, ⟨fun v => ?_, fun b => ?_⟩, hw.inside, hw.conditions, hw.sponge⟩
    · obtain ⟨U, f1, f2⟩ := hw.euler.flux v
      have f3 := fields (hx.1 v)
      obtain ⟨F, -, e, -⟩ := C76_diffusive hQ ductCfg_accepted (by simp [ductCfg])
        (by norm_num [ductCfg]) (ideal (hx.1 v)) (x.2.1.2.1 v)
      cases f1.symm.trans f3
      exact ⟨_, f3, f2, by simp only [ductState, e, valueOr]⟩
    · obtain ⟨U, f1, f2⟩ := hw.euler.numerical b
      have f3 := fields (hx.2.2 b)
      obtain ⟨-, -, -, -, -, k⟩ := C76_diffusive hQ ductCfg_accepted (by simp [ductCfg])
        (by norm_num [ductCfg]) (ideal (hx.2.2 b)) (x.2.1.2.2 b)
      obtain ⟨f, e, -⟩ := k (wellMesh.normal b) (x.1.1.1.2.2 b) (x.1.2.1 b)
      cases f1.symm.trans f3
      exact ⟨_, f3, f2, by simp only [ductState, e, valueOr]⟩
  mixedStates := by
    intro x hx
    have fields : ∀ {w : Fin 4 → ℝ}, IsGas (n := 2) (7 / 5) w →
        conservativeFields (n := 2) (7 / 5 : ℝ) w = .ok (conservativeDict (gasOf (n := 2) (7 / 5) w)) :=
      fun h => gasOf_fields (n := 2) (γ := 7 / 5) (by norm_num) ((isGas_iff (n := 2) (by norm_num)).1 h)
    exact ⟨rfl, fun v => ⟨_, fields (hx.1 v), rfl, rfl⟩, fun b => ⟨_, fields (hx.2.2 b), rfl, rfl⟩⟩

/-- The unknowns with the value `w` in the element, `z` on the walls and the mixed variables `q`. -/
def ductPoint (w : Fin 4 → ℝ) (z : Bool → Fin 4 → ℝ) (q : Fin 5 → ℝ) :
    ViscousUnknowns wellSpaces ductMixedSpace :=
  (wellPoint w z, ⟨(0, fun _ => q, fun _ => q), ⟨q, rfl⟩⟩)

theorem ductPoint_add (w w' : Fin 4 → ℝ) (z z' : Bool → Fin 4 → ℝ) (q q' : Fin 5 → ℝ) (r : ℝ) :
    ductPoint w z q + r • ductPoint w' z' q' = ductPoint (w + r • w') (z + r • z') (q + r • q') := by
  refine Prod.ext (wellPoint_add w w' z z' r) (Subtype.ext ?_)
  refine Prod.ext ?_ rfl
  show (0 : Unit → Fin 5 → Fin 2 → ℝ) + r • 0 = 0
  simp

theorem ductPoint_all (x : ViscousUnknowns wellSpaces ductMixedSpace) : ∃ w z q, x = ductPoint w z q := by
  obtain ⟨y, ⟨a, q, rfl⟩⟩ := x
  obtain ⟨w, z, rfl⟩ := wellPoint_all y
  exact ⟨w, z, q, rfl⟩

/-- The viscous flux through a wall. -/
def ductWall (w z : Fin 4 → ℝ) (q : Fin 5 → ℝ) (b : Bool) : Fin 4 → ℝ :=
  valueOr 0 (diffusiveNumericalFlux ductCfg w z (conservativeDict (gasOf (n := 2) (7 / 5) z))
    (strainHeatFields q) (wellMesh.normal b))

abbrev ductProblem : Problem (Unit × Fin 4) (ViscousUnknowns wellSpaces ductMixedSpace)
    ((wellSpaces.tests → ℝ) × (mixedTests ductMixedSpace → ℝ)) :=
  hdgMixedProblem wellMesh (fun _ => 0) wellSpaces.tests (mixedTests ductMixedSpace) ductState ductMixed
    fun x => x.1.1.1.2.1

/-- The equations of a step of implicit Euler. -/
theorem duct_residual (dt : ℝ) (t : ℚ) (w c q : Fin 4 → ℝ) (z zc zq : Bool → Fin 4 → ℝ)
    (m mc mq : Fin 5 → ℝ) (φ : wellSpaces.tests) :
    ∃ u : Fin 4 → ℝ, φ.1.val () = u ∧
    (ductProblem.stepEquation (Scheme.implicitEuler.quotient dt) t (ductPoint c zc mc) (ductPoint q zq mq)
      (ductPoint w z m)).1 φ
    = (pointNumerical (n := 2) (7 / 5) .laxFriedrich (wellMesh.normal true) (w, z true)
        + pointNumerical (n := 2) (7 / 5) .laxFriedrich (wellMesh.normal false) (w, z false)) ⬝ᵥ u
      - (ductWall w (z true) m true + ductWall w (z false) m false) ⬝ᵥ u
      + ((z true - consVec (n := 2) (w 0) 0 (w 0)) ⬝ᵥ φ.1.hat true
        + (z false - consVec (n := 2) (w 0) 0 (w 0)) ⬝ᵥ φ.1.hat false)
      + (fun i => (w i - c i) / dt) ⬝ᵥ u := by
  obtain ⟨⟨gr, va, tr, ht⟩, ⟨u, hu⟩, hφ⟩ := φ
  simp only [Prod.mk.injEq] at hu
  obtain ⟨h1, rfl, rfl⟩ := hu
  have h2 : gr = 0 := by
    funext v
    ext i j
    exact congrFun (congrFun (congrFun h1 v) i) j
  subst h2
  refine ⟨u, rfl, ?_⟩
  simp only [ductProblem, Problem.stepEquation, hdgMixedProblem, hdgProblem, Prod.fst_add, Pi.add_apply,
    convectionForm, diffusionForm, boundaryForm, timeForm, Finset.univ_unique, Finset.sum_singleton,
    Fintype.sum_bool, ductState, wellState, ductPoint, wellPoint, Scheme.quotient, backwardEuler]
  simp [frobenius, add_dotProduct, wellMesh, ductWall, sub_eq_add_neg]

/-- The mixed equations of a step. -/
theorem duct_mixed (q' : ℝ → ℝ → ℝ → ℝ) (t : ℚ) (cur prev : ViscousUnknowns wellSpaces ductMixedSpace)
    (w : Fin 4 → ℝ) (z : Bool → Fin 4 → ℝ) (m : Fin 5 → ℝ) (R : mixedTests ductMixedSpace) (hz : z true = z false) :
    (ductProblem.stepEquation q' t cur prev (ductPoint w z m)).2 R
    = ![m 0, 2 * m 1, m 2, m 3, m 4] ⬝ᵥ R.1.val () := by
  obtain ⟨⟨va, gr, tr⟩, u, hu⟩ := R
  simp only [Prod.mk.injEq] at hu
  obtain ⟨h1, rfl, rfl⟩ := hu
  have h2 : gr = 0 := by
    funext v
    ext i j
    exact congrFun (congrFun (congrFun h1 v) i) j
  subst h2
  show mixedForm wellMesh _ _ _ _ _ _ + 0 = _
  simp only [mixedForm, Finset.univ_unique, Finset.sum_singleton, Fintype.sum_bool, ductMixed, ductPoint,
    wellPoint, wellMesh, hz]
  simp [mixedStrainVolume, mixedHeatVolume, mixedStrainFacet, mixedHeatFacet, mixedEps, mixedGradT, divDevZeta,
    divXi, devZeta, dotProduct, mulVec, Fin.sum_univ_two, Fin.sum_univ_five]
  ring

theorem stabilisation_of {cfg : FlowCfg} {U : Flow 2} {Re Pr mu : ℝ} (h1 : cfg.referenceReynolds = .ok Re)
    (h2 : cfg.prandtl = .ok Pr) (h3 : viscosity cfg U = .ok mu) :
    diffusiveStabilisation cfg U = .ok ((mu / Re) • Matrix.diagonal ![0, 1, 1, 1 / Pr]) := by
  simp only [diffusiveStabilisation, h1, h2, h3, Bind.bind, Except.bind, Bla.diagonalM_eq, lamVec_two]

theorem viscousNumerical_of {cfg : FlowCfg} {U : Flow 2} {Q : Grads 2} {τ : Matrix (Fin 4) (Fin 4) ℝ}
    {A : Matrix (Fin 4) (Fin 2) ℝ} (h1 : diffusiveStabilisation cfg U = .ok τ) (h2 : diffusiveFlux cfg U Q = .ok A)
    (w z : Fin 4 → ℝ) (d : Fin 2 → ℝ) :
    diffusiveNumericalFlux cfg w z U Q d = .ok (A *ᵥ d - τ *ᵥ (w - z)) := by
  simp only [diffusiveNumericalFlux, h1, h2, Bind.bind, Except.bind]

theorem ductCfg_reynolds : ductCfg.referenceReynolds = .ok 1 := by
  simp [FlowCfg.referenceReynolds, FlowCfg.reynolds, ductCfg, Scaling.velocityMagnitude, Bind.bind, Except.bind]

theorem ductCfg_prandtl : ductCfg.prandtl = .ok 1 := by simp only [FlowCfg.prandtl, ductCfg]

theorem duct_stabilisation (U : Flow 2) :
    diffusiveStabilisation ductCfg U
      = .ok (((1 : ℝ) / 1) • Matrix.diagonal (![0, 1, 1, 1 / 1] : Fin 4 → ℝ)) :=
  stabilisation_of ductCfg_reynolds ductCfg_prandtl ((C30_other_laws ductCfg U).1 rfl)

theorem duct_diagonal : ((1 : ℝ) / 1) • Matrix.diagonal (![0, 1, 1, 1 / 1] : Fin 4 → ℝ)
    = Matrix.diagonal (![0, 1, 1, 1] : Fin 4 → ℝ) := by rw [div_one, one_smul]

theorem duct_sum (A : Matrix (Fin 4) (Fin 2) ℝ) (d : Fin 2 → ℝ) (D w z : Fin 4 → ℝ) :
    (A *ᵥ d - Matrix.diagonal D *ᵥ (w - z)) + (A *ᵥ (-d) - Matrix.diagonal D *ᵥ (w - z))
      = fun i => -(2 * D i * (w i - z i)) := by
  funext i
  simp only [mulVec_neg, Pi.add_apply, Pi.sub_apply, Pi.neg_apply, mulVec_diagonal]
  ring

theorem duct_flux {z : Fin 4 → ℝ} (hz : IsGas (n := 2) (7 / 5) z) (m : Fin 5 → ℝ) :
    ∃ A : Matrix (Fin 4) (Fin 2) ℝ, ∀ (w : Fin 4 → ℝ) (b : Bool),
      ductWall w z m b = A *ᵥ wellMesh.normal b - Matrix.diagonal ![0, 1, 1, 1] *ᵥ (w - z) := by
  have hQ : Orthogonal (1 : Matrix (Fin 2) (Fin 2) ℝ) := by simp [Orthogonal]
  obtain ⟨A, -, e, -⟩ := C76_diffusive hQ ductCfg_accepted (by simp [ductCfg]) (by norm_num [ductCfg])
    (gasOf_ideal (n := 2) (γ := 7 / 5) (by norm_num) ((isGas_iff (n := 2) (by norm_num)).1 hz)) m
  refine ⟨A, fun w b => ?_⟩
  rw [ductWall, viscousNumerical_of (duct_stabilisation _) e, duct_diagonal]
  rfl

theorem duct_walls (w : Fin 4 → ℝ) (m : Fin 5 → ℝ) {r : ℝ} (hr : 0 < r) :
    ductWall w (consVec (n := 2) r 0 r) m true + ductWall w (consVec (n := 2) r 0 r) m false
      = fun i => -(2 * (![0, 1, 1, 1] : Fin 4 → ℝ) i * (w i - consVec (n := 2) r 0 r i)) := by
  have hg : IsGas (n := 2) (7 / 5) (consVec (n := 2) r 0 r) := by
    refine (isGas_iff (n := 2) (by norm_num)).2 ⟨by simpa using hr, ?_⟩
    have hm : mom (n := 2) (consVec (n := 2) r 0 r) = 0 := by funext i; simp
    rw [innerOf, hm, consVec_zero, consVec_last]
    simp [hr.ne']
  have hn : wellMesh.normal false = -wellMesh.normal true := by
    funext i; fin_cases i <;> simp [wellMesh]
  generalize consVec (n := 2) r 0 r = z at hg ⊢
  obtain ⟨A, hA⟩ := duct_flux hg m
  rw [hA, hA, hn]
  exact duct_sum _ _ _ _ _

/-- The gas moves along the walls, which hold it at rest. -/
def ductStart : ViscousUnknowns wellSpaces ductMixedSpace :=
  ductPoint ![1, 0, 1, 2] (fun _ => consVec (n := 2) 1 0 1) 0

theorem duct_solvable (dt : ℝ) (hdt : 0 < dt) (t : ℚ) :
    ∃ δ, δ ≠ 0 ∧ SolvesByRule (fun f d => HasDerivAt f d 0) viscousEquation
      (ductProblem.stepEquation (Scheme.implicitEuler.quotient dt) t ductStart ductStart) ductStart δ ∧
      ∀ δ', SolvesByRule (fun f d => HasDerivAt f d 0) viscousEquation
        (ductProblem.stepEquation (Scheme.implicitEuler.quotient dt) t ductStart ductStart) ductStart δ' →
        δ' = δ := by
  set F := ductProblem.stepEquation (Scheme.implicitEuler.quotient dt) t ductStart ductStart with hF
  set w : Fin 4 → ℝ := ![1, 0, 1, 2] with hw
  set z : Fin 4 → ℝ := consVec (n := 2) 1 0 1 with hz
  obtain ⟨c, hc⟩ : ∃ c : Fin 4 → ℝ, c = fun i => 2 * √(14 / 25) + 2 * (![0, 1, 1, 1] : Fin 4 → ℝ) i := ⟨_, rfl⟩
  have c0 : ∀ i, 0 < c i := by
    intro i
    have h1 : 0 < √(14 / 25 : ℝ) := by positivity
    have h2 : ∀ j : Fin 4, 0 ≤ (![0, 1, 1, 1] : Fin 4 → ℝ) j := by intro j; fin_cases j <;> simp
    have := h2 i
    rw [hc]
    positivity
  have hK : ∀ i, 0 < c i + 1 / dt := fun i => by have := c0 i; positivity
  have line : ∀ a d : ℝ, HasDerivAt (fun r : ℝ => a + r * d) d 0 := by
    intro a d
    simpa using ((hasDerivAt_id (0 : ℝ)).mul_const d).const_add a
  have algebra : ∀ (w z dw k u : Fin 4 → ℝ) (r : ℝ),
      ((2 * √(14 / 25)) • (w + r • dw - (z + r • k))) ⬝ᵥ u
        - (fun i => -(2 * (![0, 1, 1, 1] : Fin 4 → ℝ) i * ((w + r • dw) i - (z + r • k) i))) ⬝ᵥ u
        + (0 + 0) + (fun i => ((w + r • dw) i - w i) / dt) ⬝ᵥ u
        = (fun i => c i * (w i - z i)) ⬝ᵥ u + r * ((fun i => c i * (dw i - k i) + dw i / dt) ⬝ᵥ u) := by
    intro w z dw k u r
    simp only [hc, dotProduct, Fin.sum_univ_four, Pi.smul_apply, Pi.sub_apply, Pi.add_apply, smul_eq_mul]
    ring
  have wall : ∀ (a r : ℝ), z + r • consVec (n := 2) a 0 a = consVec (n := 2) (1 + r * a) 0 (1 + r * a) := by
    intro a r
    rw [hz]
    exact cons_ext (n := 2) (by simp) (fun i => by simp)
      (by simp only [Pi.add_apply, Pi.smul_apply, consVec_last, smul_eq_mul])
  -- the equations along increments that keep the walls
  have along : ∀ (dw : Fin 4 → ℝ) (dm : Fin 5 → ℝ) (φ : wellSpaces.tests),
      (fun r : ℝ => (F (ductStart + r • ductPoint dw (fun _ => consVec (n := 2) (dw 0) 0 (dw 0)) dm)).1 φ)
        =ᶠ[𝓝 0] fun r => (fun i => c i * (w i - z i)) ⬝ᵥ φ.1.val () + r * ((fun i => c i * (dw i -
          consVec (n := 2) (dw 0) 0 (dw 0) i) + dw i / dt) ⬝ᵥ φ.1.val ()) := by
    intro dw dm φ
    have h1 : ∀ᶠ r : ℝ in 𝓝 0, 0 < 1 + r * dw 0 := by
      have : ContinuousAt (fun r : ℝ => 1 + r * dw 0) 0 := by fun_prop
      exact this.eventually_const_lt (by simp)
    filter_upwards [h1] with r hr
    obtain ⟨u, hu, e⟩ := duct_residual dt t (w + r • dw) w w
      ((fun _ => z) + r • fun _ => consVec (n := 2) (dw 0) 0 (dw 0)) (fun _ => z) (fun _ => z) (0 + r • dm) 0 0 φ
    have e2 : ∀ b : Bool, (((fun _ => z) + r • fun _ => consVec (n := 2) (dw 0) 0 (dw 0)) : Bool → Fin 4 → ℝ) b
        = consVec (n := 2) (1 + r * dw 0) 0 (1 + r * dw 0) := fun b => wall _ _
    have e3 : (w + r • dw) 0 = 1 + r * dw 0 := by simp [hw]
    rw [e2, e2, e3, sub_self, well_fluxes _ hr, duct_walls _ _ hr, ← ductPoint_add] at e
    refine Eq.trans e ?_
    rw [← wall, hu, zero_dotProduct, zero_dotProduct]
    exact algebra w z dw _ u r
  have alongM : ∀ (dw : Fin 4 → ℝ) (k : Fin 4 → ℝ) (dm : Fin 5 → ℝ) (R : mixedTests ductMixedSpace),
      (fun r : ℝ => (F (ductStart + r • ductPoint dw (fun _ => k) dm)).2 R)
        = fun r => 0 + r * (![dm 0, 2 * dm 1, dm 2, dm 3, dm 4] ⬝ᵥ R.1.val ()) := by
    intro dw k dm R
    funext r
    have h1 := duct_mixed (Scheme.implicitEuler.quotient dt) t ductStart ductStart (w + r • dw)
      ((fun _ => z) + r • fun _ => k) (0 + r • dm) R rfl
    rw [← ductPoint_add] at h1
    refine Eq.trans h1 ?_
    simp [dotProduct, Fin.sum_univ_five]
    ring
  have residual : ∀ φ : wellSpaces.tests, (F ductStart).1 φ = (fun i => c i * (w i - z i)) ⬝ᵥ φ.1.val () := by
    intro φ
    have := (along 0 0 φ).self_of_nhds
    simpa using this
  have residualM : ∀ R : mixedTests ductMixedSpace, (F ductStart).2 R = 0 := by
    intro R
    have := congrFun (alongM 0 0 0 R) 0
    simpa using this
  have slope : ∀ (dw : Fin 4 → ℝ) (dm : Fin 5 → ℝ) (φ : wellSpaces.tests), HasDerivAt
      (fun r : ℝ => (F (ductStart + r • ductPoint dw (fun _ => consVec (n := 2) (dw 0) 0 (dw 0)) dm)).1 φ)
      ((fun i => c i * (dw i - consVec (n := 2) (dw 0) 0 (dw 0) i) + dw i / dt) ⬝ᵥ φ.1.val ()) 0 := by
    intro dw dm φ
    exact HasDerivAt.congr_of_eventuallyEq (line _ _) (along dw dm φ)
  have testOf : ∀ (u : Fin 4 → ℝ) (h : Bool → Fin 4 → ℝ), ∃ φ : wellSpaces.tests,
      φ.1.val () = u ∧ φ.1.hat = h := fun u h =>
    ⟨⟨⟨0, fun _ => u, fun _ => u, h⟩, ⟨u, rfl⟩, trivial⟩, rfl, rfl⟩
  have κ : ∀ i, c i / (c i + 1 / dt) * (c i + 1 / dt) = c i := fun i => div_mul_cancel₀ _ (hK i).ne'
  have w0 : w 0 - z 0 = 0 := by simp [hw, hz]
  have kz : consVec (n := 2) (0 : ℝ) 0 0 = 0 :=
    cons_ext (n := 2) rfl (fun i => by simp) (by simp only [consVec_last]; rfl)
  set dw : Fin 4 → ℝ := fun i => c i / (c i + 1 / dt) * (w i - z i) with hdw
  have dw0 : dw 0 = 0 := by simp only [hdw, w0, mul_zero]
  refine ⟨ductPoint dw (fun _ => consVec (n := 2) (dw 0) 0 (dw 0)) 0, ?_, ?_, ?_⟩
  · intro h
    have h2 : dw 2 = 0 :=
      congrArg (fun x : ViscousUnknowns wellSpaces ductMixedSpace => x.1.1.1.2.1 () 2) h
    have z2 : z 2 = 0 := rfl
    have w2 : w 2 = 1 := rfl
    simp only [hdw, z2, w2, sub_zero, mul_one] at h2
    exact (div_pos (c0 2) (hK 2)).ne' h2
  · rintro (φ | R)
    · show HasDerivAt _ ((F ductStart).1 φ) 0
      rw [residual]
      have : (fun i => c i * (w i - z i))
          = fun i => c i * (dw i - consVec (n := 2) (dw 0) 0 (dw 0) i) + dw i / dt := by
        funext i
        rw [dw0, kz, Pi.zero_apply]
        simp only [hdw]
        linear_combination (-(w i - z i)) * κ i
      rw [this]
      exact slope dw 0 φ
    · show HasDerivAt (fun r : ℝ => (F (ductStart + r • _)).2 R) ((F ductStart).2 R) 0
      rw [residualM, alongM]
      have := line 0 (![(0 : Fin 5 → ℝ) 0, 2 * (0 : Fin 5 → ℝ) 1, (0 : Fin 5 → ℝ) 2, (0 : Fin 5 → ℝ) 3,
        (0 : Fin 5 → ℝ) 4] ⬝ᵥ R.1.val ())
      have e0 : (![(0 : Fin 5 → ℝ) 0, 2 * (0 : Fin 5 → ℝ) 1, (0 : Fin 5 → ℝ) 2, (0 : Fin 5 → ℝ) 3,
        (0 : Fin 5 → ℝ) 4] ⬝ᵥ R.1.val ()) = 0 := by
        simp [dotProduct, Fin.sum_univ_five]
      rw [e0] at this ⊢
      exact this
  · intro δ' hδ'
    obtain ⟨dw', dz', dm', rfl⟩ := ductPoint_all δ'
    have hwall : ∀ b, dz' b = consVec (n := 2) (dw' 0) 0 (dw' 0) := by
      obtain ⟨φ, p1, p2⟩ := testOf 0 fun b => dz' b - consVec (n := 2) (dw' 0) 0 (dw' 0)
      have hd : HasDerivAt (fun r : ℝ => (F (ductStart + r • ductPoint dw' dz' dm')).1 φ)
        ((F ductStart).1 φ) 0 := hδ' (.inl φ)
      rw [residual, p1, dotProduct_zero] at hd
      have hlin : (fun r : ℝ => (F (ductStart + r • ductPoint dw' dz' dm')).1 φ)
          = fun r => r * ((dz' true - consVec (n := 2) (dw' 0) 0 (dw' 0)) ⬝ᵥ φ.1.hat true
            + (dz' false - consVec (n := 2) (dw' 0) 0 (dw' 0)) ⬝ᵥ φ.1.hat false) := by
        funext r
        obtain ⟨u, hu, e⟩ := duct_residual dt t (w + r • dw') w w ((fun _ => z) + r • dz') (fun _ => z)
          (fun _ => z) (0 + r • dm') 0 0 φ
        have e3 : (w + r • dw') 0 = 1 + r * dw' 0 := by simp [hw]
        have e1 : ∀ b, ((fun _ => z) + r • dz' : Bool → Fin 4 → ℝ) b - consVec (n := 2) (1 + r * dw' 0) 0 (1 + r * dw' 0)
            = r • (dz' b - consVec (n := 2) (dw' 0) 0 (dw' 0)) := by
          intro b
          rw [← wall, smul_sub]
          show z + r • dz' b - _ = _
          abel
        rw [e3, e1, e1, ← ductPoint_add, ← hu, p1, dotProduct_zero, dotProduct_zero, dotProduct_zero, sub_zero,
          zero_add, add_zero, smul_dotProduct, smul_dotProduct] at e
        refine Eq.trans e ?_
        simp only [smul_eq_mul]
        ring
      rw [hlin] at hd
      have h1 := line 0 ((dz' true - consVec (n := 2) (dw' 0) 0 (dw' 0)) ⬝ᵥ φ.1.hat true
        + (dz' false - consVec (n := 2) (dw' 0) 0 (dw' 0)) ⬝ᵥ φ.1.hat false)
      simp only [zero_add] at h1
      have h2 := hd.unique h1
      rw [p2] at h2
      have n1 : 0 ≤ (dz' true - consVec (n := 2) (dw' 0) 0 (dw' 0))
          ⬝ᵥ (dz' true - consVec (n := 2) (dw' 0) 0 (dw' 0)) :=
        Finset.sum_nonneg fun i _ => mul_self_nonneg _
      have n2 : 0 ≤ (dz' false - consVec (n := 2) (dw' 0) 0 (dw' 0))
          ⬝ᵥ (dz' false - consVec (n := 2) (dw' 0) 0 (dw' 0)) :=
        Finset.sum_nonneg fun i _ => mul_self_nonneg _
      intro b
      refine sub_eq_zero.1 (dotProduct_self_eq_zero.1 ?_)
      cases b <;> linarith
    have hdz : dz' = fun _ => consVec (n := 2) (dw' 0) 0 (dw' 0) := funext hwall
    rw [hdz] at hδ' ⊢
    have heq : ∀ i, c i * (dw' i - consVec (n := 2) (dw' 0) 0 (dw' 0) i) + dw' i / dt = c i * (w i - z i) := by
      intro i
      obtain ⟨φ, p1, -⟩ := testOf (Pi.single i 1) 0
      have hd : HasDerivAt (fun r : ℝ => (F (ductStart + r • ductPoint dw' (fun _ =>
        consVec (n := 2) (dw' 0) 0 (dw' 0)) dm')).1 φ) ((F ductStart).1 φ) 0 := hδ' (.inl φ)
      have h1 := (slope dw' dm' φ).unique hd
      rw [residual, p1, dotProduct_single, dotProduct_single, mul_one, mul_one] at h1
      exact h1
    have d0 : dw' 0 = 0 := by
      have h1 := heq 0
      rw [consVec_zero, sub_self, mul_zero, zero_add, w0, mul_zero] at h1
      exact (div_eq_zero_iff.1 h1).resolve_right hdt.ne'
    have e1 : dw' = dw := by
      funext i
      have h1 := heq i
      rw [d0, kz, Pi.zero_apply, sub_zero] at h1
      have h2 : (c i + 1 / dt) * dw' i = (c i + 1 / dt) * dw i := by
        simp only [hdw]
        linear_combination h1 - (w i - z i) * κ i
      exact mul_left_cancel₀ (hK i).ne' h2
    have e2 : dm' = 0 := by
      have hR : (⟨fun _ => dm', 0, fun _ => dm'⟩ : MixedTest Unit Bool) ∈ mixedTests ductMixedSpace := ⟨dm', rfl⟩
      have hd : HasDerivAt (fun r : ℝ => (F (ductStart + r • ductPoint dw' (fun _ =>
        consVec (n := 2) (dw' 0) 0 (dw' 0)) dm')).2 ⟨_, hR⟩) ((F ductStart).2 ⟨_, hR⟩) 0 := hδ' (.inr ⟨_, hR⟩)
      rw [residualM, alongM] at hd
      have h1 := hd.unique (line 0 _)
      simp only [dotProduct, Fin.sum_univ_five] at h1
      have h1' : 0 = dm' 0 * dm' 0 + 2 * dm' 1 * dm' 1 + dm' 2 * dm' 2 + dm' 3 * dm' 3 + dm' 4 * dm' 4 := h1
      have k : dm' 0 = 0 ∧ dm' 1 = 0 ∧ dm' 2 = 0 ∧ dm' 3 = 0 ∧ dm' 4 = 0 := by
        refine ⟨?_, ?_, ?_, ?_, ?_⟩ <;>
          nlinarith [mul_self_nonneg (dm' 0), mul_self_nonneg (dm' 1), mul_self_nonneg (dm' 2),
            mul_self_nonneg (dm' 3), mul_self_nonneg (dm' 4)]
      funext i
      fin_cases i
      · exact k.1
      · exact k.2.1
      · exact k.2.2.1
      · exact k.2.2.2.1
      · exact k.2.2.2.2
    rw [e1, e2]

theorem duct_fixed : wellMirror.FixesViscous ductStart := by
  refine ⟨well_fixed, ?_⟩
  have z : ∀ Q, rotMixed Q 0 = 0 := fun Q => by rw [rotMixed_eq, mulVec_zero]
  have z' : ∀ Q, rotMixedGrad Q (0 : Matrix (Fin 5) (Fin 2) ℝ) = 0 := by intro Q; simp [rotMixedGrad_eq]
  exact Prod.ext (funext fun v => z' _) (Prod.ext (funext fun v => z _) (funext fun b => z _))

/-- C115, concrete instance: viscous gas that moves along the walls of a duct and is slowed down by friction. Every
state of the run is its own mirror image: the gas never moves towards a wall, and there is no heat flux across
the duct. -/
example (s : Scheme) (tm : Timer) (ys : List (ℚ × ViscousUnknowns wellSpaces ductMixedSpace))
    (h : transientRun ductProblem s (onlyNewton viscousEquation (fun f d => HasDerivAt f d 0)
      fun x => AreGas (7 / 5) x.1) tm ductStart = .ok ys) :
    ∀ y ∈ ys, y.2.1.1.1.2.1 () 1 = 0 ∧ y.2.2.1.2.1 () 3 = 0 := by
  intro y hy
  have := C115_viscous duct_setup s hasDerivAt_local (onlyNewton_solves _ _ _ _ s) tm ductStart duct_fixed ys h
    y hy
  have h1 := congrFun (congrFun (congrArg (fun a : ElementFn 2 4 Unit Bool => a.2.1) this.1.1) ()) 1
  have h2 : rotVec wellMirror.Q (y.2.1.1.1.2.1 ()) 1 = -y.2.1.1.1.2.1 () 1 := by
    rw [rotVec_eq]
    simp [rotM, wellMirror, mulVec, dotProduct, Fin.sum_univ_four]
  have h3 : rotVec wellMirror.Q (y.2.1.1.1.2.1 ()) 1 = y.2.1.1.1.2.1 () 1 := h1
  have h4 := congrFun (congrFun (congrArg (fun a : ElementFn 2 5 Unit Bool => a.2.1) this.2) ()) 3
  have h5 : rotMixed wellMirror.Q (y.2.2.1.2.1 ()) 3 = -y.2.2.1.2.1 () 3 := by
    simp [rotMixed, wellMirror, mulVec, dotProduct, Fin.sum_univ_two]
  have h6 : rotMixed wellMirror.Q (y.2.2.1.2.1 ()) 3 = y.2.2.1.2.1 () 3 := h4
  exact ⟨by linarith, by linarith⟩

/-- The linear solver of the instance really changes the state in the first step of implicit Euler. -/
example (dt : ℝ) (hdt : 0 < dt) (t : ℚ) : ∃ δ, δ ≠ 0 ∧
    (onlyNewton viscousEquation (fun f d => HasDerivAt f d 0) fun x => AreGas (7 / 5) x.1).lin
      (ductProblem.stepEquation (Scheme.implicitEuler.quotient dt) t ductStart ductStart) 0 ductStart
      = (δ, some 1) := by
  obtain ⟨δ, h0, h1, h2⟩ := duct_solvable dt hdt t
  refine ⟨δ, h0, ?_⟩
  have hd : AreGas (7 / 5) ductStart.1 ∧ ∃ δ, SolvesByRule (fun f d => HasDerivAt f d 0) viscousEquation
      (ductProblem.stepEquation (Scheme.implicitEuler.quotient dt) t ductStart ductStart) ductStart δ ∧
      ∀ δ', SolvesByRule (fun f d => HasDerivAt f d 0) viscousEquation
        (ductProblem.stepEquation (Scheme.implicitEuler.quotient dt) t ductStart ductStart) ductStart δ' →
        δ' = δ :=
    ⟨well_gas, δ, h1, h2⟩
  simp only [onlyNewton]
  rw [dif_pos hd, h2 _ hd.2.choose_spec.1]

/-- C115, concrete instance: the forces of the viscous gas on the two walls cancel. -/
example : ∃ cl : Bool → ℝ, (∃ drag, (forceSensor "walls" 1 ['w'] 0 cl).measure wellMesh.integrateOver true
    = .ok [drag, 0]) := by
  have hS : IdealGas ductCfg.γ (gasOf (n := 2) (7 / 5) ![1, 0, 1, 2]) :=
    gasOf_ideal (n := 2) (γ := 7 / 5) (by norm_num) ((isGas_iff (n := 2) (by norm_num)).1 (well_gas.1 ()))
  have hf := gasOf_fields (n := 2) (γ := 7 / 5) (by norm_num) ((isGas_iff (n := 2) (by norm_num)).1 (well_gas.1 ()))
  have hcl : ∀ b, ∃ c, forceCoefficient ductCfg (conservativeDict (gasOf (n := 2) (7 / 5) ![1, 0, 1, 2]))
      (strainHeatFields (0 : Fin 5 → ℝ)) (conservativeDict (gasOf (n := 2) (7 / 5) ![1, 0, 1, 2]))
      (wellMesh.normal b) ![1, 0] = .ok c := by
    intro b
    simp [forceCoefficient, stressTensor, deviatoricStressTensor, pressure, EOS.pressure, conservativeDict, equation,
      equationE, kineticEnergy, ductCfg, viscosity, FlowCfg.referenceReynolds, FlowCfg.reynolds,
      strainRateTensor, strainHeatFields, Bind.bind, Except.bind]
  choose cl hcl using hcl
  refine ⟨cl, C115_viscous_no_lift (g := wellMirror) (x := ductStart) ductCfg_accepted (by simp [ductCfg])
    (by norm_num [ductCfg]) duct_setup.mesh duct_fixed well_gas (lift := ![1, 0]) ?_ (fun _ => rfl) _
    (fun b => ⟨_, hf, hcl b⟩) _ _ _⟩
  funext i
  fin_cases i <;> simp [wellMirror]

end Dream

end
