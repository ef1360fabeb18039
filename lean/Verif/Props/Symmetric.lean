import Verif.Spec.Symmetric
import Verif.Lemmas.FlowCoeffs
import Verif.Props.Rotation
import Verif.Props.Forces
import Verif.Props.Drift

/-!
# C115: symmetric problems have symmetric runs
-/

noncomputable section

namespace Dream

open Matrix _root_.Spec Filter Topology

/-! ## Symmetries of the equations of a step -/

section General

variable {ι X Y κ : Type} [AddCommGroup X] [Module ℝ X] [AddCommGroup Y]

/-- `σ` is a symmetry of the equations of all steps from states it fixes. -/
structure StepSymmetry (P : Problem ι X Y) (s : Scheme) (ev : κ → Y → ℝ) (good : X → Prop) (σ : X → X) :
    Prop where
  linear : ∀ x y (r : ℝ), σ (x + r • y) = σ x + r • σ y
  near : ∀ x δ, good x → ∀ᶠ r : ℝ in 𝓝 0, good (x + r • δ)
  eqn : ∀ j, ∃ j', ∀ (dt : ℝ) (t : ℚ) (cur prev x : X), σ cur = cur → σ prev = prev → good x →
    ev j (P.stepEquation (s.quotient dt) t cur prev (σ x))
      = ev j' (P.stepEquation (s.quotient dt) t cur prev x)

variable {P : Problem ι X Y} {s : Scheme} {ev : κ → Y → ℝ} {good : X → Prop} {σ : X → X}
  {D : (ℝ → ℝ) → ℝ → Prop} {N : Newton X Y}

theorem symmetric_update (hσ : StepSymmetry P s ev good σ) (hD : LocalRule D)
    (hN : N.SolvesOnly P s ev D good) (dt : ℝ) (t : ℚ) (cur prev : X) (hc : σ cur = cur)
    (hp : σ prev = prev) (it : ℕ) (x δ : X) (e : ℝ) (hx : σ x = x)
    (h : N.lin (P.stepEquation (s.quotient dt) t cur prev) it x = (δ, some e)) :
    σ (newtonUpdate N.damping x δ) = newtonUpdate N.damping x δ := by
  obtain ⟨hg, h1, h2⟩ := hN dt t cur prev it x δ e h
  have hδ : σ δ = δ := by
    refine h2 _ fun j => ?_
    obtain ⟨j', hj⟩ := hσ.eqn j
    have e0 : ev j (P.stepEquation (s.quotient dt) t cur prev x)
        = ev j' (P.stepEquation (s.quotient dt) t cur prev x) := by
      conv_lhs => rw [← hx]
      exact hj dt t cur prev x hc hp hg
    rw [e0]
    refine hD _ _ _ ?_ (h1 j')
    filter_upwards [hσ.near x δ hg] with r hr
    rw [← hj dt t cur prev _ hc hp hr, hσ.linear, hx]
  have e1 : newtonUpdate N.damping x δ = x + (-N.damping) • δ := by
    rw [newtonUpdate, neg_smul, sub_eq_add_neg]
  rw [e1, hσ.linear, hx, hδ]

theorem symmetric_run (hσ : StepSymmetry P s ev good σ) (hD : LocalRule D)
    (hN : N.SolvesOnly P s ev D good) (tm : Timer) (x0 : X) (h0 : σ x0 = x0) (ys : List (ℚ × X))
    (h : transientRun P s N tm x0 = .ok ys) : ∀ y ∈ ys, σ y.2 = y.2 := by
  cases hts : tm.run false 1 with
  | error e => rw [C61_timer_error P s N tm x0 e hts] at h; cases h
  | ok ts =>
    rw [C61_textbook_recursion P s N tm x0 ts hts] at h
    cases h
    suffices key : ∀ (l : List ℚ) (prev cur : X), σ prev = prev → σ cur = cur →
        ∀ x ∈ trajectory (fun t cur prev =>
          (N.solve (fun x => P.spatial t x + P.mass fun i =>
            s.quotient tm.step (P.comp x i) (P.comp cur i) (P.comp prev i)) cur).u)
          prev cur l, σ x = x by
      intro y hy
      exact key _ x0 x0 h0 h0 _ (List.of_mem_zip hy).2
    intro l
    induction l with
    | nil => intro prev cur _ _ x hx; simp [trajectory] at hx
    | cons t l ih =>
      intro prev cur hp hc x hx
      have h1 : σ (N.solve (fun x => P.spatial t x + P.mass fun i =>
            s.quotient tm.step (P.comp x i) (P.comp cur i) (P.comp prev i)) cur).u
          = (N.solve (fun x => P.spatial t x + P.mass fun i =>
            s.quotient tm.step (P.comp x i) (P.comp cur i) (P.comp prev i)) cur).u :=
        nlSolve_invariant _ _ _ _ _ (fun x => σ x = x) hc fun it x δ e hx hl =>
          symmetric_update hσ hD hN tm.step t cur prev hc hp it x δ e hx hl
      simp only [trajectory, List.mem_cons] at hx
      rcases hx with rfl | hx
      · exact h1
      · exact ih cur _ hc h1 x hx

theorem symmetric_pseudo (hσ : StepSymmetry P s ev good σ) (hD : LocalRule D)
    (hN : N.SolvesOnly P s ev D good) (ps : Pseudo) (t dt : ℚ) (x0 : X) (h0 : σ x0 = x0)
    (st : PseudoState ι X Y) (h : pseudoRun P s ps N t dt x0 = .ok st) : σ st.x = st.x := by
  simp only [pseudoRun, init_levelsOf] at h
  suffices key : ∀ n it (prev cur : X) (st st' : PseudoState ι X Y),
      st.levels = s.levelsOf (P.comp prev) (P.comp cur) → σ cur = cur → σ st.x = st.x →
      pseudoLoop P s ps N t n it st = .ok st' → σ st'.x = st'.x from
    key _ 0 x0 x0 _ st rfl h0 h0 h
  intro n
  induction n with
  | zero => intro it prev cur st st' _ _ hx h; cases h; exact hx
  | succ n ih =>
    intro it prev cur st st' hl hc hx h
    cases hu : ps.update st.dt it with
    | error e =>
      simp only [pseudoLoop, hl, timeStep_levelsOf, hu] at h
      cases h
    | ok dt' =>
      rw [pseudoLoop_succ P s ps N t n it prev cur st dt' hl hu] at h
      simp only at h
      cases hlin : N.lin (P.stepEquation (s.quotient dt') t st.x cur) it st.x with
      | mk δ e =>
        rw [hlin] at h
        cases e with
        | none => simp at h; rw [← h]; exact hx
        | some e =>
          have hx' := symmetric_update hσ hD hN dt' t st.x cur hx hc it st.x δ e hx hlin
          simp only [Option.isNone_some, Bool.false_eq_true, if_false] at h
          split_ifs at h with hcv
          · cases h; exact hx'
          · exact ih (it + 1) cur st.x _ st' rfl hx hx' h

end General

/-! ## The discretisation -/

variable {V B : Type}

/-- A test function moved. -/
def Motion.test (g : Motion V B) (φ : HdgTest 2 4 V B) : HdgTest 2 4 V B where
  grad := fun v => rotFlux g.Q (φ.grad (g.onV.symm v))
  val := fun v => rotVec g.Q (φ.val (g.onV.symm v))
  trace := fun b => rotVec g.Q (φ.trace (g.onB.symm b))
  hat := fun b => rotVec g.Q (φ.hat (g.onB.symm b))

theorem rotVec_adjoint (Q : Matrix (Fin 2) (Fin 2) ℝ) (w z : Fin 4 → ℝ) :
    rotVec Q w ⬝ᵥ z = w ⬝ᵥ rotVec Qᵀ z := by
  rw [rotVec_eq, rotVec_eq, rotM_transpose, dotProduct_mulVec, vecMul_transpose]

theorem rotFlux_adjoint (Q : Matrix (Fin 2) (Fin 2) ℝ) (A C : Matrix (Fin 4) (Fin 2) ℝ) :
    frobenius (rotFlux Q A) C = frobenius A (rotFlux Qᵀ C) := by
  rw [frobenius_eq, frobenius_eq, rotFlux_eq, rotFlux_eq, rotM_transpose, transpose_mul, transpose_mul,
    transpose_transpose, Matrix.mul_assoc, trace_mul_comm]
  simp only [Matrix.mul_assoc]

theorem Motion.KeepsSpaces.test {g : Motion V B} {P : HdgSpaces 2 4 V B} (h : g.KeepsSpaces P)
    {φ : HdgTest 2 4 V B} (hφ : φ ∈ P.tests) : g.inv.test φ ∈ P.tests :=
  ⟨h.elementBack _ hφ.1, h.facetBack _ hφ.2⟩

/-- A state moved. -/
def Motion.state (g : Motion V B) (x : HdgState 2 4 V B) : HdgState 2 4 V B where
  U := fun v => rotVec g.Q (x.U (g.onV.symm v))
  F := fun v => rotFlux g.Q (x.F (g.onV.symm v))
  G := fun v => rotFlux g.Q (x.G (g.onV.symm v))
  Fn := fun b => rotVec g.Q (x.Fn (g.onB.symm b))
  Gn := fun b => rotVec g.Q (x.Gn (g.onB.symm b))
  R := fun b => rotVec g.Q (x.R (g.onB.symm b))
  source := fun v => rotVec g.Q (x.source (g.onV.symm v))

section Forms

variable [Fintype V] [Fintype B] {g : Motion V B} {M : HdgMesh 2 V B} {mask : B → ℝ}

theorem timeForm_moved (hg : g.Keeps M mask) (dU : V → Fin 4 → ℝ) (φ : HdgTest 2 4 V B) :
    timeForm M (fun v => rotVec g.Q (dU (g.onV.symm v))) φ = timeForm M dU (g.inv.test φ) := by
  simp only [timeForm]
  rw [← Equiv.sum_comp g.onV]
  simp only [Equiv.symm_apply_apply, hg.volume, rotVec_adjoint]
  rfl

theorem boundaryForm_moved (hg : g.Keeps M mask) (R : B → Fin 4 → ℝ) (φ : HdgTest 2 4 V B) :
    boundaryForm M (fun b => rotVec g.Q (R (g.onB.symm b))) φ = boundaryForm M R (g.inv.test φ) := by
  simp only [boundaryForm]
  rw [← Equiv.sum_comp g.onB]
  simp only [Equiv.symm_apply_apply, hg.boundary, rotVec_adjoint]
  rfl

theorem convectionForm_moved (hg : g.Keeps M mask) (F : V → Matrix (Fin 4) (Fin 2) ℝ) (Fn : B → Fin 4 → ℝ)
    (φ : HdgTest 2 4 V B) :
    convectionForm M mask (fun v => rotFlux g.Q (F (g.onV.symm v)))
      (fun b => rotVec g.Q (Fn (g.onB.symm b))) φ = convectionForm M mask F Fn (g.inv.test φ) := by
  simp only [convectionForm]
  rw [← Equiv.sum_comp g.onV, ← Equiv.sum_comp g.onB,
    ← Equiv.sum_comp g.onB (fun b => M.wB b * (-mask b * _))]
  simp only [Equiv.symm_apply_apply, hg.boundary, hg.volume, hg.mask, rotVec_adjoint, rotFlux_adjoint]
  rfl

theorem diffusionForm_moved (hg : g.Keeps M mask) (F : V → Matrix (Fin 4) (Fin 2) ℝ) (Fn : B → Fin 4 → ℝ)
    (φ : HdgTest 2 4 V B) :
    diffusionForm M mask (fun v => rotFlux g.Q (F (g.onV.symm v)))
      (fun b => rotVec g.Q (Fn (g.onB.symm b))) φ = diffusionForm M mask F Fn (g.inv.test φ) := by
  simp only [diffusionForm]
  rw [← Equiv.sum_comp g.onV, ← Equiv.sum_comp g.onB,
    ← Equiv.sum_comp g.onB (fun b => M.wB b * (mask b * _))]
  simp only [Equiv.symm_apply_apply, hg.boundary, hg.volume, hg.mask, rotVec_adjoint, rotFlux_adjoint]
  rfl

theorem residual_moved (hg : g.Keeps M mask) (z : HdgState 2 4 V B) (dU : V → Fin 4 → ℝ)
    (φ : HdgTest 2 4 V B) :
    convectionForm M mask (g.state z).F (g.state z).Fn φ + diffusionForm M mask (g.state z).G (g.state z).Gn φ
      + boundaryForm M (g.state z).R φ + timeForm M (g.state z).source φ
      + timeForm M (fun v => rotVec g.Q (dU (g.onV.symm v))) φ
    = convectionForm M mask z.F z.Fn (g.inv.test φ) + diffusionForm M mask z.G z.Gn (g.inv.test φ)
      + boundaryForm M z.R (g.inv.test φ) + timeForm M z.source (g.inv.test φ)
      + timeForm M dU (g.inv.test φ) := by
  have h1 := convectionForm_moved hg z.F z.Fn φ
  have h2 := diffusionForm_moved hg z.G z.Gn φ
  have h3 := boundaryForm_moved hg z.R φ
  have h4 := timeForm_moved hg z.source φ
  have h5 := timeForm_moved hg dU φ
  rw [← h1, ← h2, ← h3, ← h4, ← h5]
  rfl

end Forms

/-! ## Fluxes and conditions of the moved state -/

variable {γ : ℝ}

theorem rotVec_isGas {Q : Matrix (Fin 2) (Fin 2) ℝ} (hQ : Orthogonal Q) {w : Fin 4 → ℝ}
    (h : IsGas (n := 2) γ w) : ∃ S, IdealGas γ S ∧ w = gasVec S ∧ IdealGas γ (S.rotate Q) ∧
      rotVec Q w = gasVec (S.rotate Q) := by
  obtain ⟨S, hS, rfl⟩ := h
  exact ⟨S, hS, rfl, hS.rotate hQ, (gasVec_rotate Q S).symm⟩

/-- The state of the moved functions is the moved state. -/
theorem moved_flow {rs : Riemann} {M : HdgMesh 2 V B} {mask : B → ℝ} {cond : B → OuterCond} {p : V → ℝ}
    {target : GasState 2} {g : Motion V B} (hg : g.Keeps M mask)
    (hn : ∀ b, M.normal b 0 ^ 2 + M.normal b 1 ^ 2 = 1)
    (hc : g.KeepsConditions mask cond p target) {x y : HdgState 2 4 V B} {a : ElementFn 2 4 V B}
    {ζ : B → Fin 4 → ℝ} (h1 : ∀ v, IsGas (n := 2) γ (a.2.1 v)) (h2 : ∀ b, IsGas (n := 2) γ (a.2.2 b))
    (h3 : ∀ b, IsGas (n := 2) γ (ζ b))
    (hx : x.IsOuterFlow γ rs M mask cond p target a ζ)
    (hy : y.IsOuterFlow γ rs M mask cond p target (g.element a) (g.facet ζ)) : y = g.state x := by
  have hQ := hg.orthogonal
  have eU : y.U = fun v => rotVec g.Q (x.U (g.onV.symm v)) := by rw [hy.values, hx.values]; rfl
  have eF : y.F = fun v => rotFlux g.Q (x.F (g.onV.symm v)) := by
    funext v
    obtain ⟨S, hS, e1, hS', e2⟩ := rotVec_isGas hQ (h1 (g.onV.symm v))
    obtain ⟨U, f1, f2⟩ := hx.euler.flux (g.onV.symm v)
    obtain ⟨U', f3, f4⟩ := hy.euler.flux v
    rw [hx.values, e1, fields_vec hS] at f1
    rw [show y.U v = gasVec (S.rotate g.Q) by rw [eU, ← e2, hx.values], fields_vec hS'] at f3
    cases f1
    cases f3
    refine rotFlux_apply hQ fun d => ?_
    obtain ⟨F₁, F₂, e3, e4, e5⟩ := C76_convective hQ hS d
    rw [f2] at e3
    rw [f4] at e4
    cases e3
    cases e4
    exact e5
  have eN : y.Fn = fun b => rotVec g.Q (x.Fn (g.onB.symm b)) := by
    funext b
    obtain ⟨S, hS, e1, hS', e2⟩ := rotVec_isGas hQ (h3 (g.onB.symm b))
    obtain ⟨U, f1, f2⟩ := hx.euler.numerical (g.onB.symm b)
    obtain ⟨U', f3, f4⟩ := hy.euler.numerical b
    rw [e1, fields_vec hS] at f1
    rw [show g.facet ζ b = gasVec (S.rotate g.Q) from e2, fields_vec hS'] at f3
    cases f1
    cases f3
    obtain ⟨f, e3, e4⟩ := C76_numerical hQ hS rs (hn (g.onB.symm b)) (a.2.2 (g.onB.symm b))
      (ζ (g.onB.symm b))
    rw [f2] at e3
    cases e3
    rw [← hg.normal, Equiv.apply_symm_apply] at e4
    rw [show (g.element a).2.2 b = rotVec g.Q (a.2.2 (g.onB.symm b)) from rfl,
      show g.facet ζ b = rotVec g.Q (ζ (g.onB.symm b)) from rfl] at f4
    rw [e4] at f4
    exact (Except.ok.inj f4).symm
  have eR : y.R = fun b => rotVec g.Q (x.R (g.onB.symm b)) := by
    funext b
    have hm : mask (g.onB.symm b) = mask b := by
      conv_rhs => rw [← Equiv.apply_symm_apply g.onB b]
      exact (hg.mask _).symm
    rcases hc.mask01 b with m | m
    · have cx := hx.conditions (g.onB.symm b) (hm.trans m)
      have cy := hy.conditions b m
      have ce := hc.cond (g.onB.symm b) (hm.trans m)
      have cg := hc.given (g.onB.symm b) (hm.trans m)
      have hd := hg.normal (g.onB.symm b)
      rw [Equiv.apply_symm_apply] at ce hd
      rw [ce, hd, show (g.element a).2.2 b = rotVec g.Q (a.2.2 (g.onB.symm b)) from rfl,
        show g.facet ζ b = rotVec g.Q (ζ (g.onB.symm b)) from rfl] at cy
      generalize g.onB.symm b = b' at *
      obtain ⟨S, hS, e1, hS', e2⟩ := rotVec_isGas hQ (h2 b')
      obtain ⟨S₂, hS₂, e1₂, hS₂', e2₂⟩ := rotVec_isGas hQ (h3 b')
      have fx : conservativeFields (n := 2) γ (a.2.2 b') = .ok (conservativeDict S) := by
        rw [e1]; exact conservativeFields_gas hS
      have fy : conservativeFields (n := 2) γ (rotVec g.Q (a.2.2 b'))
          = .ok (conservativeDict (S.rotate g.Q)) := by
        rw [e2]; exact conservativeFields_gas hS'
      have fx₂ : conservativeFields (n := 2) γ (ζ b') = .ok (conservativeDict S₂) := by
        rw [e1₂]; exact conservativeFields_gas hS₂
      have fy₂ : conservativeFields (n := 2) γ (rotVec g.Q (ζ b'))
          = .ok (conservativeDict (S₂.rotate g.Q)) := by
        rw [e2₂]; exact conservativeFields_gas hS₂'
      have fin : ∀ {A A' : Except PyErr (Fin 4 → ℝ)}, (∃ R, A = .ok R ∧ A' = .ok (rotVec g.Q R)) →
          A = .ok (x.R b') → A' = .ok (y.R b) → y.R b = rotVec g.Q (x.R b') := by
        rintro A A' ⟨R, k1, k2⟩ k3 k4
        rw [k1] at k3
        rw [k2] at k4
        rw [← Except.ok.inj k4, Except.ok.inj k3]
      cases hcond : cond b' with
      | plain c =>
        rw [hcond] at cx cy cg
        simp only [OuterCond.turned, OuterCond.residual, fx, fy, Bind.bind, Except.bind] at cx cy
        cases c with
        | wall => exact fin (C76_wall hQ S (M.normal b') (ζ b')) cx cy
        | isothermal bc =>
          obtain ⟨T, hT⟩ := cg
          exact fin (C76_isothermal g.Q S hT (ζ b')) cx cy
        | outflow bc =>
          obtain ⟨T, hT⟩ := cg
          exact fin (C76_outflow g.Q S hT (ζ b')) cx cy
      | farfield i Sinf =>
        rw [hcond] at cx cy
        simp only [OuterCond.turned, OuterCond.residual, fx₂, fy₂, Bind.bind, Except.bind] at cx cy
        exact fin (C76_farfield hQ S₂ Sinf i (M.normal b') (a.2.2 b') (ζ b')) cx cy
    · rw [hy.inside b m, hx.inside _ (hm.trans m), rotVec_eq, mulVec_zero]
  have eS : y.source = fun v => rotVec g.Q (x.source (g.onV.symm v)) := by
    funext v
    have hp : p v = p (g.onV.symm v) := by
      conv_lhs => rw [← Equiv.apply_symm_apply g.onV v]
      exact hc.profile _
    obtain ⟨R, k1, k2⟩ := C76_sponge (γ := γ) (Q := g.Q) (p (g.onV.symm v)) target (x.U (g.onV.symm v))
    have k3 := hx.sponge (g.onV.symm v)
    have k4 := hy.sponge v
    rw [k1] at k3
    rw [hp, eU] at k4
    rw [hc.target] at k2
    rw [k2] at k4
    rw [← Except.ok.inj k4, Except.ok.inj k3]
  have z : rotFlux g.Q (0 : Matrix (Fin 4) (Fin 2) ℝ) = 0 := by simp [rotFlux_eq]
  have z' : rotVec g.Q (0 : Fin 4 → ℝ) = 0 := by simp [rotVec_eq]
  have eG : y.G = fun v => rotFlux g.Q (x.G (g.onV.symm v)) := by
    rw [hy.euler.inviscid.1, hx.euler.inviscid.1]; funext v; exact z.symm
  have eGn : y.Gn = fun b => rotVec g.Q (x.Gn (g.onB.symm b)) := by
    rw [hy.euler.inviscid.2, hx.euler.inviscid.2]; funext v; exact z'.symm
  cases y
  simp only at eU eF eN eR eS eG eGn
  subst eU eF eN eR eS eG eGn
  rfl

/-! ## Symmetric runs -/

theorem Motion.element_linear (g : Motion V B) (a c : ElementFn 2 4 V B) (r : ℝ) :
    g.element (a + r • c) = g.element a + r • g.element c := by
  have h1 : ∀ w z : Fin 4 → ℝ, rotVec g.Q (w + r • z) = rotVec g.Q w + r • rotVec g.Q z := by
    intro w z; rw [rotVec_add, rotVec_smul]
  refine Prod.ext ?_ (Prod.ext ?_ ?_)
  · funext v
    show rotFlux g.Q (Matrix.of (a.1 (g.onV.symm v)) + r • Matrix.of (c.1 (g.onV.symm v)))
      = rotFlux g.Q (Matrix.of (a.1 (g.onV.symm v))) + r • rotFlux g.Q (Matrix.of (c.1 (g.onV.symm v)))
    simp only [rotFlux_eq, Matrix.mul_add, Matrix.add_mul, Matrix.mul_smul, Matrix.smul_mul]
  · funext v; exact h1 _ _
  · funext b; exact h1 _ _

theorem Motion.facet_linear (g : Motion V B) (a c : B → Fin 4 → ℝ) (r : ℝ) :
    g.facet (a + r • c) = g.facet a + r • g.facet c := by
  funext b
  show rotVec g.Q (_ + r • _) = _
  rw [rotVec_add, rotVec_smul]
  rfl

/-- The motion of the unknowns. -/
def Motion.move (g : Motion V B) {P : HdgSpaces 2 4 V B} (h : g.KeepsSpaces P) (x : P.element × P.facet) :
    P.element × P.facet :=
  (⟨g.element x.1.1, h.element _ x.1.2⟩, ⟨g.facet x.2.1, h.facet _ x.2.2⟩)

theorem Motion.fixes_iff {g : Motion V B} {P : HdgSpaces 2 4 V B} (h : g.KeepsSpaces P)
    (x : P.element × P.facet) : g.Fixes x ↔ g.move h x = x := by
  simp only [Motion.Fixes, Motion.move, Prod.ext_iff, Subtype.ext_iff]

/-- Near a gas there are only gases. -/
theorem areGas_near (hγ : 1 < γ) [Finite V] [Finite B] {P : HdgSpaces 2 4 V B} (x δ : P.element × P.facet)
    (h : AreGas γ x) : ∀ᶠ r : ℝ in 𝓝 0, AreGas γ (x + r • δ) := by
  have key : ∀ w z : Fin 4 → ℝ, IsGas (n := 2) γ w → ∀ᶠ r : ℝ in 𝓝 0, IsGas (n := 2) γ (w + r • z) := by
    intro w z hw
    have hc : ContinuousAt (fun r : ℝ => w + r • z) 0 :=
      continuousAt_const.add (continuousAt_id.smul continuousAt_const)
    have := hc.eventually (p := GasVec (n := 2)) (by
      simpa using gasVec_nhds (n := 2) ((isGas_iff (n := 2) hγ).1 hw))
    filter_upwards [this] with r hr
    exact (isGas_iff (n := 2) hγ).2 hr
  have e1 := eventually_all.2 fun v => key (x.1.1.2.1 v) (δ.1.1.2.1 v) (h.1 v)
  have e2 := eventually_all.2 fun b => key (x.1.1.2.2 b) (δ.1.1.2.2 b) (h.2.1 b)
  have e3 := eventually_all.2 fun b => key (x.2.1 b) (δ.2.1 b) (h.2.2 b)
  filter_upwards [e1, e2, e3] with r h1 h2 h3
  exact ⟨h1, h2, h3⟩

/-- What a user sets up: a mesh, conditions, sponge layers and spaces with a symmetry. -/
structure SymmetricSetup (γ : ℝ) (rs : Riemann) (M : HdgMesh 2 V B) (mask : B → ℝ) (cond : B → OuterCond)
    (p : V → ℝ) (target : GasState 2) (P : HdgSpaces 2 4 V B)
    (st : ℚ → P.element × P.facet → HdgState 2 4 V B) (g : Motion V B) : Prop where
  gamma : 1 < γ
  unit : ∀ b, M.normal b 0 ^ 2 + M.normal b 1 ^ 2 = 1
  mesh : g.Keeps M mask
  spaces : g.KeepsSpaces P
  conditions : g.KeepsConditions mask cond p target
  states : ∀ t x, AreGas γ x → (st t x).IsOuterFlow γ rs M mask cond p target x.1.1 x.2.1

section Runs

variable [Fintype V] [Fintype B] {rs : Riemann} {M : HdgMesh 2 V B} {mask : B → ℝ}
  {cond : B → OuterCond} {p : V → ℝ} {target : GasState 2} {P : HdgSpaces 2 4 V B}
  {st : ℚ → P.element × P.facet → HdgState 2 4 V B} {g : Motion V B}

theorem move_areGas (hs : SymmetricSetup γ rs M mask cond p target P st g) (x : P.element × P.facet)
    (h : AreGas γ x) : AreGas γ (g.move hs.spaces x) := by
  have key : ∀ w : Fin 4 → ℝ, IsGas (n := 2) γ w → IsGas (n := 2) γ (rotVec g.Q w) := by
    intro w hw
    obtain ⟨S, -, -, h1, h2⟩ := rotVec_isGas hs.mesh.orthogonal hw
    exact ⟨_, h1, h2⟩
  exact ⟨fun v => key _ (h.1 _), fun b => key _ (h.2.1 _), fun b => key _ (h.2.2 _)⟩

theorem quotient_moved (g : Motion V B) (s : Scheme) (dt : ℝ) (w c q : Fin 4 → ℝ) :
    (fun i => s.quotient dt (rotVec g.Q w i) (rotVec g.Q c i) (rotVec g.Q q i))
      = rotVec g.Q fun i => s.quotient dt (w i) (c i) (q i) := by
  funext i
  simp only [rotVec_eq]
  cases s
  · simp only [Scheme.quotient, backwardEuler, mulVec, dotProduct, Fin.sum_univ_four]
    ring
  · simp only [Scheme.quotient, backward2, mulVec, dotProduct, Fin.sum_univ_four]
    ring

theorem setup_symmetry (hs : SymmetricSetup γ rs M mask cond p target P st g) (s : Scheme) :
    StepSymmetry (hdgProblem M mask P.tests st fun x => x.1.1.2.1) s (fun φ y => y φ) (AreGas γ)
      (g.move hs.spaces) where
  linear := by
    intro x y r
    refine Prod.ext (Subtype.ext ?_) (Subtype.ext ?_)
    · exact g.element_linear _ _ _
    · exact g.facet_linear _ _ _
  near := fun x δ h => areGas_near hs.gamma x δ h
  eqn := by
    rintro ⟨φ, hφ⟩
    refine ⟨⟨g.inv.test φ, hs.spaces.test hφ⟩, fun dt t cur prev x hc hp hx => ?_⟩
    have e := moved_flow hs.mesh hs.unit hs.conditions hx.1 hx.2.1 hx.2.2 (hs.states t x hx)
      (hs.states t (g.move hs.spaces x) (move_areGas hs x hx))
    have eq : (fun v i => s.quotient dt ((g.move hs.spaces x).1.1.2.1 v i) (cur.1.1.2.1 v i)
          (prev.1.1.2.1 v i))
        = fun v => rotVec g.Q ((fun v i => s.quotient dt (x.1.1.2.1 v i) (cur.1.1.2.1 v i)
          (prev.1.1.2.1 v i)) (g.onV.symm v)) := by
      funext v
      conv_lhs => rw [← hc, ← hp]
      exact quotient_moved g s dt _ _ _
    have r := residual_moved hs.mesh (st t x) (fun v i => s.quotient dt (x.1.1.2.1 v i)
      (cur.1.1.2.1 v i) (prev.1.1.2.1 v i)) φ
    rw [← e, ← eq] at r
    exact r

/-- **C115** Mesh, conditions, sponge layers and spaces have a symmetry, a rotation or a reflection. Then every
run that starts from a symmetric state yields symmetric states only, for both schemes, all Riemann solvers and any
damping, whether Newton's method converges, stops at its limit or breaks off with NaN. -/
theorem C115_symmetric (hs : SymmetricSetup γ rs M mask cond p target P st g) (s : Scheme)
    {D : (ℝ → ℝ) → ℝ → Prop} (hD : LocalRule D) {N : Newton (P.element × P.facet) (P.tests → ℝ)}
    (hN : N.SolvesOnly (hdgProblem M mask P.tests st fun x => x.1.1.2.1) s (fun φ y => y φ) D (AreGas γ))
    (tm : Timer) (x0 : P.element × P.facet) (h0 : g.Fixes x0) (ys : List (ℚ × (P.element × P.facet)))
    (h : transientRun (hdgProblem M mask P.tests st fun x => x.1.1.2.1) s N tm x0 = .ok ys) :
    ∀ y ∈ ys, g.Fixes y.2 := by
  intro y hy
  exact (Motion.fixes_iff hs.spaces _).2 (symmetric_run (setup_symmetry hs s) hD hN tm x0
    ((Motion.fixes_iff hs.spaces _).1 h0) ys h y hy)

/-- **C115** The same for pseudo time stepping. -/
theorem C115_pseudo (hs : SymmetricSetup γ rs M mask cond p target P st g) (s : Scheme)
    {D : (ℝ → ℝ) → ℝ → Prop} (hD : LocalRule D) {N : Newton (P.element × P.facet) (P.tests → ℝ)}
    (hN : N.SolvesOnly (hdgProblem M mask P.tests st fun x => x.1.1.2.1) s (fun φ y => y φ) D (AreGas γ))
    (ps : Pseudo) (t dt : ℚ) (x0 : P.element × P.facet) (h0 : g.Fixes x0)
    (r : PseudoState (V × Fin 4) (P.element × P.facet) (P.tests → ℝ))
    (h : pseudoRun (hdgProblem M mask P.tests st fun x => x.1.1.2.1) s ps N t dt x0 = .ok r) :
    g.Fixes r.x :=
  (Motion.fixes_iff hs.spaces _).2 (symmetric_pseudo (setup_symmetry hs s) hD hN ps t dt x0
    ((Motion.fixes_iff hs.spaces _).1 h0) r h)

/-- **C115** A body that is symmetric to the direction of the flow has no lift: in a state that a reflection fixes
which turns the direction of the lift around, a boundary sensor on a region that the reflection maps to itself
writes exactly zero. -/
theorem C115_no_lift {cfg : FlowCfg} (hi : cfg.visc = .inviscid) (hg : g.Keeps M mask)
    {x : P.element × P.facet} (hx : g.Fixes x) (hgas : AreGas cfg.γ x) {lift : Fin 2 → ℝ}
    (hl : 0 < lift ⬝ᵥ lift) (hlift : g.Q *ᵥ lift = -lift) {body : Name}
    (hbody : ∀ b, M.onRegion body (g.onB b) = M.onRegion body b)
    {R : GasState 2} (hR : IdealGas cfg.γ R) (hu : 0 < R.u ⬝ᵥ R.u) {dU : B → Grads 2} {cd cl : B → ℝ}
    (hcl : ∀ b, ∃ U, conservativeFields (n := 2) cfg.γ (x.1.1.2.2 b) = .ok U ∧
      forceCoefficient cfg U (dU b) (conservativeDict R) (M.normal b) lift = .ok (cl b))
    (name : String) (rate : ℕ) (plain : Bool) :
    ∃ drag, (forceSensor name rate body cd cl).measure M.integrateOver plain = .ok [drag, 0] := by
  refine ⟨M.integrateOver cd body, ?_⟩
  rw [forceSensor_measure]
  have hodd : ∀ b, cl (g.onB b) = -cl b := by
    intro b
    obtain ⟨S, hS, e1, hS', e2⟩ := rotVec_isGas hg.orthogonal (hgas.2.1 b)
    obtain ⟨U, f1, f2⟩ := hcl b
    obtain ⟨U', f3, f4⟩ := hcl (g.onB b)
    have hb : x.1.1.2.2 (g.onB b) = gasVec (S.rotate g.Q) := by
      conv_lhs => rw [← hx.1]
      show rotVec g.Q (x.1.1.2.2 (g.onB.symm (g.onB b))) = _
      rw [Equiv.symm_apply_apply]
      exact e2
    have q1 : conservativeFields (n := 2) cfg.γ (gasVec S) = .ok (conservativeDict S) :=
      conservativeFields_gas hS
    have q2 : conservativeFields (n := 2) cfg.γ (gasVec (S.rotate g.Q))
        = .ok (conservativeDict (S.rotate g.Q)) := conservativeFields_gas hS'
    rw [e1, q1] at f1
    rw [hb, q2] at f3
    cases f1
    cases f3
    have k1 := coefficient_force hS hR hu (Or.inl ⟨hi, rfl⟩) hl f2
    have k2 := coefficient_force hS' hR hu (Or.inl ⟨hi, rfl⟩) hl f4
    have hd : M.normal (g.onB b) ⬝ᵥ lift = -(M.normal b ⬝ᵥ lift) := by
      have := hg.orthogonal.dot (M.normal b) lift
      rw [hlift, dotProduct_neg] at this
      rw [hg.normal]
      linarith
    rw [hd] at k2
    have hk : (0 : ℝ) < √(lift ⬝ᵥ lift) * (1 / 2 * R.rho * (R.u ⬝ᵥ R.u)) :=
      mul_pos (Real.sqrt_pos.2 hl) (mul_pos (mul_pos (by norm_num) hR.rho_pos) hu)
    refine mul_left_cancel₀ hk.ne' ?_
    have k3 := mul_neg (√(lift ⬝ᵥ lift) * (1 / 2 * R.rho * (R.u ⬝ᵥ R.u))) (cl b)
    rw [k2, k3, k1]
    simp only [zero_mulVec, zero_dotProduct]
    show -(S.p * -(M.normal b ⬝ᵥ lift)) + 0 = -(-(S.p * (M.normal b ⬝ᵥ lift)) + 0)
    ring
  have hz : M.integrateOver cl body = -M.integrateOver cl body := by
    conv_lhs => rw [HdgMesh.integrateOver, ← Equiv.sum_comp g.onB]
    rw [HdgMesh.integrateOver, ← Finset.sum_neg_distrib]
    refine Finset.sum_congr rfl fun b _ => ?_
    rw [hbody, hg.boundary, hodd]
    split_ifs <;> simp
  rw [show M.integrateOver cl body = 0 by linarith]

end Runs

/-! ## A case: gas between two walls -/

open Classical in
/-- A linear solver that returns the solution of the linearised equations at a gas where there is exactly one,
and NaN otherwise; half steps, and a criterion that is never met. -/
def onlyNewton {X Y κ : Type} [AddCommGroup X] [Module ℝ X] (ev : κ → Y → ℝ) (D : (ℝ → ℝ) → ℝ → Prop)
    (good : X → Prop) : Newton X Y where
  lin := fun F _ x => if h : good x ∧ ∃ δ, SolvesByRule D ev F x δ ∧ ∀ δ', SolvesByRule D ev F x δ' → δ' = δ
    then (h.2.choose, some 1) else (0, none)
  damping := 1 / 2
  crit := 0
  maxIter := 3

theorem onlyNewton_solves {ι X Y κ : Type} [AddCommGroup X] [Module ℝ X] [AddCommGroup Y] (ev : κ → Y → ℝ)
    (D : (ℝ → ℝ) → ℝ → Prop) (good : X → Prop) (P : Problem ι X Y) (s : Scheme) :
    (onlyNewton ev D good).SolvesOnly P s ev D good := by
  intro dt t cur prev it x δ e h
  simp only [onlyNewton] at h
  split_ifs at h with hd
  · cases h
    exact ⟨hd.1, hd.2.choose_spec.1, hd.2.choose_spec.2⟩
  · cases h

theorem hasDerivAt_local : LocalRule fun f d => HasDerivAt f d 0 :=
  fun _ _ _ h hf => hf.congr_of_eventuallyEq h.symm

/-- One element between two isothermal walls. -/
def wellMesh : HdgMesh 2 Unit Bool :=
  ⟨fun _ => 1, fun _ => 1, fun b => ![if b then 1 else -1, 0], fun _ => some ['w']⟩

/-- The reflection that exchanges the walls. -/
def wellMirror : Motion Unit Bool := ⟨!![-1, 0; 0, 1], Equiv.refl _, ⟨not, not, Bool.not_not, Bool.not_not⟩⟩

/-- Constants in the element, anything on the walls. -/
def wellSpaces : HdgSpaces 2 4 Unit Bool where
  element :=
    { carrier := {a | ∃ w : Fin 4 → ℝ, a = (0, fun _ => w, fun _ => w)}
      add_mem' := by
        rintro _ _ ⟨w, rfl⟩ ⟨z, rfl⟩
        exact ⟨w + z, by ext <;> simp⟩
      zero_mem' := ⟨0, rfl⟩
      smul_mem' := by
        rintro r _ ⟨w, rfl⟩
        exact ⟨r • w, by ext <;> simp⟩ }
  facet := ⊤

/-- Fluxes by the method of Lax and Friedrichs, both walls have the temperature `7 / 5`. -/
def wellState (_t : ℚ) (x : wellSpaces.element × wellSpaces.facet) : HdgState 2 4 Unit Bool where
  U := x.1.1.2.1
  F := fun v => Matrix.of (pointFlux (n := 2) (7 / 5) (x.1.1.2.1 v))
  G := 0
  Fn := fun b => pointNumerical (n := 2) (7 / 5) .laxFriedrich (wellMesh.normal b) (x.1.1.2.2 b, x.2.1 b)
  Gn := 0
  R := fun b => x.2.1 b - consVec (n := 2) (x.1.1.2.2 b 0) 0 (x.1.1.2.2 b 0)
  source := 0

theorem well_flow (t : ℚ) (x : wellSpaces.element × wellSpaces.facet) (hx : AreGas (7 / 5) x) :
    (wellState t x).IsOuterFlow (7 / 5) .laxFriedrich wellMesh (fun _ => 0)
      (fun _ => .plain (.isothermal { T := some (7 / 5) })) (fun _ => 0) (GasState.of (7 / 5) 1 0 1)
      x.1.1 x.2.1 where
  values := rfl
  euler :=
    { flux := by
        intro v
        have hw := (isGas_iff (n := 2) (by norm_num)).1 (hx.1 v)
        have h1 := fields_vec (gasOf_ideal (n := 2) (γ := 7 / 5) (by norm_num) hw)
        rw [show gasVec (gasOf (n := 2) (7 / 5) (x.1.1.2.1 v)) = x.1.1.2.1 v from gasOf_vec hw] at h1
        exact ⟨_, h1, pointFlux_eq (by norm_num) hw⟩
      numerical := by
        intro b
        have hw := (isGas_iff (n := 2) (by norm_num)).1 (hx.2.2 b)
        have h1 := fields_vec (gasOf_ideal (n := 2) (γ := 7 / 5) (by norm_num) hw)
        rw [show gasVec (gasOf (n := 2) (7 / 5) (x.2.1 b)) = x.2.1 b from gasOf_vec hw] at h1
        exact ⟨_, h1, pointNumerical_eq (by norm_num) (Or.inl rfl) _ _ hw⟩
      inviscid := ⟨rfl, rfl⟩ }
  inside := fun b h => by norm_num at h
  conditions := by
    intro b _
    have hw := (isGas_iff (n := 2) (by norm_num)).1 (hx.2.1 b)
    have h1 := gasOf_fields (n := 2) (γ := 7 / 5) (by norm_num) hw
    simp only [OuterCond.residual, FacetCond.residual, h1, Bind.bind, Except.bind]
    simp [isothermalWallResidual, given, conservativeDict, density, EOS.density, momentum,
      innerEnergy, EOS.innerEnergy, equation, equationE, Bind.bind, Except.bind, gasOf, GasState.of, wellState]
    rfl
  sponge := by
    intro v
    simp [spongeResidual, stateVec_dict, Bind.bind, Except.bind, wellState]

theorem well_setup : SymmetricSetup (7 / 5) .laxFriedrich wellMesh (fun _ => 0)
    (fun _ => .plain (.isothermal { T := some (7 / 5) })) (fun _ => 0) (GasState.of (7 / 5) 1 0 1)
    wellSpaces wellState wellMirror where
  gamma := by norm_num
  unit := by intro b; cases b <;> simp [wellMesh]
  mesh :=
    { orthogonal := by
        simp only [Orthogonal, wellMirror]
        ext i j; fin_cases i <;> fin_cases j <;> simp [Matrix.mul_apply, Fin.sum_univ_two]
      volume := fun _ => rfl
      boundary := fun _ => rfl
      normal := by
        intro b
        funext i
        cases b <;> fin_cases i <;> simp [wellMesh, wellMirror]
      mask := fun _ => rfl }
  spaces := by
    have key : ∀ (g : Motion Unit Bool), ∀ a ∈ wellSpaces.element, g.element a ∈ wellSpaces.element := by
      rintro g _ ⟨w, rfl⟩
      refine ⟨rotVec g.Q w, ?_⟩
      have z : rotFlux g.Q (0 : Matrix (Fin 4) (Fin 2) ℝ) = 0 := by simp [rotFlux_eq]
      refine Prod.ext (funext fun v => z) rfl
    exact ⟨key _, fun _ _ => trivial, key _, fun _ _ => trivial⟩
  conditions :=
    { mask01 := fun _ => Or.inl rfl
      given := fun _ _ => ⟨_, rfl⟩
      cond := fun _ _ => rfl
      profile := fun _ => rfl
      target := by simp [GasState.rotate, GasState.of] }
  states := well_flow

/-- The unknowns with the value `w` in the element and `z` on the walls. -/
def wellPoint (w : Fin 4 → ℝ) (z : Bool → Fin 4 → ℝ) : wellSpaces.element × wellSpaces.facet :=
  (⟨(0, fun _ => w, fun _ => w), ⟨w, rfl⟩⟩, ⟨z, trivial⟩)

theorem wellPoint_add (w w' : Fin 4 → ℝ) (z z' : Bool → Fin 4 → ℝ) (r : ℝ) :
    wellPoint w z + r • wellPoint w' z' = wellPoint (w + r • w') (z + r • z') := by
  refine Prod.ext (Subtype.ext ?_) (Subtype.ext rfl)
  refine Prod.ext ?_ rfl
  show (0 : Unit → Fin 4 → Fin 2 → ℝ) + r • 0 = 0
  simp

theorem wellPoint_all (x : wellSpaces.element × wellSpaces.facet) : ∃ w z, x = wellPoint w z := by
  obtain ⟨⟨a, w, rfl⟩, ⟨z, hz⟩⟩ := x
  exact ⟨w, z, rfl⟩

/-- The equations of a step of implicit Euler. -/
theorem well_residual (dt : ℝ) (t : ℚ) (w c q : Fin 4 → ℝ) (z zc zq : Bool → Fin 4 → ℝ)
    (φ : wellSpaces.tests) :
    ∃ u : Fin 4 → ℝ, φ.1.val () = u ∧
    (hdgProblem wellMesh (fun _ => 0) wellSpaces.tests wellState fun x => x.1.1.2.1).stepEquation
      (Scheme.implicitEuler.quotient dt) t (wellPoint c zc) (wellPoint q zq) (wellPoint w z) φ
    = (pointNumerical (n := 2) (7 / 5) .laxFriedrich (wellMesh.normal true) (w, z true)
        + pointNumerical (n := 2) (7 / 5) .laxFriedrich (wellMesh.normal false) (w, z false)) ⬝ᵥ u
      + ((z true - consVec (n := 2) (w 0) 0 (w 0)) ⬝ᵥ φ.1.hat true
        + (z false - consVec (n := 2) (w 0) 0 (w 0)) ⬝ᵥ φ.1.hat false)
      + (fun i => (w i - c i) / dt) ⬝ᵥ u := by
  obtain ⟨⟨gr, va, tr, ht⟩, ⟨u, hu⟩, hφ⟩ := φ
  simp only [Prod.mk.injEq] at hu
  obtain ⟨h1, rfl, rfl⟩ := hu
  have h2 : gr = 0 := by
    funext v
    ext i j
    exact congrFun (congrFun (congrFun h1 v) i) j
  subst h2
  refine ⟨u, rfl, ?_⟩
  simp only [Problem.stepEquation, hdgProblem, Pi.add_apply, convectionForm, diffusionForm, boundaryForm,
    timeForm, Finset.univ_unique, Finset.sum_singleton, Fintype.sum_bool, wellState, wellMesh, wellPoint,
    Scheme.quotient, backwardEuler]
  simp [frobenius, add_dotProduct]

theorem well_fluxes (w : Fin 4 → ℝ) {r : ℝ} (hr : 0 < r) :
    pointNumerical (n := 2) (7 / 5) .laxFriedrich (wellMesh.normal true) (w, consVec (n := 2) r 0 r)
      + pointNumerical (n := 2) (7 / 5) .laxFriedrich (wellMesh.normal false) (w, consVec (n := 2) r 0 r)
    = (2 * √(14 / 25)) • (w - consVec (n := 2) r 0 r) := by
  have hm : mom (n := 2) (consVec (n := 2) r 0 r) = 0 := by funext i; simp
  have hi : innerOf (n := 2) (consVec (n := 2) r 0 r) = 1 := by
    rw [innerOf, hm, consVec_zero, consVec_last]
    simp [hr.ne']
  have hs : soundOf (n := 2) (7 / 5) (consVec (n := 2) r 0 r) = √(14 / 25) := by
    rw [soundOf, hi]
    norm_num
  have hn : ∀ d, normalOf (n := 2) d (consVec (n := 2) r 0 r) = 0 := by
    intro d; rw [normalOf, hm]; simp
  have hf : eulerFluxOf (n := 2) (7 / 5) (wellMesh.normal true) (consVec (n := 2) r 0 r)
      + eulerFluxOf (n := 2) (7 / 5) (wellMesh.normal false) (consVec (n := 2) r 0 r) = 0 := by
    rw [eulerFluxOf, eulerFluxOf]
    have : wellMesh.normal false = -wellMesh.normal true := by
      funext i; fin_cases i <;> simp [wellMesh]
    rw [this, eulerFlux_neg, add_neg_cancel]
  simp only [pointNumerical, hs, hn, Riemann.speed, abs_zero, zero_add]
  rw [add_add_add_comm, hf, zero_add, ← add_smul]
  congr 1
  ring

/-- The gas moves along the walls, which hold it at rest. -/
def wellStart : wellSpaces.element × wellSpaces.facet :=
  wellPoint ![1, 0, 1, 2] fun _ => consVec (n := 2) 1 0 1

/-- The linearised equations of the first step of implicit Euler have exactly one solution, which changes
the state. -/
theorem well_solvable (dt : ℝ) (hdt : 0 < dt) (t : ℚ) :
    ∃ δ, δ ≠ 0 ∧ SolvesByRule (fun f d => HasDerivAt f d 0) (fun (φ : wellSpaces.tests) y => y φ)
      ((hdgProblem wellMesh (fun _ => 0) wellSpaces.tests wellState fun x => x.1.1.2.1).stepEquation
        (Scheme.implicitEuler.quotient dt) t wellStart wellStart) wellStart δ ∧
      ∀ δ', SolvesByRule (fun f d => HasDerivAt f d 0) (fun (φ : wellSpaces.tests) y => y φ)
        ((hdgProblem wellMesh (fun _ => 0) wellSpaces.tests wellState fun x => x.1.1.2.1).stepEquation
          (Scheme.implicitEuler.quotient dt) t wellStart wellStart) wellStart δ' → δ' = δ := by
  set F := (hdgProblem wellMesh (fun _ => 0) wellSpaces.tests wellState fun x => x.1.1.2.1).stepEquation
    (Scheme.implicitEuler.quotient dt) t wellStart wellStart with hF
  set w : Fin 4 → ℝ := ![1, 0, 1, 2] with hw
  set z : Fin 4 → ℝ := consVec (n := 2) 1 0 1 with hz
  set c : ℝ := 2 * √(14 / 25) with hc
  have c0 : 0 < c := by positivity
  have hK : 0 < c + 1 / dt := by positivity
  have line : ∀ a d : ℝ, HasDerivAt (fun r : ℝ => a + r * d) d 0 := by
    intro a d
    simpa using ((hasDerivAt_id (0 : ℝ)).mul_const d).const_add a
  have algebra : ∀ (w z dw k u : Fin 4 → ℝ) (r : ℝ),
      (c • (w + r • dw - (z + r • k))) ⬝ᵥ u + (0 + 0) + (fun i => ((w + r • dw) i - w i) / dt) ⬝ᵥ u
        = c * ((w - z) ⬝ᵥ u) + r * ((fun i => c * (dw i - k i) + dw i / dt) ⬝ᵥ u) := by
    intro w z dw k u r
    simp only [dotProduct, Fin.sum_univ_four, Pi.smul_apply, Pi.sub_apply, Pi.add_apply, smul_eq_mul]
    ring
  -- the equations along increments that keep the walls
  have along : ∀ (dw : Fin 4 → ℝ) (φ : wellSpaces.tests),
      (fun r : ℝ => F (wellStart + r • wellPoint dw fun _ => consVec (n := 2) (dw 0) 0 (dw 0)) φ)
        =ᶠ[𝓝 0] fun r => c * ((w - z) ⬝ᵥ φ.1.val ()) + r * ((fun i => c * (dw i -
          consVec (n := 2) (dw 0) 0 (dw 0) i) + dw i / dt) ⬝ᵥ φ.1.val ()) := by
    intro dw φ
    have h1 : ∀ᶠ r : ℝ in 𝓝 0, 0 < 1 + r * dw 0 := by
      have : ContinuousAt (fun r : ℝ => 1 + r * dw 0) 0 := by fun_prop
      exact this.eventually_const_lt (by simp)
    filter_upwards [h1] with r hr
    have e1 : z + r • consVec (n := 2) (dw 0) 0 (dw 0) = consVec (n := 2) (1 + r * dw 0) 0 (1 + r * dw 0) := by
      rw [hz]
      exact cons_ext (n := 2) (by simp) (fun i => by simp) (by simp only [Pi.add_apply, Pi.smul_apply, consVec_last, smul_eq_mul])
    obtain ⟨u, hu, e⟩ := well_residual dt t (w + r • dw) w w
      ((fun _ => z) + r • fun _ => consVec (n := 2) (dw 0) 0 (dw 0)) (fun _ => z) (fun _ => z) φ
    have e2 : ∀ b : Bool, (((fun _ => z) + r • fun _ => consVec (n := 2) (dw 0) 0 (dw 0)) : Bool → Fin 4 → ℝ) b
        = consVec (n := 2) (1 + r * dw 0) 0 (1 + r * dw 0) := fun b => e1
    have e3 : (w + r • dw) 0 = 1 + r * dw 0 := by simp [hw]
    rw [e2, e2, e3, sub_self, well_fluxes _ hr, ← wellPoint_add] at e
    refine Eq.trans e ?_
    rw [← e1, hu, ← hc, zero_dotProduct, zero_dotProduct]
    exact algebra w z dw _ u r
  have residual : ∀ φ : wellSpaces.tests, F wellStart φ = c * ((w - z) ⬝ᵥ φ.1.val ()) := by
    intro φ
    have := (along 0 φ).self_of_nhds
    simpa using this
  have slope : ∀ (dw : Fin 4 → ℝ) (φ : wellSpaces.tests), HasDerivAt
      (fun r : ℝ => F (wellStart + r • wellPoint dw fun _ => consVec (n := 2) (dw 0) 0 (dw 0)) φ)
      ((fun i => c * (dw i - consVec (n := 2) (dw 0) 0 (dw 0) i) + dw i / dt) ⬝ᵥ φ.1.val ()) 0 := by
    intro dw φ
    refine HasDerivAt.congr_of_eventuallyEq ?_ (along dw φ)
    exact line _ _
  have testOf : ∀ (u : Fin 4 → ℝ) (h : Bool → Fin 4 → ℝ), ∃ φ : wellSpaces.tests,
      φ.1.val () = u ∧ φ.1.hat = h := fun u h =>
    ⟨⟨⟨0, fun _ => u, fun _ => u, h⟩, ⟨u, rfl⟩, trivial⟩, rfl, rfl⟩
  obtain ⟨κ, hκ⟩ : ∃ κ, κ = c / (c + 1 / dt) := ⟨_, rfl⟩
  have κ0 : 0 < κ := by rw [hκ]; positivity
  have hκ' : κ * (c + 1 / dt) = c := by rw [hκ, div_mul_cancel₀ _ hK.ne']
  have w0 : w 0 - z 0 = 0 := by simp [hw, hz]
  have kz : consVec (n := 2) (0 : ℝ) 0 0 = 0 :=
    cons_ext (n := 2) rfl (fun i => by simp) (by simp only [consVec_last]; rfl)
  set dw : Fin 4 → ℝ := κ • (w - z) with hdw
  have dw0 : dw 0 = 0 := by simp only [hdw, Pi.smul_apply, Pi.sub_apply, w0, smul_zero]
  refine ⟨wellPoint dw fun _ => consVec (n := 2) (dw 0) 0 (dw 0), ?_, ?_, ?_⟩
  · intro h
    have h2 : dw 2 = 0 := congrArg (fun x : wellSpaces.element × wellSpaces.facet => x.1.1.2.1 () 2) h
    have z2 : z 2 = 0 := rfl
    simp only [hdw, Pi.smul_apply, Pi.sub_apply, smul_eq_mul, z2, sub_zero] at h2
    simp [hw] at h2
    exact κ0.ne' h2
  · intro φ
    show HasDerivAt _ (F wellStart φ) 0
    rw [residual]
    have : c * ((w - z) ⬝ᵥ φ.1.val ())
        = (fun i => c * (dw i - consVec (n := 2) (dw 0) 0 (dw 0) i) + dw i / dt) ⬝ᵥ φ.1.val () := by
      rw [dw0, kz, ← smul_eq_mul, ← smul_dotProduct]
      congr 1
      funext i
      simp only [hdw, Pi.smul_apply, Pi.sub_apply, smul_eq_mul, Pi.zero_apply, sub_zero]
      linear_combination (-(w i - z i)) * hκ'
    rw [this]
    exact slope dw φ
  · intro δ' hδ'
    obtain ⟨dw', dz', rfl⟩ := wellPoint_all δ'
    have hwall : ∀ b, dz' b = consVec (n := 2) (dw' 0) 0 (dw' 0) := by
      obtain ⟨φ, p1, p2⟩ := testOf 0 fun b => dz' b - consVec (n := 2) (dw' 0) 0 (dw' 0)
      have hd : HasDerivAt (fun r : ℝ => F (wellStart + r • wellPoint dw' dz') φ) (F wellStart φ) 0 := hδ' φ
      rw [residual, p1, dotProduct_zero, mul_zero] at hd
      have hlin : (fun r : ℝ => F (wellStart + r • wellPoint dw' dz') φ)
          = fun r => r * ((dz' true - consVec (n := 2) (dw' 0) 0 (dw' 0)) ⬝ᵥ φ.1.hat true
            + (dz' false - consVec (n := 2) (dw' 0) 0 (dw' 0)) ⬝ᵥ φ.1.hat false) := by
        funext r
        obtain ⟨u, hu, e⟩ := well_residual dt t (w + r • dw') w w ((fun _ => z) + r • dz') (fun _ => z)
          (fun _ => z) φ
        have e3 : (w + r • dw') 0 = 1 + r * dw' 0 := by simp [hw]
        have e1 : ∀ b, ((fun _ => z) + r • dz' : Bool → Fin 4 → ℝ) b - consVec (n := 2) (1 + r * dw' 0) 0 (1 + r * dw' 0)
            = r • (dz' b - consVec (n := 2) (dw' 0) 0 (dw' 0)) := by
          intro b
          have : consVec (n := 2) (1 + r * dw' 0) 0 (1 + r * dw' 0)
              = z + r • consVec (n := 2) (dw' 0) 0 (dw' 0) := by
            rw [hz]
            exact cons_ext (n := 2) (by simp) (fun i => by simp)
              (by simp only [Pi.add_apply, Pi.smul_apply, consVec_last, smul_eq_mul])
          rw [this, smul_sub]
          show z + r • dz' b - _ = _
          abel
        rw [e3, e1, e1, ← wellPoint_add, ← hu, p1, dotProduct_zero, dotProduct_zero, zero_add, add_zero,
          smul_dotProduct, smul_dotProduct] at e
        refine Eq.trans e ?_
        simp only [smul_eq_mul]
        ring
      rw [hlin] at hd
      have h1 := line 0 ((dz' true - consVec (n := 2) (dw' 0) 0 (dw' 0)) ⬝ᵥ φ.1.hat true
        + (dz' false - consVec (n := 2) (dw' 0) 0 (dw' 0)) ⬝ᵥ φ.1.hat false)
      simp only [zero_add] at h1
      have h2 := hd.unique h1
      rw [p2] at h2
      have n1 : 0 ≤ (dz' true - consVec (n := 2) (dw' 0) 0 (dw' 0))
          ⬝ᵥ (dz' true - consVec (n := 2) (dw' 0) 0 (dw' 0)) :=
        Finset.sum_nonneg fun i _ => mul_self_nonneg _
      have n2 : 0 ≤ (dz' false - consVec (n := 2) (dw' 0) 0 (dw' 0))
          ⬝ᵥ (dz' false - consVec (n := 2) (dw' 0) 0 (dw' 0)) :=
        Finset.sum_nonneg fun i _ => mul_self_nonneg _
      intro b
      refine sub_eq_zero.1 (dotProduct_self_eq_zero.1 ?_)
      cases b <;> linarith
    have hdz : dz' = fun _ => consVec (n := 2) (dw' 0) 0 (dw' 0) := funext hwall
    rw [hdz] at hδ' ⊢
    have heq : ∀ i, c * (dw' i - consVec (n := 2) (dw' 0) 0 (dw' 0) i) + dw' i / dt = c * (w i - z i) := by
      intro i
      obtain ⟨φ, p1, -⟩ := testOf (Pi.single i 1) 0
      have hd : HasDerivAt (fun r : ℝ => F (wellStart + r • wellPoint dw' fun _ =>
        consVec (n := 2) (dw' 0) 0 (dw' 0)) φ) (F wellStart φ) 0 := hδ' φ
      have h1 := (slope dw' φ).unique hd
      rw [residual, p1, dotProduct_single, dotProduct_single, mul_one, mul_one] at h1
      exact h1
    have d0 : dw' 0 = 0 := by
      have h1 := heq 0
      rw [consVec_zero, sub_self, mul_zero, zero_add, w0, mul_zero] at h1
      exact (div_eq_zero_iff.1 h1).resolve_right hdt.ne'
    have : dw' = dw := by
      funext i
      have h1 := heq i
      rw [d0, kz, Pi.zero_apply, sub_zero] at h1
      have h2 : (c + 1 / dt) * dw' i = (c + 1 / dt) * dw i := by
        simp only [hdw, Pi.smul_apply, Pi.sub_apply, smul_eq_mul]
        linear_combination h1 - (w i - z i) * hκ'
      exact mul_left_cancel₀ hK.ne' h2
    rw [this]

theorem well_fixed : wellMirror.Fixes wellStart := by
  constructor
  · refine Prod.ext (funext fun v => ?_) (Prod.ext (funext fun v => ?_) (funext fun b => ?_))
    · have z : rotFlux wellMirror.Q (0 : Matrix (Fin 4) (Fin 2) ℝ) = 0 := by simp [rotFlux_eq]
      exact z
    all_goals
      show rotVec wellMirror.Q ![1, 0, 1, 2] = ![1, 0, 1, 2]
      rw [rotVec_eq]
      funext i
      fin_cases i <;> simp [rotM, wellMirror, mulVec, dotProduct, Fin.sum_univ_four]
  · funext b
    show rotVec wellMirror.Q (consVec (n := 2) 1 0 1) = consVec (n := 2) 1 0 1
    rw [rotVec_consVec, mulVec_zero]

theorem well_gas : AreGas (7 / 5) wellStart := by
  have h1 : IsGas (n := 2) (7 / 5) ![1, 0, 1, 2] := by
    refine (isGas_iff (n := 2) (by norm_num)).2 ⟨by simp, ?_⟩
    have hm : mom (n := 2) ![1, 0, 1, 2] = ![0, 1] := by funext i; fin_cases i <;> rfl
    have hl : (![1, 0, 1, 2] : Fin (2 + 2) → ℝ) (Fin.last (2 + 1)) = 2 := rfl
    rw [innerOf, hm, hl]
    simp [dotProduct, Fin.sum_univ_two]
    norm_num
  have h2 : IsGas (n := 2) (7 / 5) (consVec (n := 2) 1 0 1) := by
    refine (isGas_iff (n := 2) (by norm_num)).2 ⟨by simp, ?_⟩
    have hm : mom (n := 2) (consVec (n := 2) 1 0 1) = 0 := by funext i; simp
    rw [innerOf, hm, consVec_zero, consVec_last]
    simp
  exact ⟨fun _ => h1, fun _ => h1, fun _ => h2⟩

/-- C115, concrete instance: the gas between the walls, which moves along them and is slowed down. Every
state of the run is its own mirror image: the gas never moves towards a wall. -/
example (s : Scheme) (tm : Timer) (ys : List (ℚ × (wellSpaces.element × wellSpaces.facet)))
    (h : transientRun (hdgProblem wellMesh (fun _ => 0) wellSpaces.tests wellState fun x => x.1.1.2.1) s
      (onlyNewton (fun φ y => y φ) (fun f d => HasDerivAt f d 0) (AreGas (7 / 5))) tm wellStart = .ok ys) :
    ∀ y ∈ ys, y.2.1.1.2.1 () 1 = 0 := by
  intro y hy
  have := C115_symmetric well_setup s hasDerivAt_local (onlyNewton_solves _ _ _ _ s) tm wellStart well_fixed ys h
    y hy
  have h1 := congrFun (congrFun (congrArg (fun a : ElementFn 2 4 Unit Bool => a.2.1) this.1) ()) 1
  have h2 : rotVec wellMirror.Q (y.2.1.1.2.1 ()) 1 = -y.2.1.1.2.1 () 1 := by
    rw [rotVec_eq]
    simp [rotM, wellMirror, mulVec, dotProduct, Fin.sum_univ_four]
  have h3 : rotVec wellMirror.Q (y.2.1.1.2.1 ()) 1 = y.2.1.1.2.1 () 1 := h1
  linarith

/-- The linear solver of the instance really changes the state in the first step of implicit Euler. -/
example (dt : ℝ) (hdt : 0 < dt) (t : ℚ) : ∃ δ, δ ≠ 0 ∧
    (onlyNewton (fun φ y => y φ) (fun f d => HasDerivAt f d 0) (AreGas (7 / 5))).lin
      ((hdgProblem wellMesh (fun _ => 0) wellSpaces.tests wellState fun x => x.1.1.2.1).stepEquation
        (Scheme.implicitEuler.quotient dt) t wellStart wellStart) 0 wellStart = (δ, some 1) := by
  obtain ⟨δ, h0, h1, h2⟩ := well_solvable dt hdt t
  refine ⟨δ, h0, ?_⟩
  have hd : AreGas (7 / 5) wellStart ∧ ∃ δ, SolvesByRule (fun f d => HasDerivAt f d 0)
      (fun (φ : wellSpaces.tests) y => y φ)
      ((hdgProblem wellMesh (fun _ => 0) wellSpaces.tests wellState fun x => x.1.1.2.1).stepEquation
        (Scheme.implicitEuler.quotient dt) t wellStart wellStart) wellStart δ ∧
      ∀ δ', SolvesByRule (fun f d => HasDerivAt f d 0) (fun (φ : wellSpaces.tests) y => y φ)
        ((hdgProblem wellMesh (fun _ => 0) wellSpaces.tests wellState fun x => x.1.1.2.1).stepEquation
          (Scheme.implicitEuler.quotient dt) t wellStart wellStart) wellStart δ' → δ' = δ :=
    ⟨well_gas, δ, h1, h2⟩
  simp only [onlyNewton]
  rw [dif_pos hd, h2 _ hd.2.choose_spec.1]

/-- C115, concrete instance: the forces of the gas on the two walls cancel. -/
example : ∃ cl : Bool → ℝ, (∃ drag, (forceSensor "walls" 1 ['w'] 0 cl).measure wellMesh.integrateOver true
    = .ok [drag, 0]) ∧ cl true ≠ 0 := by
  have hS : IdealGas slipCfg.γ (GasState.of (7 / 5) 1 ![0, 1] (3 / 2) : GasState 2) :=
    IdealGas.of (by norm_num [slipCfg]) (by norm_num) (by norm_num)
  have hn : ∀ b, wellMesh.normal b 0 ^ 2 + wellMesh.normal b 1 ^ 2 = 1 := well_setup.unit
  have hu : 0 < (GasState.of (7 / 5) 1 ![0, 1] (3 / 2) : GasState 2).u ⬝ᵥ
      (GasState.of (7 / 5) 1 ![0, 1] (3 / 2) : GasState 2).u := by
    simp [GasState.of, dotProduct, Fin.sum_univ_two]
  have hl : (0 : ℝ) < ![1, 0] ⬝ᵥ ![1, 0] := by simp
  choose cl hcl using fun b => ((C114_exists (cfg := slipCfg) .roe hS
    (GasState.of (7 / 5) 1 ![0, 1] (3 / 2)) (hn b) ![1, 0] 0).1 rfl).2
  have hv : gasVec (GasState.of (7 / 5) 1 ![0, 1] (3 / 2) : GasState 2) = ![1, 0, 1, 2] := by
    refine cons_ext (n := 2) rfl (fun i => ?_) ?_
    · fin_cases i
      · show (1 : ℝ) * 0 = 0
        norm_num
      · show (1 : ℝ) * 1 = 1
        norm_num
    · show (1 : ℝ) * (3 / 2 + (![0, 1] ⬝ᵥ ![0, 1]) / 2) = 2
      simp
      norm_num
  refine ⟨cl, C115_no_lift (cfg := slipCfg) (g := wellMirror) (dU := fun _ => strainHeatFields 0) rfl
    well_setup.mesh well_fixed well_gas hl ?_ (fun _ => rfl) hS hu (fun b => ⟨_, ?_, hcl b⟩) _ _ _, ?_⟩
  · funext i
    fin_cases i <;> simp [wellMirror]
  · show conservativeFields (n := 2) (7 / 5) ![1, 0, 1, 2] = _
    rw [← hv]
    exact conservativeFields_gas hS
  · intro h
    have := coefficient_force hS hS hu (Or.inl ⟨rfl, rfl⟩) hl (hcl true)
    rw [h] at this
    simp [GasState.of, dotProduct, Fin.sum_univ_two, wellMesh] at this
    norm_num at this

end Dream

end
