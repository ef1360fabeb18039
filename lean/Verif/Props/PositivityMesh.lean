import Verif.Props.Positivity
import Verif.Props.Triangulation

/-!
# C89 on triangulations; examples and limits
-/

noncomputable section

namespace Dream
open Matrix

/-! ### Triangulations -/

section

set_option linter.unusedSectionVars false

variable {E : Type} [Fintype E] [DecidableEq E] {K : Triangulation E} {R : VolumeRule} {S : SideRule}

/-- The facet a side belongs to: the pair of itself and the side of the neighbour. -/
def Triangulation.facetOf (K : Triangulation E) (x : E × Fin 3) : Sym2 (E × Fin 3) :=
  match K.across x with
  | some y => s(x, y)
  | none => s(x, x)

/-- Elements and facets of a triangulation. -/
def Triangulation.cells (K : Triangulation E) (R : VolumeRule) (S : SideRule) :
    Cells (E × Fin R.n) ((E × Fin 3) × Fin S.n) E (Sym2 (E × Fin 3)) where
  el := fun v => v.1
  elB := fun b => b.1.1
  facet := fun b => K.facetOf b.1

theorem facetOf_across {x y : E × Fin 3} (hK : K.Conforming) (h : K.across x = some y) :
    K.facetOf y = K.facetOf x := by
  simp only [Triangulation.facetOf, h, hK.symm x y h, Sym2.eq_swap]

theorem facetOf_none {x y : E × Fin 3} (h : K.across x = none) (he : K.facetOf y = K.facetOf x) :
    y = x := by
  simp only [Triangulation.facetOf, h] at he
  cases hy : K.across y with
  | none =>
    rw [hy] at he
    simpa using he
  | some z =>
    rw [hy] at he
    have : y = x ∧ z = x := by simpa using he
    exact this.1

/-- The quadrature points of a triangulation fit together. -/
theorem triangulation_fits (hK : K.Conforming) {bcs : Conditions} (hc : K.Covered bcs)
    (hR : ∀ q, 0 < R.w q) (hn : 0 < R.n) (hS : ∀ q, 0 < S.w q) :
    (K.cells R S).Fits (K.mesh R S) ((K.mesh R S).mask bcs) := by
  have hout : ∀ b, (K.mesh R S).mask bcs b = 0 → K.across b.1 = none := by
    intro b hb
    by_contra h
    rw [hc.mask_one (R := R) b h] at hb
    exact one_ne_zero hb
  refine ⟨fun v => mul_pos (hK.oriented v.1) (hR v.2), fun b => mul_pos (length_pos K hK b.1) (hS b.2),
    fun b => ⟨(b.1.1, ⟨0, hn⟩), rfl⟩, ?_, fun b => (C68_mask (K.mesh R S) bcs hc.nodup b).1, ?_, ?_⟩
  · intro b
    have := mesh_normal (R := R) hK b
    simp only [dotProduct, Fin.sum_univ_two]
    linarith
  · intro b b' h
    by_cases hb : K.across b.1 = none
    · have e := facetOf_none hb (y := b'.1) h.symm
      rw [hc.mask_zero (R := R) b hb, hc.mask_zero (R := R) b' (by rw [e]; exact hb)]
    · by_cases hb' : K.across b'.1 = none
      · have e := facetOf_none hb' (y := b.1) h
        rw [e] at hb
        exact absurd hb' hb
      · rw [hc.mask_one (R := R) b hb, hc.mask_one (R := R) b' hb']
  · intro b b' hb h
    have e := facetOf_none (hout b hb) (y := b'.1) h
    exact ⟨congrArg Prod.fst e, by show K.normal b'.1 = K.normal b.1; rw [e]⟩

/-- Functions that are one on a triangle or on a facet are test functions, whatever the orders. -/
theorem triangulation_indicators (hK : K.Conforming) {k : ℕ} (order : E → ℕ)
    (orderHat : E × Fin 3 → ℕ) :
    (K.cells R S).HasIndicators (K.space k order orderHat R S) := by
  constructor
  · intro e i
    refine ⟨⟨fun e' i' => if e' = e ∧ i' = i then 1 else 0, fun _ _ => 0, ?_, ?_, ?_⟩, ?_⟩
    · intro e' i'
      split_ifs <;> simp
    · simp
    · simp
    · simp only [PolyTest.toTest, Cells.elementTest, HdgTest.mk.injEq]
      refine ⟨?_, ?_, ?_, ?_⟩
      · funext v
        ext i' j
        simp only [Matrix.of_apply, Matrix.zero_apply]
        split_ifs <;> simp
      · funext v i'
        by_cases h : v.1 = e <;> by_cases h' : i' = i <;> simp [Triangulation.cells, h, h']
      · funext v i'
        by_cases h : v.1.1 = e <;> by_cases h' : i' = i <;> simp [Triangulation.cells, h, h']
      · funext b i'
        simp
  · intro f i
    refine ⟨⟨fun _ _ => 0, fun x i' => if K.facetOf x = f ∧ i' = i then 1 else 0, ?_, ?_, ?_⟩, ?_⟩
    · simp
    · intro x i'
      split_ifs <;> simp
    · intro x y h i'
      rw [facetOf_across hK h]
      split_ifs <;> simp
    · simp only [PolyTest.toTest, Cells.facetTest, HdgTest.mk.injEq]
      refine ⟨?_, ?_, ?_, ?_⟩
      · funext v
        ext i' j
        simp
      · funext v i'
        simp
      · funext v i'
        simp
      · funext b i'
        by_cases h : K.facetOf b.1 = f <;> by_cases h' : i' = i <;> simp [Triangulation.cells, h, h']

/-- **C89** On every triangulation, for quadrature rules with positive weights: a run with piecewise
constants and the implicit Euler method keeps the density positive in every triangle. -/
theorem C89_triangulation {γ : ℝ} {rs : Riemann} (hrs : rs.AnyDim) (hK : K.Conforming)
    {bcs : Conditions} (hc : K.Covered bcs) (hR : ∀ q, 0 < R.w q) (hn : 0 < R.n)
    (hS : ∀ q, 0 < S.w q) (dt : ℝ) (hdt : 0 < dt) (ts : List ℚ)
    (x0 : HdgState 2 4 (E × Fin R.n) ((E × Fin 3) × Fin S.n))
    (xs : List (HdgState 2 4 (E × Fin R.n) ((E × Fin 3) × Fin S.n)))
    (hx : ∀ x ∈ xs, ∃ tr hat kind,
      LowestOrder γ rs (K.mesh R S) ((K.mesh R S).mask bcs) (K.cells R S) x tr hat kind)
    (h : _root_.Spec.Satisfies (hdgStep (K.mesh R S) ((K.mesh R S).mask bcs)
      (K.space 4 (fun _ => 0) (fun _ => 0) R S) (Scheme.implicitEuler.quotient dt)) x0 x0 ts xs)
    (h0 : ∀ v, 0 < x0.U v 0) : ∀ x ∈ xs, ∀ v, 0 < x.U v 0 :=
  C89_run hrs _ _ (K.cells R S) (triangulation_fits hK hc hR hn hS) _
    (triangulation_indicators hK _ _) dt hdt ts x0 xs hx h h0

end

/-! ### Gas at rest in periodic cells -/

/-- The flux of the code where the facet value is `s (1, 0, 25/14)`, also for negative `s`: its speed
of sound is one. -/
theorem rest_numerical (s : ℝ) (hs : s ≠ 0) :
    ∃ UHat : Flow 1, conservativeFields (7 / 5) (consVec s 0 (s * (25 / 14))) = .ok UHat ∧
      ∀ w d, convectiveNumericalFlux (7 / 5) .laxFriedrich w (consVec s 0 (s * (25 / 14))) UHat d
        = .ok (consVec 0 ((s * (5 / 7)) • d) 0 + (w - consVec s 0 (s * (25 / 14)))) := by
  have hp : (7 / 5 - 1) * (s * (25 / 14)) = s * (5 / 7) := by ring
  have hc : √(7 / 5 * (s * (5 / 7)) / s) = 1 := by
    rw [show 7 / 5 * (s * (5 / 7)) / s = 1 by field_simp, Real.sqrt_one]
  obtain ⟨U, hU⟩ : ∃ U, conservativeFields (n := 1) (7 / 5) (consVec s 0 (s * (25 / 14))) = .ok U := by
    simp [conservativeFields, getConservativeFields, velocity, kineticEnergy, innerEnergy, pressure,
      temperature, speedOfSound, equation, equationE, bind, Except.bind, EOS.pressure,
      EOS.temperature, EOS.speedOfSound]
  refine ⟨U, hU, fun w d => ?_⟩
  have hmom : (fun i : Fin 1 => (consVec s (0 : Fin 1 → ℝ) (s * (25 / 14))) i.castSucc.succ) = 0 := by
    funext i; simp
  simp only [conservativeFields, consVec_zero, consVec_last, hmom, getConservativeFields, velocity,
    kineticEnergy, innerEnergy, pressure,
    temperature, speedOfSound, equation, equationE, bind, Except.bind, EOS.pressure,
    EOS.temperature, EOS.speedOfSound, EOS.innerEnergy] at hU
  simp [hp, hc] at hU
  have hv : velocity U = .ok 0 := by rw [← hU]; simp [velocity, equation, equationE]
  have hcc : speedOfSound (7 / 5) U = .ok 1 := by
    rw [← hU]; simp [speedOfSound, EOS.speedOfSound, equation, equationE]
  obtain ⟨t, -⟩ := C28_lax_friedrich_hll (γ := 7 / 5) d hv hcc
  have hF : convectiveFlux (7 / 5) U = .ok (Matrix.of (Fin.cons 0 (Fin.snoc
      (fun i => ((s * (5 / 7)) • (1 : Matrix (Fin 1) (Fin 1) ℝ)) i) 0))) := by
    rw [← hU]
    simp [convectiveFlux, density, momentum, enthalpy, velocity, pressure, EOS.density, EOS.pressure,
      equation, equationE, bind, Except.bind]
  have hm : ∀ v : Fin 3 → ℝ, ((|(0 : Fin 1 → ℝ) ⬝ᵥ d| + 1) • (1 : Matrix (Fin 3) (Fin 3) ℝ)) *ᵥ v = v := by
    intro v; simp
  simp only [convectiveNumericalFlux, t, hF, bind, Except.bind, Except.ok.injEq]
  rw [hm]
  congr 1
  funext i
  fin_cases i
  · simp [mulVec, dotProduct, consVec]
  · simp only [mulVec, dotProduct, Finset.univ_unique, Finset.sum_singleton]
    change ((s * (5 / 7)) • (1 : Matrix (Fin 1) (Fin 1) ℝ)) 0 0 * d 0 = s * (5 / 7) * d 0
    simp
  · simp only [mulVec, dotProduct, Finset.univ_unique, Finset.sum_singleton]
    change (0 : ℝ) * d 0 = 0
    simp

theorem consVec_one (a m e : ℝ) : consVec a (fun _ : Fin 1 => m) e = ![a, m, e] := by
  funext i
  fin_cases i <;> rfl

/-- One cell with periodic ends. -/
def loopMesh : HdgMesh 1 Unit Bool :=
  ⟨fun _ => 1, fun _ => 1, fun b _ => if b then 1 else -1, fun _ => none⟩

/-- Its element and its facet. -/
def loopCells : Cells Unit Bool Unit Unit := ⟨id, fun _ => (), fun _ => ()⟩

/-- Constants on the element and the facet. -/
def loopSpace : Set (HdgTest 1 3 Unit Bool) :=
  {φ | ∃ a g : Fin 3 → ℝ, φ = ⟨0, fun _ => a, fun _ => a, fun _ => g⟩}

/-- Gas at rest of density `s`, in a sponge layer of strength 9 towards the density 1/60 at the same
temperature. -/
def loopState (s : ℝ) : HdgState 1 3 Unit Bool where
  U := fun _ => ![s, 0, s * (25 / 14)]
  F := fun _ => Matrix.of ![![0], ![s * (5 / 7)], ![0]]
  G := 0
  Fn := fun b => ![0, s * (5 / 7) * (if b then 1 else -1), 0]
  Gn := 0
  R := 0
  source := fun _ => ![9 * (s - 1 / 60), 0, 9 * (s - 1 / 60) * (25 / 14)]

/-- The reference of the layer. -/
def loopTarget : Flow 1 :=
  { rho := some (1 / 60), rho_u := some 0, rho_E := some (1 / 60 * (25 / 14)) }

theorem loop_lowestOrder (s : ℝ) (hs : s ≠ 0) :
    LowestOrder (7 / 5) .laxFriedrich loopMesh (fun _ => 1) loopCells (loopState s)
      (fun _ => ![s, 0, s * (25 / 14)]) (fun _ => ![s, 0, s * (25 / 14)]) (fun _ => .dense) where
  constant := ⟨fun _ _ _ => rfl, fun _ _ _ => rfl, fun _ _ _ => rfl⟩
  defined := fun _ => hs
  flux := fun b => by
    obtain ⟨U, hU, hf⟩ := rest_numerical s hs
    have e : (consVec s (0 : Fin 1 → ℝ) (s * (25 / 14))) = ![s, 0, s * (25 / 14)] := consVec_one _ _ _
    rw [e] at hU hf
    refine ⟨U, hU, (hf _ _).trans ?_⟩
    congr 1
    rw [sub_self, add_zero]
    funext i
    fin_cases i <;> rfl
  viscous := fun _ => .inl rfl
  sponge := fun _ => by
    refine .inr ⟨9, loopTarget, 1 / 60, by norm_num, by simp [loopTarget, density, EOS.density, equation, equationE], by norm_num, ?_⟩
    have e : stateVec (7 / 5) loopTarget = .ok ![1 / 60, 0, 1 / 60 * (25 / 14)] := by
      have : consVec (1 / 60) (0 : Fin 1 → ℝ) (1 / 60 * (25 / 14)) = _ := consVec_one _ 0 _
      simpa [loopTarget, stateVec, density, EOS.density, momentum, energy, equation, equationE, bind,
        Except.bind] using this
    simp only [spongeResidual, e, bind, Except.bind, Except.ok.injEq]
    funext i
    fin_cases i <;> simp [loopState]
    ring
  inside := fun _ _ => rfl
  conditions := fun _ h => absurd h one_ne_zero

theorem loop_fits : loopCells.Fits loopMesh (fun _ => 1) := by
  refine ⟨fun _ => one_pos, fun _ => one_pos, fun _ => ⟨(), rfl⟩, ?_, fun _ => .inr rfl,
    fun _ _ _ => rfl, fun _ _ h => absurd h one_ne_zero⟩
  intro b
  cases b <;> simp [loopMesh, dotProduct]

theorem loop_indicators : loopCells.HasIndicators loopSpace := by
  refine ⟨fun e i => ⟨Pi.single i 1, 0, ?_⟩, fun f i => ⟨0, Pi.single i 1, ?_⟩⟩
  · simp [Cells.elementTest, loopCells]; constructor <;> rfl
  · simp [Cells.facetTest, loopCells]; constructor <;> rfl

theorem loopCell_step (s : Scheme) (dt new cur prev : ℝ) (t : ℚ)
    (h : s.quotient dt new cur prev + 9 * (new - 1 / 60) = 0) :
    hdgStep loopMesh (fun _ => 1) loopSpace (s.quotient dt) t (loopState new) (loopState cur)
      (loopState prev) := by
  rintro _ ⟨a, g, rfl⟩
  have h0 : s.quotient dt 0 0 0 = 0 := by
    cases s <;> simp [Scheme.quotient, _root_.Spec.backwardEuler, _root_.Spec.backward2]
  have h2 : s.quotient dt (new * (25 / 14)) (cur * (25 / 14)) (prev * (25 / 14))
      = s.quotient dt new cur prev * (25 / 14) := by
    cases s <;> simp only [Scheme.quotient, _root_.Spec.backwardEuler, _root_.Spec.backward2] <;> ring
  simp [timeForm, convectionForm, diffusionForm, boundaryForm, frobenius, loopMesh, loopState,
    dotProduct, Fin.sum_univ_three, h0, h2]
  linear_combination (a 0 + 25 / 14 * a 2) * h

/-- **C89** With the second order method the density does not stay positive: a sponge layer that
takes most of the gas away in the first step leaves a negative density after the second, although
every fluid state and the reference of the layer are those of a gas, and the same equations with the
implicit Euler method keep it positive. -/
theorem C89_fails_bdf2 :
    _root_.Spec.Satisfies (hdgStep loopMesh (fun _ => 1) loopSpace (Scheme.bdf2.quotient 1))
      (loopState 1) (loopState 1) [1, 2] [loopState (11 / 70), loopState (-1 / 294)] ∧
    (∀ x ∈ [loopState (11 / 70), loopState (-1 / 294)], ∃ tr hat kind,
      LowestOrder (7 / 5) .laxFriedrich loopMesh (fun _ => 1) loopCells x tr hat kind) ∧
    0 < (loopState 1).U () 0 ∧ (loopState (-1 / 294)).U () 0 < 0 := by
  refine ⟨⟨loopCell_step .bdf2 _ _ _ _ _ ?_, loopCell_step .bdf2 _ _ _ _ _ ?_, trivial⟩, ?_, ?_, ?_⟩
  · simp only [Scheme.quotient, _root_.Spec.backward2]; norm_num
  · simp only [Scheme.quotient, _root_.Spec.backward2]; norm_num
  · intro x hx
    simp only [List.mem_cons, List.not_mem_nil, or_false] at hx
    rcases hx with rfl | rfl
    · exact ⟨_, _, _, loop_lowestOrder _ (by norm_num)⟩
    · exact ⟨_, _, _, loop_lowestOrder _ (by norm_num)⟩
  · simp [loopState]
  · simp [loopState]; norm_num

/-- C89, concrete instance: two implicit Euler steps of the same gas. -/
example : ∀ x ∈ [loopState (23 / 200), loopState (53 / 2000)], ∀ v, 0 < x.U v 0 :=
  C89_run (.inl rfl) loopMesh (fun _ => 1) loopCells loop_fits loopSpace loop_indicators 1 one_pos
    [1, 2] (loopState 1) _
    (fun x hx => by
      simp only [List.mem_cons, List.not_mem_nil, or_false] at hx
      rcases hx with rfl | rfl
      · exact ⟨_, _, _, loop_lowestOrder _ (by norm_num)⟩
      · exact ⟨_, _, _, loop_lowestOrder _ (by norm_num)⟩)
    ⟨loopCell_step .implicitEuler _ _ _ _ _ (by
        simp only [Scheme.quotient, _root_.Spec.backwardEuler]; norm_num),
      loopCell_step .implicitEuler _ _ _ _ _ (by
        simp only [Scheme.quotient, _root_.Spec.backwardEuler]; norm_num), trivial⟩
    (fun _ => by simp [loopState])

/-- A ring of two cells, each with two facets. -/
def pairMesh : HdgMesh 1 Bool (Bool × Bool) :=
  ⟨fun _ => 1, fun _ => 1, fun b _ => if b.2 then 1 else -1, fun _ => none⟩

/-- Its elements and facets: the right end of a cell is the left end of the other one. -/
def pairCells : Cells Bool (Bool × Bool) Bool Bool :=
  ⟨id, fun b => b.1, fun b => if b.2 then b.1 else !b.1⟩

/-- Constants on the elements and the facets. -/
def pairSpace : Set (HdgTest 1 3 Bool (Bool × Bool)) :=
  {φ | ∃ a g : Bool → Fin 3 → ℝ, φ = ⟨0, a, fun b => a b.1, fun b => g (if b.2 then b.1 else !b.1)⟩}

/-- Gas at rest with uniform pressure and the densities `2 + s` and `2 - s`, 2 on the facets: the
stabilisation lets mass pass. -/
def pairState (s : ℝ) : HdgState 1 3 Bool (Bool × Bool) where
  U := fun v => ![if v then 2 + s else 2 - s, 0, 25 / 7]
  F := fun _ => Matrix.of ![![0], ![10 / 7], ![0]]
  G := 0
  Fn := fun b => ![if b.1 then s else -s, 10 / 7 * (if b.2 then 1 else -1), 0]
  Gn := 0
  R := 0
  source := 0

theorem pair_lowestOrder (s : ℝ) :
    LowestOrder (7 / 5) .laxFriedrich pairMesh (fun _ => 1) pairCells (pairState s)
      (fun b => (pairState s).U b.1) (fun _ => ![2, 0, 25 / 7]) (fun _ => .dense) where
  constant := ⟨fun v v' h => by rw [show v = v' from h], fun v b h => by rw [← show v = b.1 from h],
    fun _ _ _ => rfl⟩
  defined := fun _ => two_ne_zero
  flux := fun b => by
    obtain ⟨U, hU, hf⟩ := rest_numerical 2 two_ne_zero
    have e : (consVec 2 (0 : Fin 1 → ℝ) (2 * (25 / 14))) = ![2, 0, 25 / 7] := by
      rw [show (2 : ℝ) * (25 / 14) = 25 / 7 by norm_num]; exact consVec_one _ _ _
    rw [e] at hU hf
    refine ⟨U, hU, (hf _ _).trans ?_⟩
    congr 1
    have e2 : consVec 0 ((2 * (5 / 7) : ℝ) • pairMesh.normal b) 0
        = ![0, 2 * (5 / 7) * (if b.2 then 1 else -1), 0] := by
      funext i
      fin_cases i <;> rfl
    rw [e2]
    funext i
    fin_cases i
    · cases h : b.1 <;> simp [pairState, h]
    · cases h : b.2 <;> simp [pairState, h] <;> ring
    · simp [pairState]
  viscous := fun _ => .inl rfl
  sponge := fun _ => .inl rfl
  inside := fun _ _ => rfl
  conditions := fun _ h => absurd h one_ne_zero

theorem pair_fits : pairCells.Fits pairMesh (fun _ => 1) := by
  refine ⟨fun _ => one_pos, fun _ => one_pos, fun b => ⟨b.1, rfl⟩, ?_, fun _ => .inr rfl,
    fun _ _ _ => rfl, fun _ _ h => absurd h one_ne_zero⟩
  rintro ⟨b, c⟩
  cases c <;> simp [pairMesh, dotProduct]

theorem pair_indicators : pairCells.HasIndicators pairSpace := by
  refine ⟨fun e i => ⟨fun v => if v = e then Pi.single i 1 else 0, 0, ?_⟩,
    fun f i => ⟨0, fun v => if v = f then Pi.single i 1 else 0, ?_⟩⟩
  · simp only [Cells.elementTest, pairCells, id, HdgTest.mk.injEq, and_true]
    exact ⟨rfl, rfl, rfl, rfl⟩
  · simp only [Cells.facetTest, pairCells, HdgTest.mk.injEq, and_true]
    exact ⟨rfl, rfl, rfl, rfl⟩

theorem pair_constants : HasConstants (fun _ => 1) pairSpace := by
  refine fun i => ⟨fun _ => Pi.single i 1, fun _ => Pi.single i 1, ?_⟩
  simp only [constantTest, one_smul]
  rfl

theorem pair_step (dt s : ℝ) (hdt : dt ≠ 0) (t : ℚ) (prev : HdgState 1 3 Bool (Bool × Bool)) :
    hdgStep pairMesh (fun _ => 1) pairSpace (Scheme.implicitEuler.quotient dt) t (pairState s)
      (pairState (s * (1 + 2 * dt))) prev := by
  rintro _ ⟨a, g, rfl⟩
  simp [timeForm, convectionForm, diffusionForm, boundaryForm, frobenius, pairMesh, pairState,
    dotProduct, Fin.sum_univ_three, Fintype.sum_prod_type, Scheme.quotient,
    _root_.Spec.backwardEuler]
  field_simp
  ring

/-- C89, concrete instance: from the densities 7/2 and 1/2, one step of length 1/4 leads to 3 and 1,
which are positive and hold at most all of the mass. -/
example : ∀ x ∈ [pairState 1], ∀ v, 0 < x.U v 0 ∧ pairMesh.wV v * x.U v 0 ≤ 4 := by
  have := C89_container (γ := 7 / 5) (.inl rfl) pairMesh (fun _ => 1) pairCells pair_fits pairSpace
    pair_indicators pair_constants (1 / 4) (by norm_num) [1] (pairState (1 * (1 + 2 * (1 / 4))))
    [pairState 1]
    (fun x hx => by
      rw [List.mem_singleton.1 hx]
      refine ⟨fun b => (pairState 1).U b.1, fun _ => ![2, 0, 25 / 7], fun _ => .wall, ?_,
        fun _ => .inl rfl⟩
      have h := pair_lowestOrder 1
      exact ⟨h.constant, h.defined, h.flux, h.viscous, h.sponge, h.inside,
        fun _ h => absurd h one_ne_zero⟩)
    (fun x hx v => by rw [List.mem_singleton.1 hx]; rfl)
    ⟨pair_step _ _ (by norm_num) _ _, trivial⟩
    (fun v => by cases v <;> simp [pairState] <;> norm_num)
  have e : (pairState (1 * (1 + 2 * (1 / 4)))).total pairMesh 0 = 4 := by
    simp [HdgState.total, pairMesh, pairState]; norm_num
  rwa [e] at this

end Dream
