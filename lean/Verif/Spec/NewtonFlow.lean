import Verif.Spec.ShortSteps
import Verif.Spec.Newton
import Verif.Props.Transient
import Mathlib.Analysis.Calculus.Deriv.Basic

/-!
# The equations of the flow solver for coefficient vectors
-/

noncomputable section

namespace Dream
open Matrix Set Filter Topology

variable {n : ℕ} {V B : Type} [Fintype V] [Fintype B] {ι κ : Type} [Fintype ι] [Fintype κ]

/-- Coefficients of an element function and of a facet function, the vector `gfu.vec`. -/
abbrev Coeffs (ι κ : Type) : Type := (ι → ℝ) × (κ → ℝ)

/-- The element function with the coefficients `c` in the basis `bX`. -/
def elementOf {P : HdgSpaces n (n + 2) V B} (bX : ι → P.element) (c : ι → ℝ) :
    ElementFn n (n + 2) V B := ((∑ i, c i • bX i : P.element) : ElementFn n (n + 2) V B)

/-- The facet function with the coefficients `c` in the basis `bZ`. -/
def facetOf {P : HdgSpaces n (n + 2) V B} (bZ : κ → P.facet) (c : κ → ℝ) : B → Fin (n + 2) → ℝ :=
  ((∑ j, c j • bZ j : P.facet) : B → Fin (n + 2) → ℝ)

/-- The test function in the elements. -/
def elementTest (a : ElementFn n (n + 2) V B) : HdgTest n (n + 2) V B where
  grad := fun v => Matrix.of (a.1 v)
  val := a.2.1
  trace := a.2.2
  hat := 0

/-- The test function on the facets. -/
def facetTest (ζ : B → Fin (n + 2) → ℝ) : HdgTest n (n + 2) V B where
  grad := 0
  val := 0
  trace := 0
  hat := ζ

/-- All terms but the time derivative, applied to a test function
(dream/compressible/formulations/conservative.py:425-697). -/
def flowForm (M : HdgMesh n V B) (mask : B → ℝ) (x : HdgState n (n + 2) V B)
    (φ : HdgTest n (n + 2) V B) : ℝ :=
  convectionForm M mask x.F x.Fn φ + diffusionForm M mask x.G x.Gn φ + boundaryForm M x.R φ
    + timeForm M x.source φ

/-- Their values for all functions of the bases, the vector `blf.Apply(gfu.vec)`. -/
def flowVec (M : HdgMesh n V B) (mask : B → ℝ) {P : HdgSpaces n (n + 2) V B} (bX : ι → P.element)
    (bZ : κ → P.facet) (x : HdgState n (n + 2) V B) : Coeffs ι κ :=
  (fun i => flowForm M mask x (elementTest (bX i)), fun j => flowForm M mask x (facetTest (bZ j)))

/-- The discrete equations for coefficient vectors: `st x` is what the integrals see of the functions
with the coefficients `x`. -/
def flowSystem (M : HdgMesh n V B) (mask : B → ℝ) {P : HdgSpaces n (n + 2) V B} (bX : ι → P.element)
    (bZ : κ → P.facet) (st : Coeffs ι κ → HdgState n (n + 2) V B) :
    Problem ι (Coeffs ι κ) (Coeffs ι κ) where
  spatial := fun _ x => flowVec M mask bX bZ (st x)
  mass := fun d => (fun i => timeForm M (elementOf bX d).2.1 (elementTest (bX i)),
    fun j => timeForm M (elementOf bX d).2.1 (facetTest (bZ j)))
  comp := fun x => x.1

/-- Conservative variables of a gas. -/
def IsGas (γ : ℝ) (w : Fin (n + 2) → ℝ) : Prop :=
  ∃ S : Spec.GasState n, Spec.IdealGas γ S ∧ w = consVec S.rho S.rho_u S.rho_E

/-- All values of the functions with the coefficients `x`, in the elements, on their boundaries and on
the facets, are those of a gas. -/
def Coeffs.AreGas (γ : ℝ) {P : HdgSpaces n (n + 2) V B} (bX : ι → P.element) (bZ : κ → P.facet)
    (x : Coeffs ι κ) : Prop :=
  (∀ v, IsGas γ ((elementOf bX x.1).2.1 v)) ∧ (∀ b, IsGas γ ((elementOf bX x.1).2.2 b)) ∧
    ∀ b, IsGas γ (facetOf bZ x.2 b)

/-- The values in the elements and on the facets differ from the vector `w` by at most `η`. -/
def Coeffs.Near {P : HdgSpaces n (n + 2) V B} (bX : ι → P.element) (bZ : κ → P.facet)
    (w : Fin (n + 2) → ℝ) (η : ℝ) (x : Coeffs ι κ) : Prop :=
  (∀ v i, |(elementOf bX x.1).2.1 v i - w i| ≤ η) ∧ ∀ b i, |facetOf bZ x.2 b i - w i| ≤ η

/-- `d` is the derivative of `f` at zero, from the right or from the left. -/
def OneSided (f : ℝ → ℝ) (d : ℝ) : Prop :=
  HasDerivWithinAt f d (Ioi 0) 0 ∨ HasDerivWithinAt f d (Iio 0) 0

/-- `x'` is what the integrals see of the linearised equations at the functions `a` and `ζ`, in the
direction `a'` and `ζ'`: the derivatives of fluxes, residuals and sources along the line through
`a` and `ζ` in this direction. Numerical fluxes need not be differentiable, as `|u·n|` is not; there
the derivative from the right or that from the left is taken. -/
def HdgState.IsFlowSlope (γ : ℝ) (rs : Riemann) (M : HdgMesh n V B) (mask : B → ℝ)
    (cond : B → FacetCond n) (σ : V → ℝ) (target : Flow n) (a : ElementFn n (n + 2) V B)
    (ζ : B → Fin (n + 2) → ℝ) (a' : ElementFn n (n + 2) V B) (ζ' : B → Fin (n + 2) → ℝ)
    (x' : HdgState n (n + 2) V B) : Prop :=
  ∃ y : ℝ → HdgState n (n + 2) V B,
    (∀ᶠ τ in 𝓝 0, (y τ).IsFlow γ rs M mask cond σ target (a + τ • a') (ζ + τ • ζ')) ∧
    x'.G = 0 ∧ x'.Gn = 0 ∧
    (∀ v i j, HasDerivAt (fun τ => (y τ).F v i j) (x'.F v i j) 0) ∧
    (∀ b i, OneSided (fun τ => (y τ).Fn b i) (x'.Fn b i)) ∧
    (∀ b i, HasDerivAt (fun τ => (y τ).R b i) (x'.R b i) 0) ∧
    ∀ v i, HasDerivAt (fun τ => (y τ).source v i) (x'.source v i) 0

/-- `J x` is the matrix of the linearised spatial terms at every `x` whose values are those of a gas. -/
def IsFlowMatrix (γ : ℝ) (rs : Riemann) (M : HdgMesh n V B) (mask : B → ℝ)
    (cond : B → FacetCond n) (σ : V → ℝ) (target : Flow n) {P : HdgSpaces n (n + 2) V B}
    (bX : ι → P.element) (bZ : κ → P.facet) (J : Coeffs ι κ → Coeffs ι κ →L[ℝ] Coeffs ι κ) : Prop :=
  ∀ x, Coeffs.AreGas γ bX bZ x → ∀ v : Coeffs ι κ, ∃ x' : HdgState n (n + 2) V B,
    x'.IsFlowSlope γ rs M mask cond σ target (elementOf bX x.1) (facetOf bZ x.2)
      (elementOf bX v.1) (facetOf bZ v.2) ∧ J x v = flowVec M mask bX bZ x'

/-- The factor of the new state in the difference quotient. -/
def Scheme.leading (s : Scheme) (dt : ℝ) : ℝ :=
  match s with
  | .implicitEuler => 1 / dt
  | .bdf2 => 3 / (2 * dt)

/-- The linear solver solves the systems of all steps: with the matrix `J` of the spatial terms and
the mass matrix times the factor of the difference quotient. -/
def SolvesSteps (M : HdgMesh n V B) (mask : B → ℝ) {P : HdgSpaces n (n + 2) V B}
    (bX : ι → P.element) (bZ : κ → P.facet) (st : Coeffs ι κ → HdgState n (n + 2) V B)
    (J : Coeffs ι κ → Coeffs ι κ →L[ℝ] Coeffs ι κ) (s : Scheme) (dt : ℝ)
    (N : Newton (Coeffs ι κ) (Coeffs ι κ)) (c : ℝ) : Prop :=
  ∀ t cur prev, ∃ A : Coeffs ι κ → Coeffs ι κ →L[ℝ] Coeffs ι κ,
    (∀ x v, A x v = J x v + (flowSystem M mask bX bZ st).mass (fun i => s.leading dt * v.1 i)) ∧
    SolvesSystems (N.lin ((flowSystem M mask bX bZ st).stepEquation (s.quotient dt) t cur prev))
      ((flowSystem M mask bX bZ st).stepEquation (s.quotient dt) t cur prev) A c

/-- Newton's method computes the step from `cur` and `prev` to `new`: it reports convergence and not
NaN, its result is a discrete flow within `Y` of the vector `w`, the discrete equations of the step
have a solution `z` within `Y` of `w`, the only one within `R`, and every linear solve has reduced
the distance to `z` by the factor `1 - ω / 2` at least, where `ω` is the damping factor. -/
def FlowStepComputed (γ : ℝ) (rs : Riemann) (M : HdgMesh n V B) (mask : B → ℝ)
    (cond : B → FacetCond n) (σ : V → ℝ) (target : Flow n) {P : HdgSpaces n (n + 2) V B}
    (bX : ι → P.element) (bZ : κ → P.facet) (st : Coeffs ι κ → HdgState n (n + 2) V B)
    (w : Fin (n + 2) → ℝ) (s : Scheme) (dt : ℝ) (N : Newton (Coeffs ι κ) (Coeffs ι κ)) (Y R : ℝ)
    (t : ℚ) (new cur prev : Coeffs ι κ) : Prop :=
  let r := N.solve ((flowSystem M mask bX bZ st).stepEquation (s.quotient dt) t cur prev) cur
  new = r.u ∧ r.isConverged = true ∧ r.isNan = false ∧ Coeffs.Near bX bZ w Y new ∧
    (st new).IsFlow γ rs M mask cond σ target (elementOf bX new.1) (facetOf bZ new.2) ∧
    ∃ z, Coeffs.Near bX bZ w Y z ∧
      hdgStep M mask P.tests (s.quotient dt) t (st z) (st cur) (st prev) ∧
      (∀ y, Coeffs.Near bX bZ w R y →
        hdgStep M mask P.tests (s.quotient dt) t (st y) (st cur) (st prev) → y = z) ∧
      ‖new - z‖ ≤ (1 - N.damping / 2) ^ r.solves * ‖cur - z‖

end Dream
