import Verif.Model.Hdg
import Verif.Spec.Triangle
import Mathlib.Algebra.MvPolynomial.PDeriv
import Mathlib.Algebra.Polynomial.Eval.Degree
import Mathlib.MeasureTheory.Integral.IntervalIntegral.Basic
import Mathlib.Analysis.SpecialFunctions.Sqrt

/-!
# Triangulations, quadrature rules and the spaces of the HDG method

`HdgMesh` and `HdgTest` (Model/Hdg.lean) leave open where quadrature points and test functions
come from. Here they come from a mesh of straight triangles, from rules on the reference triangle
and the reference segment, and from piecewise polynomials, as in NGSolve.
-/

noncomputable section

namespace Dream

open Matrix Spec Polynomial

/-- A mesh of triangles with straight sides, of any size. The corners of each triangle are listed
counterclockwise; side `i` goes from corner `i` to corner `i + 1`. `across` is the side of the
neighbouring triangle (also across a periodic boundary), `none` on the boundary; `region` is the
name of the boundary region of a side. -/
structure Triangulation (E : Type) where
  corner : E → Fin 3 → Fin 2 → ℝ
  across : E × Fin 3 → Option (E × Fin 3)
  region : E × Fin 3 → Option Name

variable {E : Type}

namespace Triangulation

variable (K : Triangulation E)

/-- Start of a side. -/
def start (x : E × Fin 3) : Fin 2 → ℝ := K.corner x.1 x.2

/-- End of a side. -/
def stop (x : E × Fin 3) : Fin 2 → ℝ := K.corner x.1 (x.2 + 1)

/-- Length of a side. -/
def length (x : E × Fin 3) : ℝ :=
  Real.sqrt ((K.stop x 0 - K.start x 0) ^ 2 + (K.stop x 1 - K.start x 1) ^ 2)

/-- Outer unit normal of a side (`mesh.normal`). -/
def normal (x : E × Fin 3) : Fin 2 → ℝ :=
  ![(K.stop x 1 - K.start x 1) / K.length x, (K.start x 0 - K.stop x 0) / K.length x]

/-- The point of a side with the parameter `s`. -/
def sidePoint (x : E × Fin 3) (s : ℝ) : Fin 2 → ℝ := K.start x + s • (K.stop x - K.start x)

/-- The point of a triangle with the reference coordinates `p`. -/
def point (e : E) (p : Fin 2 → ℝ) : Fin 2 → ℝ :=
  K.corner e 0 + p 0 • (K.corner e 1 - K.corner e 0) + p 1 • (K.corner e 2 - K.corner e 0)

/-- Twice the area of a triangle. -/
def area2 (e : E) : ℝ := Spec.area2 (K.corner e 0) (K.corner e 1) (K.corner e 2)

/-- The triangles are not degenerate and fit together: across a side lies a triangle that has the
same side with the opposite direction, up to the translation of a periodic boundary. -/
structure Conforming : Prop where
  oriented : ∀ e, 0 < K.area2 e
  symm : ∀ x y, K.across x = some y → K.across y = some x
  fits : ∀ x y, K.across x = some y → ∃ v, K.start y = K.stop x + v ∧ K.stop y = K.start x + v

end Triangulation

/-- A quadrature rule on the reference triangle. -/
structure VolumeRule where
  n : ℕ
  pt : Fin n → Fin 2 → ℝ
  w : Fin n → ℝ

/-- A quadrature rule on the reference segment. -/
structure SideRule where
  n : ℕ
  pt : Fin n → ℝ
  w : Fin n → ℝ

/-- The rule is exact for polynomials up to the degree `d` (NGSolve's `IntegrationRule` of order
`d`). -/
def VolumeRule.Exact (R : VolumeRule) (d : ℕ) : Prop :=
  ∀ p : MvPolynomial (Fin 2) ℝ, p.totalDegree ≤ d → ∑ q, R.w q * MvPolynomial.eval (R.pt q) p
    = ∫ x in (0 : ℝ)..1, ∫ y in (0 : ℝ)..(1 - x), MvPolynomial.eval ![x, y] p

/-- Likewise on the segment. -/
def SideRule.Exact (S : SideRule) (d : ℕ) : Prop :=
  ∀ p : ℝ[X], p.natDegree ≤ d → ∑ q, S.w q * p.eval (S.pt q) = ∫ s in (0 : ℝ)..1, p.eval s

/-- The quadrature points of `ngs.dx` and `ngs.dx(element_boundary=True)`
(dream/compressible/formulations/conservative.py:437-439), with the weights of the rules times
the area and length elements. -/
def Triangulation.mesh (K : Triangulation E) (R : VolumeRule) (S : SideRule) :
    HdgMesh 2 (E × Fin R.n) ((E × Fin 3) × Fin S.n) where
  wV := fun v => K.area2 v.1 * R.w v.2
  wB := fun b => K.length b.1 * S.w b.2
  normal := fun b => K.normal b.1
  region := fun b => K.region b.1

/-- Positions of the quadrature points in the triangles. -/
def Triangulation.pos (K : Triangulation E) (R : VolumeRule) (v : E × Fin R.n) : Fin 2 → ℝ :=
  K.point v.1 (R.pt v.2)

/-- Positions of the quadrature points on the sides. -/
def Triangulation.posB (K : Triangulation E) (S : SideRule) (b : (E × Fin 3) × Fin S.n) :
    Fin 2 → ℝ := K.sidePoint b.1 (S.pt b.2)

/-- A test function of `U**dim × Uhat**dim`
(dream/compressible/formulations/conservative.py:401-418): in every triangle `k` polynomials of
degree at most `order`, independent of each other; on every side `k` polynomials in the parameter
of the side, the same seen from both triangles. The orders may differ from triangle to triangle
and from side to side (`reduce_psponge_layers_order_…`, lines 409-412). -/
structure PolyTest (K : Triangulation E) (k : ℕ) (order : E → ℕ) (orderHat : E × Fin 3 → ℕ) where
  V : E → Fin k → MvPolynomial (Fin 2) ℝ
  hat : E × Fin 3 → Fin k → ℝ[X]
  degree : ∀ e i, (V e i).totalDegree ≤ order e
  degreeHat : ∀ x i, (hat x i).natDegree ≤ orderHat x
  single : ∀ x y, K.across x = some y → ∀ i, hat y i = (hat x i).comp (1 - X)

/-- What the integrals see of a test function: `V`, `grad(V)`, the trace of `V` and `Vhat`. -/
def PolyTest.toTest {K : Triangulation E} {k : ℕ} {order : E → ℕ} {orderHat : E × Fin 3 → ℕ}
    (φ : PolyTest K k order orderHat) (R : VolumeRule) (S : SideRule) :
    HdgTest 2 k (E × Fin R.n) ((E × Fin 3) × Fin S.n) where
  val := fun v i => MvPolynomial.eval (K.pos R v) (φ.V v.1 i)
  grad := fun v => Matrix.of fun i j =>
    MvPolynomial.eval (K.pos R v) (MvPolynomial.pderiv j (φ.V v.1 i))
  trace := fun b i => MvPolynomial.eval (K.posB S b) (φ.V b.1.1 i)
  hat := fun b i => (φ.hat b.1 i).eval (S.pt b.2)

/-- The finite element space. -/
def Triangulation.space (K : Triangulation E) (k : ℕ) (order : E → ℕ) (orderHat : E × Fin 3 → ℕ)
    (R : VolumeRule) (S : SideRule) : Set (HdgTest 2 k (E × Fin R.n) ((E × Fin 3) × Fin S.n)) :=
  Set.range fun φ : PolyTest K k order orderHat => φ.toTest R S

/-- The space of the mixed variables (dream/compressible/formulations/conservative.py:82-88): in
every triangle five polynomials. -/
def Triangulation.mixedSpace (K : Triangulation E) (order : E → ℕ) (R : VolumeRule) (S : SideRule) :
    Set (MixedTest (E × Fin R.n) ((E × Fin 3) × Fin S.n)) :=
  {P | ∃ V : E → Fin 5 → MvPolynomial (Fin 2) ℝ, (∀ e i, (V e i).totalDegree ≤ order e) ∧
    P = { val := fun v i => MvPolynomial.eval (K.pos R v) (V v.1 i)
          grad := fun v => Matrix.of fun i j =>
            MvPolynomial.eval (K.pos R v) (MvPolynomial.pderiv j (V v.1 i))
          trace := fun b i => MvPolynomial.eval (K.posB S b) (V b.1.1 i) }}

end Dream
