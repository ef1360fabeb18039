import Mathlib.MeasureTheory.Integral.IntervalIntegral.Basic
import Mathlib.LinearAlgebra.Matrix.DotProduct
import Mathlib.MeasureTheory.Measure.Haar.OfBasis
import Mathlib.Analysis.Convex.Hull
import Mathlib.Analysis.Calculus.FDeriv.Basic

/-!
# Integrals over triangles and their sides
-/

noncomputable section

namespace Spec

open Matrix

/-- Twice the signed area of the triangle with the corners `a`, `b`, `c`: positive if they are
listed counterclockwise. -/
def area2 (a b c : Fin 2 → ℝ) : ℝ :=
  (b 0 - a 0) * (c 1 - a 1) - (b 1 - a 1) * (c 0 - a 0)

/-- The closed triangle with the corners `a`, `b`, `c`. -/
def triangle (a b c : Fin 2 → ℝ) : Set (Fin 2 → ℝ) := convexHull ℝ {a, b, c}

/-- The integral of `f` over the triangle with the corners `a`, `b`, `c` (listed
counterclockwise). -/
def triangleIntegral (a b c : Fin 2 → ℝ) (f : (Fin 2 → ℝ) → ℝ) : ℝ :=
  area2 a b c * ∫ x in (0 : ℝ)..1, ∫ y in (0 : ℝ)..(1 - x), f (a + x • (b - a) + y • (c - a))

/-- The integral of `f` over the straight segment from `p` to `q` with respect to its length,
where `f` also sees the unit normal to the right of the direction of travel. -/
def segmentIntegral (p q : Fin 2 → ℝ) (f : (Fin 2 → ℝ) → (Fin 2 → ℝ) → ℝ) : ℝ :=
  let l := Real.sqrt ((q 0 - p 0) ^ 2 + (q 1 - p 1) ^ 2)
  l * ∫ s in (0 : ℝ)..1, f (p + s • (q - p)) ![(q 1 - p 1) / l, (p 0 - q 0) / l]

/-- The integral over the boundary of the triangle with the corners `a`, `b`, `c` (listed
counterclockwise); `f` sees the position and the outer unit normal. -/
def boundaryIntegral (a b c : Fin 2 → ℝ) (f : (Fin 2 → ℝ) → (Fin 2 → ℝ) → ℝ) : ℝ :=
  segmentIntegral a b f + segmentIntegral b c f + segmentIntegral c a f

/-- The matrix of partial derivatives: row `i` has the derivatives of component `i`. -/
def jacobian {m : ℕ} (L : (Fin 2 → ℝ) →L[ℝ] (Fin m → ℝ)) : Matrix (Fin m) (Fin 2) ℝ :=
  Matrix.of fun i j => L (Pi.single j 1) i

/-- `f` is continuously differentiable on the set `s`, with the derivative `f'`. -/
structure Smooth {m : ℕ} (s : Set (Fin 2 → ℝ)) (f : (Fin 2 → ℝ) → Fin m → ℝ)
    (f' : (Fin 2 → ℝ) → (Fin 2 → ℝ) →L[ℝ] (Fin m → ℝ)) : Prop where
  deriv : ∀ x ∈ s, HasFDerivAt f (f' x) x
  cont : ContinuousOn f' s

end Spec
