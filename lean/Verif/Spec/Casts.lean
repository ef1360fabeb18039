import Verif.Model.Casts
import Mathlib.Analysis.InnerProductSpace.PiL2

/-!
# Shapes of arguments
-/

noncomputable section

namespace Dream.Spec

/-- The shapes the helpers distinguish. -/
inductive Shape
  | scalar | vector (n : ℕ) | matrix (n m : ℕ)

/-- `c` is a coefficient function of the given shape with the given entries, row by row. -/
def HasShape (c : Bla.CF) (s : Shape) (entries : List ℝ) : Prop :=
  c.entries = entries ∧ match s with
    | .scalar => c.dims = []
    | .vector n => c.dims = [n]
    | .matrix n m => c.dims = [n, m]

/-- The distance of two points of the plane. -/
def planeDist (p q : Fin 2 → ℝ) : ℝ := dist (WithLp.toLp 2 p) (WithLp.toLp 2 q)

/-- The distance of two points of the space. -/
def spaceDist (p q : Fin 3 → ℝ) : ℝ := dist (WithLp.toLp 2 p) (WithLp.toLp 2 q)

end Dream.Spec
