import Verif.Model.Hdg

/-!
# Amounts of the conserved quantities, in quadrature
-/

noncomputable section

namespace Dream

variable {n k : ℕ} {V B : Type} [Fintype V] [Fintype B]

/-- The amount of the `i`-th conserved quantity in the domain. -/
def HdgState.total (M : HdgMesh n V B) (i : Fin k) (x : HdgState n k V B) : ℝ :=
  ∑ v, M.wV v * x.U v i

/-- What leaves the domain per time through the boundaries with a condition, plus what the sponge
layers take out. -/
def HdgState.loss (M : HdgMesh n V B) (mask : B → ℝ) (i : Fin k) (x : HdgState n k V B) : ℝ :=
  (∑ b, if mask b = 0 then M.wB b * (x.Fn b i - x.Gn b i) else 0) + ∑ v, M.wV v * x.source v i

end Dream
