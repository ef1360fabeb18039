import Verif.Props.Transient

/-!
# What a linear solver leaves over (for C86)
-/

noncomputable section

namespace Dream

variable {ι X Y κ : Type} [AddCommGroup X] [Module ℝ X] [AddCommGroup Y]

/-- `δ` solves the linearisation at `x` of the equations `F = 0` up to `ε`: in each equation
`ev j ∘ F`, the derivative in the direction `δ` differs from the residual by at most `ε`. -/
def SolvesLinearised (ev : κ → Y → ℝ) (ε : ℝ) (F : X → Y) (x δ : X) : Prop :=
  ∀ j, ∃ d : ℝ, HasDerivAt (fun r : ℝ => ev j (F (x + r • δ))) d 0 ∧ |d - ev j (F x)| ≤ ε

/-- Whenever an increment is used at all (the error is not NaN), it solves the linearisation of the
equations of a time step up to `ε`. Nothing is said about the size of the residual, the number of
iterations or the error reported. -/
def Newton.SolvesUpTo (N : Newton X Y) (P : Problem ι X Y) (s : Scheme) (ev : κ → Y → ℝ) (ε : ℝ) :
    Prop :=
  ∀ (dt : ℝ) (t : ℚ) (cur prev : X) (it : ℕ) (x δ : X) (e : ℝ),
    N.lin (fun x => P.spatial t x + P.mass fun i =>
      s.quotient dt (P.comp x i) (P.comp cur i) (P.comp prev i)) it x = (δ, some e) →
    SolvesLinearised ev ε (fun x => P.spatial t x + P.mass fun i =>
      s.quotient dt (P.comp x i) (P.comp cur i) (P.comp prev i)) x δ

end Dream
