import Verif.Spec.Gas

/-!
# Small disturbances of a uniform flow

Independent of the model: a disturbance is the derivative, at zero, of a family of gas states by its
amplitude.
-/

namespace Spec
open Matrix

/-- First order changes of density, velocity and pressure. -/
structure Disturbance (n : ℕ) where
  rho : ℝ
  u : Fin n → ℝ
  p : ℝ

/-- The gas states `W ε` are those of `S` disturbed by `ε D`, up to terms of higher order. -/
structure Disturbs {n : ℕ} (γ : ℝ) (S : GasState n) (D : Disturbance n) (W : ℝ → GasState n) : Prop where
  zero : W 0 = S
  gas : ∀ᶠ ε in nhds 0, IdealGas γ (W ε)
  rho : HasDerivAt (fun ε => (W ε).rho) D.rho 0
  u : ∀ j, HasDerivAt (fun ε => (W ε).u j) (D.u j) 0
  p : HasDerivAt (fun ε => (W ε).p) D.p 0

/-- A plane sound wave that runs in the direction `k` (relative to the fluid): the velocity is that of
the wave `p' / (ρ c)` in this direction, the entropy is not disturbed. -/
structure IsSound {n : ℕ} (S : GasState n) (k : Fin n → ℝ) (D : Disturbance n) : Prop where
  rho : D.rho = D.p / S.c ^ 2
  u : D.u = (D.p / (S.rho * S.c)) • k

end Spec
