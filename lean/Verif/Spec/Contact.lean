import Verif.Model.Characteristic
import Verif.Spec.Gas

/-! # Contact discontinuities -/

noncomputable section

namespace Spec

open Matrix Dream

/-- Two gases with the same velocity and the same pressure; densities and temperatures may
differ. -/
structure InContact (S W : GasState 2) : Prop where
  velocity : W.u = S.u
  pressure : W.p = S.p

/-- A unit of additional mass moving with the velocity `u` at unchanged pressure: mass, momentum
and energy. -/
def contactWave (u : Fin 2 → ℝ) : Fin 4 → ℝ := ![1, u 0, u 1, (u ⬝ᵥ u) / 2]

/-- The speed with which a Riemann solver mixes gases in contact, in terms of the normal velocity
`un` and the speed of sound `c`. -/
def contactSpeed (un c : ℝ) : Riemann → ℝ
  | .upwind => max un 0
  | .roe => |un|
  | .laxFriedrich => |un| + c
  | .hll => max (un + c) 0
  | .hllem θ₀ => max (un + c) 0 * max (|un| / (|un| + c)) θ₀

/-- The gas is at rest and has the pressure `p`. -/
structure AtRest (p : ℝ) (S : GasState 2) : Prop where
  still : S.u = 0
  pressure : S.p = p

end Spec
