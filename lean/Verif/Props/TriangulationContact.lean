import Verif.Props.TriangulationFlows
import Verif.Props.Contact

/-!
# C84: gases at rest on triangulations
-/

noncomputable section

namespace Dream

open Matrix _root_.Spec

variable {E : Type} [Fintype E] {K : Triangulation E} {R : VolumeRule} {S : SideRule} {γ : ℝ}

/-- **C84** Gases at rest with one pressure and any densities stay as they are on every conforming
triangulation, for all orders, with Roe's or the upwind flux, in runs of any length. The densities
may jump from triangle to triangle, and inside them. -/
theorem C84_rest (hK : K.Conforming) {bcs : Conditions} (hc : K.Covered bcs) {d : ℕ}
    (hR : R.Exact d) (hS : S.Exact (d + 1)) {order : E → ℕ} {orderHat : E × Fin 3 → ℕ}
    (ho : ∀ e, order e ≤ d + 1) (ho' : ∀ x, orderHat x ≤ d + 1) {p : ℝ} (rs : Riemann)
    (hrs : rs = .upwind ∨ rs = .roe) (s : Scheme) (dt : ℝ) (ts : List ℚ)
    (el : E × Fin R.n → GasState 2) (tr hat : (E × Fin 3) × Fin S.n → GasState 2)
    (hel : ∀ v, IdealGas γ (el v) ∧ AtRest p (el v))
    (htr : ∀ b, IdealGas γ (tr b) ∧ AtRest p (tr b))
    (hhat : ∀ b, IdealGas γ (hat b) ∧ AtRest p (hat b))
    (x : HdgState 2 4 (E × Fin R.n) ((E × Fin 3) × Fin S.n)) (hU : ∀ v, x.U v = gasVec (el v))
    (hx : x.IsEuler γ rs (K.mesh R S) (fun b => gasVec (tr b)) (fun b => gasVec (hat b)))
    (hb : ∀ b, x.R b = 0 ∨ hat b = tr b ∧ Matching γ (tr b) (K.normal b.1) (x.R b))
    (σ : E × Fin R.n → ℝ) (hσ : ∀ v, spongeResidual γ (σ v) (conservativeDict (el v)) (x.U v)
      = .ok (x.source v)) :
    Satisfies (hdgStep (K.mesh R S) ((K.mesh R S).mask bcs) (K.space 4 order orderHat R S)
      (s.quotient dt)) x x ts (List.replicate ts.length x) :=
  C79_rest_run rs hrs (K.mesh R S) (mesh_normal hK) _ _ (C84_gauss hK hc hR hS ho ho') s dt ts el
    tr hat hel htr hhat x hU hx hb σ hσ

/-- C84, concrete instance: a heavy gas in one triangle of the square, a light one in the other. -/
example (R : VolumeRule) : (∀ v : Bool × Fin R.n,
      IdealGas 2 (GasState.of (n := 2) 2 (if v.1 then 4 else 1) 0 (if v.1 then 1 / 4 else 1))
      ∧ AtRest 1 (GasState.of 2 (if v.1 then 4 else 1) 0 (if v.1 then 1 / 4 else 1)))
    ∧ (squareMesh true).Conforming ∧ (squareMesh true).Covered (squareConditions true) := by
  refine ⟨fun v => ?_, squareMesh_conforming true, squareMesh_covered true⟩
  cases v.1
  · exact ⟨IdealGas.of (by norm_num) (by norm_num) (by norm_num), rfl, by norm_num [GasState.of]⟩
  · exact ⟨IdealGas.of (by norm_num) (by norm_num) (by norm_num), rfl, by norm_num [GasState.of]⟩

end Dream
