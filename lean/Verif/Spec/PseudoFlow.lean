import Verif.Spec.NewtonFlow

/-!
# Computing a steady flow
-/

noncomputable section

namespace Dream

variable {n : ℕ} {V B : Type} [Fintype V] [Fintype B] {ι κ : Type} [Fintype ι] [Fintype κ]

/-- Pseudo time stepping with implicit Euler computes the uniform flow `w` from `x0`: the routine
ends without error after at most `m` iterations, reports convergence and not NaN, the `i`-th iterate
differs from `w` by at most `Y * q ^ i`, counted from zero, which includes its result, and the
result is a discrete flow. -/
def FindsFlow (γ : ℝ) (rs : Riemann) (M : HdgMesh n V B) (mask : B → ℝ) (cond : B → FacetCond n)
    (σ : V → ℝ) (target : Flow n) {P : HdgSpaces n (n + 2) V B} (bX : ι → P.element)
    (bZ : κ → P.facet) (st : Coeffs ι κ → HdgState n (n + 2) V B) (w : Fin (n + 2) → ℝ) (ps : Pseudo)
    (N : Newton (Coeffs ι κ) (Coeffs ι κ)) (t dt : ℚ) (x0 : Coeffs ι κ) (m : ℕ) (q Y : ℝ) : Prop :=
  ∃ res, pseudoRun (flowSystem M mask bX bZ st) .implicitEuler ps N t dt x0 = .ok res ∧
    res.isConverged = true ∧ res.isNan = false ∧ res.trace.length ≤ m ∧
    (∀ (i : ℕ) p, res.trace[i]? = some p → Coeffs.Near bX bZ w (Y * q ^ i) p.1) ∧
    Coeffs.Near bX bZ w (Y * q ^ res.trace.length) res.x ∧
    (st res.x).IsFlow γ rs M mask cond σ target (elementOf bX res.x.1) (facetOf bZ res.x.2)

end Dream
