import Verif.Model.Boundary

/-!
# dream/compressible/formulations/conservative.py: the mixed form of `StrainHeat` and the viscous
terms of the characteristic boundary conditions (two dimensions, the only implemented case)

Integrands are modelled pointwise. A test function `P` of the mixed space has the five components
`(ζ₀₀, ζ₀₁, ζ₁₁, ξ₀, ξ₁)`, `gP` is the 5×2 matrix `ngs.grad(P)`.
-/

noncomputable section

namespace Dream

open Matrix

/-- `P.eps`, `P.grad_T` of `get_mixed_fields`
(dream/compressible/formulations/conservative.py:160-174). -/
def mixedEps (P : Fin 5 → ℝ) : Matrix (Fin 2) (Fin 2) ℝ := !![P 0, P 1; P 1, P 2]
@[inherit_doc mixedEps] def mixedGradT (P : Fin 5 → ℝ) : Fin 2 → ℝ := ![P 3, P 4]

/-- `dev_zeta` (dream/compressible/formulations/conservative.py:109). -/
def devZeta (P : Fin 5 → ℝ) : Matrix (Fin 2) (Fin 2) ℝ :=
  mixedEps P - ((mixedEps P).trace / 3) • (1 : Matrix (Fin 2) (Fin 2) ℝ)

/-- `div_dev_zeta` (dream/compressible/formulations/conservative.py:110-111). -/
def divDevZeta (gP : Matrix (Fin 5) (Fin 2) ℝ) : Fin 2 → ℝ :=
  ![gP 0 0 + gP 1 1, gP 1 0 + gP 2 1] - (1 / 3 : ℝ) • ![gP 0 0 + gP 2 0, gP 0 1 + gP 2 1]

/-- `div_xi` (dream/compressible/formulations/conservative.py:117). -/
def divXi (gP : Matrix (Fin 5) (Fin 2) ℝ) : ℝ := gP 3 0 + gP 4 1

/-- Volume integrand of `blf['mixed']`, strain part
(dream/compressible/formulations/conservative.py:112-113). -/
def mixedStrainVolume (Q P : Fin 5 → ℝ) (gP : Matrix (Fin 5) (Fin 2) ℝ) (u : Fin 2 → ℝ) : ℝ :=
  (∑ i, ∑ j, mixedEps Q i j * mixedEps P i j) + u ⬝ᵥ divDevZeta gP

/-- Integrand over element boundaries, strain part
(dream/compressible/formulations/conservative.py:114-115); it is subtracted. -/
def mixedStrainFacet (P : Fin 5 → ℝ) (uHat nrm : Fin 2 → ℝ) : ℝ := uHat ⬝ᵥ (devZeta P *ᵥ nrm)

/-- Volume integrand of `blf['mixed']`, heat part
(dream/compressible/formulations/conservative.py:118-119). -/
def mixedHeatVolume (Q P : Fin 5 → ℝ) (gP : Matrix (Fin 5) (Fin 2) ℝ) (T : ℝ) : ℝ :=
  mixedGradT Q ⬝ᵥ mixedGradT P + T * divXi gP

/-- Integrand over element boundaries, heat part
(dream/compressible/formulations/conservative.py:120-121); it is subtracted. -/
def mixedHeatFacet (P : Fin 5 → ℝ) (THat : ℝ) (nrm : Fin 2 → ℝ) : ℝ :=
  (THat • nrm) ⬝ᵥ mixedGradT P

/-- `M[k]` of a 2×2 coefficient function: NGSolve's integer index is row-major and flat. -/
def flat (M : Matrix (Fin 2) (Fin 2) ℝ) (k : Fin 4) : ℝ :=
  match k with
  | 0 => M 0 0
  | 1 => M 0 1
  | 2 => M 1 0
  | 3 => M 1 1

/-- The modified normal derivative `grad_Q` of `get_cbc_viscous_terms`
(dream/compressible/formulations/conservative.py:135-151); `g` is `ngs.grad(Q.Q) * n`. -/
def cbcGradQ (target : CbcTarget) (nrm tng : Fin 2 → ℝ) (g : Fin 5 → ℝ) : Fin 5 → ℝ :=
  let R : Matrix (Fin 2) (Fin 2) ℝ := (!![nrm 0, nrm 1; tng 0, tng 1])ᵀ
  let E := Rᵀ * !![g 0, g 1; g 1, g 2] * R
  let q : Fin 2 → ℝ := ![g 3, g 4]
  if target = .outflow then
    let q := Rᵀ *ᵥ ![g 3, g 4]
    let E := R * !![flat E 0, 0; 0, flat E 2] * Rᵀ
    let q := R *ᵥ ![0, q 1]
    ![flat E 0, flat E 1, flat E 2, q 0, q 1]
  else
    let E := R * !![0, flat E 1; flat E 1, flat E 2] * Rᵀ
    ![flat E 0, flat E 1, flat E 2, q 0, q 1]

/-- `StrainHeat.get_cbc_viscous_terms`
(dream/compressible/formulations/conservative.py:124-158). `gU`, `gQ` are the gradients of the
conservative and mixed variables. -/
def cbcViscousTerms (cfg : FlowCfg) (target : CbcTarget) (U : Flow 2) (Q : Grads 2)
    (gU : Matrix (Fin 4) (Fin 2) ℝ) (gQ : Matrix (Fin 5) (Fin 2) ℝ) (nrm tng : Fin 2 → ℝ) :
    Except PyErr (Fin 4 → ℝ) := do
  let Jt ← conservativeDiffusiveJacobian cfg U Q tng
  let Jn ← conservativeDiffusiveJacobian cfg U Q nrm
  let Mt ← mixedDiffusiveJacobian cfg U tng
  let Mn ← mixedDiffusiveJacobian cfg U nrm
  .ok (Jt *ᵥ (gU *ᵥ tng) + Jn *ᵥ (gU *ᵥ nrm) + Mt *ᵥ (gQ *ᵥ tng)
    + Mn *ᵥ cbcGradQ target nrm tng (gQ *ᵥ nrm))

end Dream
