import Verif.Model.Conditions
import Verif.Model.Boundary
import Mathlib.Algebra.BigOperators.Group.Finset.Basic
import Mathlib.Data.Real.Basic

/-!
# dream/solver.py, dream/mesh.py, dream/compressible/formulations/conservative.py: finite element
spaces, their components, and the polynomial orders in p-sponge layers
-/

namespace Dream

/-! ## Product spaces and their components -/

/-- A space that is not a product: an identity and the number of its unknowns. Powers (`U**dim`)
count as one space with vector values, as in NGSolve. -/
structure SimpleSpace where
  id : ℕ
  ndof : ℕ
  deriving DecidableEq

/-- What `*` of NGSolve's spaces returns or takes. -/
inductive Space
  | simple (s : SimpleSpace)
  | product (parts : List SimpleSpace)

/-- The factors. -/
def Space.parts : Space → List SimpleSpace
  | .simple s => [s]
  | .product ps => ps

/-- `fes1 * fes2`: NGSolve appends to a product that is already there. -/
def Space.mul (a b : Space) : Space := .product (a.parts ++ b.parts)

/-- `initialize_finite_element_spaces` (dream/solver.py:369-382) for the dictionary that
`add_finite_element_spaces` has filled. -/
def initializeSpaces (spaces : Dict Name Space) : Except PyErr Space :=
  match spaces.map Prod.snd with
  | [] => .error .valueError
  | s :: ss => .ok (ss.foldl Space.mul s)

/-- A trial or test function: of which component of the space. -/
structure Proxy where
  component : ℕ
  space : SimpleSpace
  isTest : Bool
  deriving DecidableEq

/-- `fes.TrialFunction()` and `fes.TestFunction()` of a product: one for each component. -/
def Space.proxies (s : Space) (isTest : Bool) : List Proxy :=
  s.parts.zipIdx.map fun x => ⟨x.2, x.1, isTest⟩

/-- `initialize_trial_and_test_functions` (dream/solver.py:384-390). A single space has one trial
and one test function. -/
def initializeTnT (spaces : Dict Name Space) (fes : Space) : Dict Name (Proxy × Proxy) :=
  if spaces.length > 1 then
    (spaces.keys.zip ((fes.proxies false).zip (fes.proxies true)))
  else spaces.keys.flatMap fun label =>
    ((fes.proxies false).zip (fes.proxies true)).map fun p => (label, p)

/-- The blocks of a vector, of the given lengths. -/
def blocks {α : Type} : List ℕ → List α → List (List α)
  | [], _ => []
  | n :: ns, v => v.take n :: blocks ns (v.drop n)

/-- `gfu.components` as parts of `gfu.vec`. -/
def Space.components {α : Type} (s : Space) (vec : List α) : List (List α) :=
  blocks (s.parts.map SimpleSpace.ndof) vec

/-- `initialize_gridfunctions` (dream/solver.py:392-398): what reading `gfus[label].vec` gives when
`gfu.vec` is `vec`. -/
def initializeGfus {α : Type} (spaces : Dict Name Space) (fes : Space) (vec : List α) :
    Dict Name (List α) :=
  if spaces.length > 1 then spaces.keys.zip (fes.components vec)
  else spaces.keys.map fun label => (label, vec)

/-- The number of vector components of the spaces of the compressible solver, by label:
`HDG.add_finite_element_spaces` and `add_mixed_finite_element_spaces`
(dream/compressible/formulations/conservative.py:65-68, 75-88, 280-291, 401-418, 828-830). -/
def flowSpaces (dim : ℕ) (m : MixedMethod) (cfg : FlowCfg) : Except PyErr (Dict Name ℕ) := do
  let fes : Dict Name ℕ := []
  let fes := fes.set "U".toList (dim + 2)
  let fes := fes.set "Uhat".toList (dim + 2)
  mixedMethodCheck m cfg
  match m with
  | .inactive => .ok fes
  | .strainHeat => .ok (fes.set "Q".toList (4 * dim - 3))
  | .gradient => .ok (fes.set "Q".toList (dim + 2))

/-! ## Polynomial orders in p-sponge layers -/

variable {E : Type}

/-- One round of the loop in `reduce_psponge_layers_order_elementwise` (dream/mesh.py:653-661):
`region` is the material of an element, `orders` the polynomial orders set so far. -/
def reduceRound (global : ℤ) (high : Cond → ℤ) (region : E → Name) (orders : E → ℤ)
    (kv : Name × Cond) : Except PyErr (E → ℤ) :=
  if high kv.2 > global then .error .valueError
  else .ok fun e => if region e ∈ splitBar kv.1 then high kv.2 else orders e

/-- `reduce_psponge_layers_order_elementwise` (dream/mesh.py:641-666): the polynomial orders of the
elements. `high` is the option `high_order` of the layers, `layers` the dictionary that is
passed. -/
def reduceElementwise (isL2 : Bool) (global : ℤ) (high : Cond → ℤ) (region : E → Name)
    (layers : Dict Name Cond) : Except PyErr (E → ℤ) :=
  if !isL2 then .error .typeError
  else layers.foldlM (reduceRound global high region) fun _ => global

/-- A facet space of order `p` in two dimensions: each of the `nf` facets has the unknowns
(`modes`) `0, …, p`; `num` is their number in the vector, `adj` the materials of the elements at
the facet. -/
structure FacetSpace (nf p : ℕ) where
  num : Fin nf → Fin (p + 1) → ℕ
  adj : Fin nf → List Name

variable {nf p : ℕ}

/-- `space.GetDofs(mesh.Materials(pattern))`: the unknowns on the facets of the elements of a
region. -/
def FacetSpace.getDofs (S : FacetSpace nf p) (pattern : Name) (i : ℕ) : Bool :=
  decide (∃ f m, S.num f m = i ∧ ∃ r ∈ S.adj f, r ∈ splitBar pattern)

/-- `bits[i::step] = 0`. -/
def clearStride (bits : ℕ → Bool) (start step : ℕ) (i : ℕ) : Bool :=
  bits i && !(decide (start ≤ i) && decide ((i - start) % step = 0))

/-- The inner loop (dream/mesh.py:692-693): `for i in range(high_order + 1, p + 1, 1)`. Orders are
not negative (C39). -/
def clearHigh (p : ℕ) (high : ℤ) (bits : ℕ → Bool) : ℕ → Bool :=
  ((List.range' (high.toNat + 1) (p - high.toNat)).foldl
    fun bits i => clearStride bits i (p + 1)) bits

/-- One round of the outer loop (dream/mesh.py:683-696). -/
def facetRound (S : FacetSpace nf p) (high : Cond → ℤ) (vhat : ℕ → Bool) (kv : Name × Cond) :
    Except PyErr (ℕ → Bool) :=
  if high kv.2 > p then .error .valueError
  else
    let domain := clearHigh p (high kv.2) (S.getDofs kv.1)
    .ok fun i => vhat i || domain i

/-- `reduce_psponge_layers_order_facetwise` (dream/mesh.py:668-701): which unknowns
`ngs.Compress` keeps. -/
def reduceFacetwise (S : FacetSpace nf p) (isFacet : Bool) (dim : ℕ) (high : Cond → ℤ)
    (layers : Dict Name Cond) : Except PyErr (ℕ → Bool) :=
  if !isFacet then .error .typeError
  else if layers.isEmpty then .ok fun _ => true
  else if dim ≠ 2 then .error .notImplemented
  else layers.foldlM (facetRound S high)
    fun i => !S.getDofs (getPatternFromSequence (.seq layers.keys)) i

/-! ## Functions of sponge layers -/

/-- `SpongeLayer.get_space` (dream/mesh.py:407-431): the polynomial orders, by element, and which
elements are active. `max([])` raises. -/
def spongeSpace (order : Cond → ℤ) (region : E → Name) (layers : Dict Name Cond) :
    Except PyErr ((E → ℤ) × (E → Bool)) :=
  match layers.map fun kv => order kv.2 with
  | [] => .error .valueError
  | o :: os =>
    let highest := os.foldl max o
    let constant := (o :: os).all fun x => x == o
    let orders := if constant then fun _ => highest else
      layers.foldl (fun ord kv e => if region e ∈ splitBar kv.1 then order kv.2 else ord e)
        fun _ => highest
    .ok (orders, fun e => decide (region e ∈ splitBar (getPatternFromSequence (.seq layers.keys))))

open BigOperators in
/-- `get_buffer_function_` (dream/mesh.py:609-639): the function of the discontinuous space `W` that
solves the mass matrix system; the right-hand side adds the functions of all layers over their
regions. `V` are quadrature points with weights `w`, `elem` the element of a point. -/
def IsBufferFunction {V : Type} [Fintype V] (w : V → ℝ) (elem : V → E) (region : E → Name)
    (W : Set (V → ℝ)) (function : Cond → V → ℝ) (layers : Dict Name Cond) (u : V → ℝ) : Prop :=
  u ∈ W ∧ ∀ v ∈ W, ∑ x, w x * (u x * v x)
    = (layers.map fun kv => ∑ x, if region (elem x) ∈ splitBar kv.1
        then w x * (function kv.2 x * v x) else 0).sum

end Dream
