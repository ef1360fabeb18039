import Verif.Spec.Rotation
import Mathlib.Data.Matrix.Mul
import Mathlib.Data.Fintype.Sum

/-!
# Specification: a domain and its mirror image

`r` is the name of a plane boundary with unit normal `d`. The doubled domain consists of the
domain (`Sum.inl`) and its mirror image (`Sum.inr`); the boundary `r` has become an interior
interface between the two.
-/

namespace Spec

open Matrix Dream

/-- The reflection at the plane with unit normal `d`. -/
def mirror {n : ℕ} (d : Fin n → ℝ) : Matrix (Fin n) (Fin n) ℝ := 1 - 2 • vecMulVec d d

variable {n : ℕ} {V B : Type}

/-- The quadrature points of the doubled domain: weights are the same, normals are reflected, and
the points of `r` are interior points. -/
def doubleMesh (d : Fin n → ℝ) (r : Name) (M : HdgMesh n V B) : HdgMesh n (V ⊕ V) (B ⊕ B) where
  wV := Sum.elim M.wV M.wV
  wB := Sum.elim M.wB M.wB
  normal := Sum.elim M.normal fun b => mirror d *ᵥ M.normal b
  region := fun b => if Sum.elim M.region M.region b = some r then none
    else Sum.elim M.region M.region b

/-- A field on the doubled domain: reflected vectors in the mirror image. -/
def doubleVec {A : Type} (d : Fin n → ℝ) (f : A → Fin (n + 2) → ℝ) : A ⊕ A → Fin (n + 2) → ℝ :=
  Sum.elim f fun a => rotVec (mirror d) (f a)

/-- The state and its mirror image. The interface has no boundary condition. -/
def doubleState (d : Fin n → ℝ) (r : Name) (M : HdgMesh n V B) (x : HdgState n (n + 2) V B) :
    HdgState n (n + 2) (V ⊕ V) (B ⊕ B) where
  U := doubleVec d x.U
  F := Sum.elim x.F fun v => rotFlux (mirror d) (x.F v)
  G := Sum.elim x.G fun v => rotFlux (mirror d) (x.G v)
  Fn := doubleVec d x.Fn
  Gn := doubleVec d x.Gn
  R := fun b => if Sum.elim M.region M.region b = some r then 0 else doubleVec d x.R b
  source := doubleVec d x.source

/-- The restriction of a test function to the domain. -/
def leftTest {k : ℕ} (ψ : HdgTest n k (V ⊕ V) (B ⊕ B)) : HdgTest n k V B where
  grad := fun v => ψ.grad (.inl v)
  val := fun v => ψ.val (.inl v)
  trace := fun b => ψ.trace (.inl b)
  hat := fun b => ψ.hat (.inl b)

/-- The restriction of a test function to the mirror image. -/
def rightTest {k : ℕ} (ψ : HdgTest n k (V ⊕ V) (B ⊕ B)) : HdgTest n k V B where
  grad := fun v => ψ.grad (.inr v)
  val := fun v => ψ.val (.inr v)
  trace := fun b => ψ.trace (.inr b)
  hat := fun b => ψ.hat (.inr b)

/-- The test functions on the doubled domain: on the domain and, reflected, on the mirror image
they are test functions of the domain, and on the interface the facet values are the same from
both sides. -/
def doubleTests (d : Fin n → ℝ) (r : Name) (M : HdgMesh n V B) (T : Set (HdgTest n (n + 2) V B)) :
    Set (HdgTest n (n + 2) (V ⊕ V) (B ⊕ B)) :=
  {ψ | leftTest ψ ∈ T ∧ rotTest (mirror d) (rightTest ψ) ∈ T ∧
    ∀ b, M.region b = some r → ψ.hat (.inl b) = ψ.hat (.inr b)}

/-- The facet test function with values `h` on the boundary `r`. -/
def facetTest {k : ℕ} (r : Name) (M : HdgMesh n V B) (h : B → Fin k → ℝ) : HdgTest n k V B where
  grad := fun _ => 0
  val := fun _ => 0
  trace := fun _ => 0
  hat := fun b => if M.region b = some r then h b else 0

end Spec
