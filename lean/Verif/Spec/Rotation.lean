import Verif.Spec.Gas
import Verif.Model.Hdg

/-!
# Specification: change of the coordinate axes

`Q` is an orthogonal matrix, a rotation or a reflection of space.
-/

namespace Spec

open Matrix

/-- `Q` is orthogonal. -/
def Orthogonal {n : ℕ} (Q : Matrix (Fin n) (Fin n) ℝ) : Prop := Qᵀ * Q = 1

/-- The gas state seen in the new axes: the velocity is turned, everything else is the same. -/
def GasState.rotate {n : ℕ} (Q : Matrix (Fin n) (Fin n) ℝ) (S : GasState n) : GasState n :=
  { S with u := Q *ᵥ S.u, rho_u := Q *ᵥ S.rho_u }

/-- A vector of one scalar, a space vector and another scalar in the new axes. -/
def rotVec {n : ℕ} (Q : Matrix (Fin n) (Fin n) ℝ) (w : Fin (n + 2) → ℝ) : Fin (n + 2) → ℝ :=
  Fin.cons (w 0) (Fin.snoc (Q *ᵥ fun i => w i.castSucc.succ) (w (Fin.last (n + 1))))

/-- A matrix whose rows belong to the components of such vectors and whose columns belong to the
space directions (a flux or a gradient): rows and columns are turned. -/
def rotFlux {n : ℕ} (Q : Matrix (Fin n) (Fin n) ℝ) (F : Matrix (Fin (n + 2)) (Fin n) ℝ) :
    Matrix (Fin (n + 2)) (Fin n) ℝ :=
  (Matrix.of fun i j => rotVec Q (fun l => F l j) i) * Qᵀ

/-- The symmetric tensor and the vector stored in five components, in the new axes. -/
def rotMixed (Q : Matrix (Fin 2) (Fin 2) ℝ) (q : Fin 5 → ℝ) : Fin 5 → ℝ :=
  let E := Q * !![q 0, q 1; q 1, q 2] * Qᵀ
  let g := Q *ᵥ ![q 3, q 4]
  ![E 0 0, E 0 1, E 1 1, g 0, g 1]

/-- The gradient of such a five-component field in the new axes. -/
def rotMixedGrad (Q : Matrix (Fin 2) (Fin 2) ℝ) (g : Matrix (Fin 5) (Fin 2) ℝ) :
    Matrix (Fin 5) (Fin 2) ℝ :=
  (Matrix.of fun i j => rotMixed Q (fun l => g l j) i) * Qᵀ

variable {V B : Type}

/-- The mesh in the new axes: the normals are turned. -/
def rotMesh {n : ℕ} (Q : Matrix (Fin n) (Fin n) ℝ) (M : Dream.HdgMesh n V B) :
    Dream.HdgMesh n V B :=
  { M with normal := fun b => Q *ᵥ M.normal b }

/-- A test function in the new axes. -/
def rotTest {n : ℕ} (Q : Matrix (Fin n) (Fin n) ℝ) (φ : Dream.HdgTest n (n + 2) V B) :
    Dream.HdgTest n (n + 2) V B where
  grad := fun v => rotFlux Q (φ.grad v)
  val := fun v => rotVec Q (φ.val v)
  trace := fun b => rotVec Q (φ.trace b)
  hat := fun b => rotVec Q (φ.hat b)

/-- A state of the discretisation in the new axes. -/
def rotState {n : ℕ} (Q : Matrix (Fin n) (Fin n) ℝ) (x : Dream.HdgState n (n + 2) V B) :
    Dream.HdgState n (n + 2) V B where
  U := fun v => rotVec Q (x.U v)
  F := fun v => rotFlux Q (x.F v)
  G := fun v => rotFlux Q (x.G v)
  Fn := fun b => rotVec Q (x.Fn b)
  Gn := fun b => rotVec Q (x.Gn b)
  R := fun b => rotVec Q (x.R b)
  source := fun v => rotVec Q (x.source v)

/-- A test function of the mixed space in the new axes. -/
def rotMixedTest (Q : Matrix (Fin 2) (Fin 2) ℝ) (P : Dream.MixedTest V B) : Dream.MixedTest V B where
  val := fun v => rotMixed Q (P.val v)
  grad := fun v => rotMixedGrad Q (P.grad v)
  trace := fun b => rotMixed Q (P.trace b)

end Spec
