import Verif.Model.Scenes

/-! # What is shown -/

namespace Spec

open Dream

variable {C : Type}

/-- The fields that were drawn last, of those drawn before the run (`first`) and at its first `k`
yields. -/
def lastDrawn (first : Option (Dict String C)) (body : ℕ → Option (Dict String C)) (k : ℕ) :
    Option (Dict String C) :=
  ((List.range k).filterMap body).getLast?.or first

/-- One round of pictures: nothing if nothing was drawn; in a notebook every field in the order of
the dictionary; then the separate viewer. -/
def pictureRound (notebook : Bool) : Option (Dict String C) → List (Refresh C)
  | none => []
  | some fields =>
    (if notebook then fields.map fun f => Refresh.scene f.1 f.2 else []) ++ [.viewer false]

end Spec
