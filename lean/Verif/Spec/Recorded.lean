import Verif.Model.Recorded

/-! # Tables of sensors over several runs: what is expected -/

namespace Dream.Spec

variable {X : Type}

/-- The steps of a run that are due: with rate `r` every `r`-th one, counted from the first, and the
last one. -/
def due (r : ℕ) (ys : List (ℚ × X)) : List (ℚ × X) :=
  (ys.zipIdx.filter fun y => r ∣ y.2 ∨ y.2 + 1 = ys.length).map Prod.fst

/-- The state a run that starts from `x` and yields `ys` ends with. -/
def final (x : X) (ys : List (ℚ × X)) : X := (ys.getLast?.map Prod.snd).getD x

/-- The rows of runs of `n₁, n₂, …` steps of length `h` one after the other, which yield `ys`
together. Each run starts with a row of the state and the time it starts from. -/
def tables (r : ℕ) (h : ℚ) : (time : ℚ) → X → (start : ℚ) → List ℕ → List (ℚ × X) → List (ℚ × X)
  | _, _, _, [], _ => []
  | T, x, s, n :: ns, ys => (T, x) :: due r (ys.take n) ++
      tables r h (s + n * h) (final x (ys.take n)) (s + n * h) ns (ys.drop n)

end Dream.Spec
