import Verif.Model.Output

/-! # What output streams are expected to do -/

namespace Dream.Spec

/-- The expected records of a stream with rate `r` in a transient run whose steps
`0, 1, …` have the given labels: the initial state `0`, then the state after step `it`
for every `it` that is a multiple of `r` or the last one. -/
def schedule (labels : List ℚ) (t0 : ℚ) (r : ℕ) : List (ℚ × ℕ) :=
  (t0, 0) :: (labels.zipIdx.filter fun x => r ∣ x.2 ∨ x.2 + 1 = labels.length).map
    fun x => (x.1, x.2 + 1)

/-- In the trace `tr` the stream `s` is closed exactly once, and only other streams are
closed after that. -/
def ClosedOnceAtEnd (tr : List Op) (s : SKind) : Prop :=
  ∃ a b, tr = a ++ .close s :: b ∧ .close s ∉ a ∧ .close s ∉ b ∧ (∀ o ∈ b, ∃ s', o = .close s')

/-- Nothing but closing happens after the first closing. -/
def ClosingIsLast (tr : List Op) : Prop :=
  ∃ a b, tr = a ++ b ∧ (∀ s, .close s ∉ a) ∧ ∀ o ∈ b, ∃ s, o = .close s

end Dream.Spec
