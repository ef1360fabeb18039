import Mathlib.Data.Real.Basic

/-!
# Specification of a guarded iteration (independent of the model)
-/

namespace Spec

/-- The iterates of a method that always applies its increment: `u₀, u₁ = upd u₀ du₀, …` -/
def iterates {V : Type} (du : ℕ → V → V) (upd : V → V → V) (u0 : V) : ℕ → V
  | 0 => u0
  | n + 1 => upd (iterates du upd u0 n) (du n (iterates du upd u0 n))

/-- How an iteration with at most `max` steps may end after `k` steps, given the error
`err i` measured in step `i` (`none` = not a number) and the iterates `w`. -/
inductive Outcome {V : Type} (w : ℕ → V) (err : ℕ → Option ℝ) (crit : ℝ) (max k : ℕ)
    (u : V) (nan conv : Bool) : Prop
  /-- the last error was not a number: the last increment was not applied -/
  | diverged (h1 : 1 ≤ k) (h2 : k ≤ max) (hbefore : ∀ i < k - 1, ∃ e, err i = some e ∧ crit ≤ e)
      (hlast : err (k - 1) = none) (hu : u = w (k - 1)) (hn : nan = true) (hc : conv = false)
  /-- the last error was below the criterion: all increments were applied -/
  | converged (h1 : 1 ≤ k) (h2 : k ≤ max) (hbefore : ∀ i < k - 1, ∃ e, err i = some e ∧ crit ≤ e)
      (hlast : ∃ e, err (k - 1) = some e ∧ e < crit) (hu : u = w k) (hn : nan = false)
      (hc : conv = true)
  /-- the iteration limit was reached: all increments were applied -/
  | exhausted (h2 : k = max) (hbefore : ∀ i < k, ∃ e, err i = some e ∧ crit ≤ e)
      (hu : u = w k) (hn : nan = false) (hc : conv = false)

end Spec
