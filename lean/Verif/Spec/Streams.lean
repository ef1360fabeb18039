import Verif.Model.Streams

/-! # What switching streams on and off is expected to do -/

namespace Dream.Spec

/-- The expected stream `k` after a user action: switched on (by `True` or its own name)
it is a stream with default options, switched off there is none, and setting an option
concerns a stream that is on. Everything else has no effect. -/
def streamStep (k : SKind) (cur : Option StreamObj) : IOCmd → Option StreamObj
  | .assign k' (.bool true) => if k' = k then some [] else cur
  | .assign k' (.bool false) => if k' = k then none else cur
  | .assign k' (.str n) => if k' = k ∧ n = k.attr then some [] else cur
  | .assign _ .other => cur
  | .configure k' o x => if k' = k then cur.map fun d => d.set o x else cur

/-- The expected stream after a history, starting from the defaults. -/
def streamAfter (k : SKind) (cs : List IOCmd) : Option StreamObj :=
  cs.foldl (streamStep k) (if k = .log then some [] else none)

end Dream.Spec
