import Verif.Model.Output

/-!
# dream/io.py: pictures

`C` are coefficient functions. `Draw` of the web gui returns a scene, `Draw` outside of notebooks
returns `None` and hands the function to the separate viewer, which shows everything it was given
whenever `ngs.Redraw` is called.
-/

namespace Dream

/-- What `redraw` calls: `scene.Redraw()` of a scene or `ngs.Redraw(blocking)`. -/
inductive Refresh (C : Type)
  | scene (name : String) (field : C)
  | viewer (blocking : Bool)
  deriving DecidableEq

/-- The attribute `scenes`, absent before the first `draw`; `none` entries are Python's `None`. -/
abbrev Scenes (C : Type) := Option (List (Option (String × C)))

variable {C : Type}

/-- `IOConfiguration.draw` (dream/io.py:890-896): a new list replaces the old one. -/
def ioDraw (notebook : Bool) (fields : Dict String C) : Scenes C :=
  some (fields.map fun f => if notebook then some f else none)

/-- `IOConfiguration.redraw` (dream/io.py:898-905). -/
def ioRedraw (blocking : Bool) : Scenes C → List (Refresh C)
  | none => []
  | some l =>
    (l.filterMap fun s => s.map fun f => Refresh.scene f.1 f.2) ++ [.viewer blocking]

/-- The pictures of a run with the given trace, each with the number `n` of updates completed when
it is made, which identifies the state it shows. `body it` is what the user's loop draws at the
yield of iteration `it` (dream/time.py:320, 382). A redraw that raises counts as complete. -/
def pictures (notebook : Bool) (body : ℕ → Option (Dict String C)) :
    Scenes C → ℕ → List Op → List (Refresh C × ℕ)
  | _, _, [] => []
  | s, n, o :: os =>
    match o with
    | .update _ => pictures notebook body s (n + 1) os
    | .yield_ it =>
      match body it with
      | some fields => pictures notebook body (ioDraw notebook fields) n os
      | none => pictures notebook body s n os
    | .redraw => (ioRedraw false s).map (fun r => (r, n)) ++ pictures notebook body s n os
    | _ => pictures notebook body s n os

/-- `GridfunctionStream.load_transient_routine` (dream/io.py:397-413), the pictures: one redraw
after each file is loaded, before the yield; the state is named by the label of the file. The loop
of the user may draw at the yields; without an error in a `load_routine`. -/
def replayPictures (notebook : Bool) (body : ℕ → Option (Dict String C)) :
    Scenes C → ℕ → List ℚ → List (Refresh C × ℚ)
  | _, _, [] => []
  | s, it, t :: ts =>
    (ioRedraw false s).map (fun r => (r, t)) ++
      replayPictures notebook body
        (match body it with
          | some fields => ioDraw notebook fields
          | none => s) (it + 1) ts

end Dream
