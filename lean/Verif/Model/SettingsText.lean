import Verif.Model.Basic

/-!
# The text of the settings file
-/

namespace Dream

/-- A text of Python. -/
abbrev Txt := List Char

/-- `"\n".join(…)`. -/
def joinLines : List Txt → Txt
  | [] => []
  | [x] => x
  | x :: y :: l => x ++ '\n' :: joinLines (y :: l)

/-- The line of 30 box characters in `header` (dream/_version.py:9). -/
def rule : Txt := List.replicate 30 '─'

/-- `header` (dream/_version.py:8-9). -/
def header (title : Txt) : Txt := rule ++ ' ' :: title ++ ' ' :: rule

/-- The lines of `acknowledgements` (dream/_version.py:11-33) with the text of the date. The blanks at
the ends of the lines are left out. -/
def ackLines (date : Txt) : List Txt :=
  [header "DREAM SOLVER".toList, [], "Developed by:".toList, "       Philip Lederer".toList,
   "       2022-2023, Institute of Analysis and Scientific Computing, TU Wien,".toList,
   "       2023-2024, Institute of Mathematics, University of Twente,".toList,
   "       2024-, Institute of Mathematics, Uni Hamburg.".toList, [],
   "       Jan Ellmenreich".toList,
   "       2022-, Institute of Analysis and Scientific Computing, TU Wien.".toList, [],
   "Funding:".toList, "       2022-, FWF (Austrian Science Fund) - P35391N".toList, [],
   "Version: 0.1.0".toList, "Github: https://github.com/plederer/dream_solver".toList,
   "Date:  ".toList ++ date]

/-- `acknowledgements` (dream/_version.py:11-33). -/
def acknowledgements (date : Txt) : Txt := joinLines (ackLines date)

/-- What can be passed as documentation: a string, another sequence, given by its elements, `none`
for one that is not a string (bytes are a sequence of numbers), or anything else. -/
inductive DocArg
  | str (s : Txt)
  | seq (l : List (Option Txt))
  | other

/-- The solver as far as its documentation is concerned: the attribute `doc`, if it is there. -/
abbrev DocState := Option Txt

/-- `SolverConfiguration.set_solver_documentation` (dream/solver.py:425-433). `join` raises
`TypeError` for an element that is not a string. -/
def setDocumentation (x : DocArg) (st : DocState) : Except PyErr Unit × DocState :=
  match x with
  | .str s => (.ok (), some s)
  | .seq l =>
    match l.mapM id with
    | some l => (.ok (), some (joinLines l))
    | none => (.error .typeError, st)
  | .other => (.error .valueError, st)

/-- A history of calls, the last one at the end; exceptions are caught by the caller. -/
def documented (h : List DocArg) (st : DocState) : DocState :=
  h.foldl (fun st x => (setDocumentation x st).2) st

/-- `UniqueConfiguration.__repr__` (dream/config.py:452-453) for the printed entries of the tree. -/
def reprEntries (es : List (Txt × Txt)) : Txt :=
  joinLines (es.map fun e => e.1 ++ ':' :: ' ' :: e.2)

/-- The text written by `SettingsStream.save_to_txt` (dream/io.py:243-249). -/
def settingsText (date : Txt) (doc : DocState) (es : List (Txt × Txt)) : Txt :=
  let txt := [acknowledgements date, []]
  let txt := match doc with
    | some d => txt ++ [header "Documentation".toList, d, []]
    | none => txt
  let txt := txt ++ [header "Configuration".toList, reprEntries es, []]
  joinLines txt

end Dream
