import Verif.Model.Basic
import Mathlib.Logic.Function.Basic

/-!
# dream/io.py: log handlers

All configurations share the logger `dream`; every configuration has at most one active log
stream. A handler is a fresh object; `dest` and `owner` record what it was made for.
-/

namespace Dream

/-- Where a handler writes. -/
inductive LogDest
  | terminal | file
  deriving DecidableEq

/-- A handler object. -/
structure Handler where
  id : ℕ
  dest : LogDest
  owner : ℕ
  deriving DecidableEq

/-- The attributes `terminal_handler` and `file_handler` of a log stream. -/
abbrev LogAttrs := LogDest → Option ℕ

/-- The handlers of the logger, the attributes of the active log stream of every
configuration, the files that were opened by handlers and not closed (by handler), and the number of
objects created so far. -/
structure LogState where
  handlers : List Handler
  streams : ℕ → Option LogAttrs
  openFiles : List ℕ
  next : ℕ

/-- `logger.removeHandler` of the object an attribute refers to, if the attribute exists. -/
def removeHandler (hs : List Handler) : Option ℕ → List Handler
  | none => hs
  | some x => hs.filter fun h => h.id ≠ x

/-- The setters of `to_terminal` and `to_file` (dream/io.py:483-507) on a stream with
attributes `a`: the new attributes and state. `opens` is false if the log file cannot be
opened, in which case the setter raises after having removed the old handler. -/
def setDest (owner : ℕ) (a : LogAttrs) (d : LogDest) (on opens : Bool) (st : LogState) :
    Except PyErr LogAttrs × LogState :=
  let hs := removeHandler st.handlers (a d)
  if on then
    if d = .file ∧ opens = false then (.error .fileNotFound, { st with handlers := hs })
    else (.ok (Function.update a d (some st.next)),
      { st with
        handlers := hs ++ [⟨st.next, d, owner⟩]
        openFiles := if d = .file then st.openFiles ++ [st.next] else st.openFiles
        next := st.next + 1 })
  else (.ok a, { st with handlers := hs })

/-- `LogStream.__del__` (dream/io.py:516-520). -/
def delStream (a : LogAttrs) (st : LogState) : LogState :=
  { st with handlers := removeHandler (removeHandler st.handlers (a .terminal)) (a .file) }

/-- What can be done to the log streams of configurations. -/
inductive LogCmd
  | activate (c : ℕ)
  | deactivate (c : ℕ)
  | set (c : ℕ) (d : LogDest) (on opens : Bool)

/-- `io.log = True` creates a stream, whose `to_terminal` and `to_file` are reset to
`True` and `False`, and then drops the stream active before; `io.log = False` drops it
(dream/io.py:76-79, 862-864; 467-469, 482, 495). Setting an option while there is no
stream has no effect (dream/io.py:82-85). A dropped stream is deleted at once, as nothing else refers to
it. -/
def LogState.run (st : LogState) : LogCmd → LogState
  | .activate c =>
    match setDest c (fun _ => none) .terminal true true st with
    | (.error _, st') => st'
    | (.ok a, st') =>
      let st2 := match st'.streams c with
        | none => st'
        | some old => delStream old st'
      { st2 with streams := Function.update st2.streams c (some a) }
  | .deactivate c =>
    match st.streams c with
    | none => st
    | some old =>
      let st2 := delStream old st
      { st2 with streams := Function.update st2.streams c none }
  | .set c d on opens =>
    match st.streams c with
    | none => st
    | some a =>
      match setDest c a d on opens st with
      | (.error _, st') => st'
      | (.ok a', st') => { st' with streams := Function.update st'.streams c (some a') }

/-- No configuration exists yet. -/
def LogState.init : LogState where
  handlers := []
  streams _ := none
  openFiles := []
  next := 0

end Dream
