import Verif.Model.Files

/-! # What a user expects of saved files -/

namespace Dream.Spec

/-- The documents a user can keep: a mesh, the settings in three formats, and gridfunctions, each
under a folder and a name. Documents of different sorts are different documents. -/
inductive Doc
  | mesh (dir : APath) (name : Name)
  | settings (dir : APath) (name : Name)
  | text (dir : APath) (name : Name)
  | yaml (dir : APath) (name : Name)
  | gfu (dir : APath) (name : Name)

/-- The name asked for, or the file name of the stream. -/
def called (o : Option Name) (stream : Name) : Name := o.getD stream

open Classical in
/-- What the user expects a document to hold after an action. -/
noncomputable def keep {M T V : Type} (c : FileCfg) (a : FileCmd M T V) (doc : Doc)
    (before : Option (Content M T V)) : Option (Content M T V) :=
  match a with
  | .saveMesh m =>
    if ∃ p, c.folders.get? "root" = some p ∧ doc = .mesh p c.meshName then some (.mesh m)
    else before
  | .saveSettings t s =>
    if c.pickle = true ∧ ∃ p, c.folders.get? "settings" = some p ∧ doc = .settings p c.settingsName
      then some (.tree t)
    else if c.txt = true ∧ ∃ p, c.folders.get? "settings" = some p ∧ doc = .text p c.settingsName
      then some (.text s)
    else if c.yaml = true ∧ ∃ p, c.folders.get? "settings" = some p ∧ doc = .yaml p c.settingsName
      then some (.yaml t)
    else before
  | .saveToPickle n t =>
    if ∃ p, c.folders.get? "settings" = some p ∧ doc = .settings p (called n c.settingsName)
      then some (.tree t) else before
  | .saveToTxt n s =>
    if ∃ p, c.folders.get? "settings" = some p ∧ doc = .text p (called n c.settingsName)
      then some (.text s) else before
  | .saveToYaml n t =>
    if ∃ p, c.folders.get? "settings" = some p ∧ doc = .yaml p (called n c.settingsName)
      then some (.yaml t) else before
  | .saveGridfunction n v =>
    if ∃ p, c.folders.get? "states" = some p ∧ doc = .gfu p (called n c.gfuName)
      then some (.vec v) else before
  | .configure _ => before

/-- The configuration after an action. -/
def configured {M T V : Type} (c : FileCfg) : FileCmd M T V → FileCfg
  | .configure c' => c'
  | _ => c

/-- The configuration after a history. -/
def configAfter {M T V : Type} : FileCfg → List (FileCmd M T V) → FileCfg
  | c, [] => c
  | c, a :: as => configAfter (configured c a) as

/-- What a document holds after a history: what was saved last. -/
noncomputable def kept {M T V : Type} (doc : Doc) :
    FileCfg → List (FileCmd M T V) → Option (Content M T V) → Option (Content M T V)
  | _, [], x => x
  | c, a :: as, x => kept doc (configured c a) as (keep c a doc x)

end Dream.Spec
