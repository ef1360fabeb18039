import Verif.Model.Folders
import Verif.Model.Output
import Verif.Model.Conditions

/-!
# dream/io.py: the files of the mesh, settings and gridfunction streams

The disk is a set of existing directories and a mapping from files to their contents. A file is a
directory and a name; file names contain no separators. Directories and files do not get in each
other's way (a directory `a/mesh.pickle` next to a file of that name is not modelled), and pickling
followed by unpickling gives back the object.
-/

namespace Dream

/-- What a file contains: a pickled mesh, a pickled tree of settings, a text, a YAML document, or
the vector of a gridfunction. -/
inductive Content (M T V : Type)
  | mesh (m : M)
  | tree (t : T)
  | text (s : List Char)
  | yaml (t : T)
  | vec (v : V)

/-- The extensions (dream/io.py:185, 191, 232, 241, 261, 270, 385, 446). -/
def extPickle : Name := ".pickle".toList
/-- See `extPickle`. -/
def extTxt : Name := ".txt".toList
/-- See `extPickle`. -/
def extYaml : Name := ".yaml".toList
/-- See `extPickle`. -/
def extNgs : Name := ".ngs".toList

/-- Files: directory and name. -/
abbrev File := APath × Name

/-- The disk. -/
structure Disk (M T V : Type) where
  dirs : List APath
  files : Dict File (Content M T V)

/-- The options of the three streams that decide about files (dream/io.py:151-155, 202-212). -/
structure FileCfg where
  folders : Folders
  meshName : Name
  settingsName : Name
  gfuName : Name
  pickle : Bool
  txt : Bool
  yaml : Bool

/-- The default file name of a stream is its name (dream/io.py:151-155, 176, 198, 354), the other
defaults are dream/io.py:200-210. -/
def FileCfg.init (cwd : APath) : FileCfg where
  folders := Folders.init cwd
  meshName := "mesh".toList
  settingsName := "settings".toList
  gfuName := "gfu".toList
  pickle := true
  txt := true
  yaml := false

variable {M T V : Type}

/-- The property `path` of the streams (dream/io.py:178-182, 213-217, 374-378): the folder, created
with its parents if it does not exist. -/
def streamPath (c : FileCfg) (key : String) (d : Disk M T V) : Except PyErr (Disk M T V × APath) :=
  match c.folders.get? key with
  | none => .error .keyError
  | some p => .ok (if p ∈ d.dirs then d else { d with dirs := p :: d.dirs }, p)

/-- `with path.open('wb') as …` and writing: the file has the new content, whatever was in it. -/
def Disk.write (d : Disk M T V) (f : File) (x : Content M T V) : Disk M T V :=
  { d with files := d.files.set f x }

/-- Opening a file for reading. -/
def Disk.read (d : Disk M T V) (f : File) : Except PyErr (Content M T V) :=
  match d.files.get? f with
  | none => .error .fileNotFound
  | some x => .ok x

/-- `MeshStream.save_pre_time_routine` (dream/io.py:184-188). -/
def saveMesh (c : FileCfg) (m : M) (d : Disk M T V) : Except PyErr (Disk M T V) := do
  let (d, p) ← streamPath c "root" d
  .ok (d.write (p, c.meshName ++ extPickle) (.mesh m))

/-- `MeshStream.load_routine` (dream/io.py:190-193): whatever was pickled. A file that is not a
pickle raises. -/
def loadMesh (c : FileCfg) (d : Disk M T V) : Except PyErr (Content M T V) := do
  let (d, p) ← streamPath c "root" d
  match ← d.read (p, c.meshName ++ extPickle) with
  | .mesh m => .ok (.mesh m)
  | .tree t => .ok (.tree t)
  | _ => .error .runtime

/-- `filename` if given, otherwise the file name of the stream (dream/io.py:229-230, 238-239,
253-254, 267-268, 382-383, 443-444). -/
def nameOr (stream : Name) : Option Name → Name
  | none => stream
  | some n => n

/-- `SettingsStream.save_to_pickle` (dream/io.py:227-234). -/
def saveToPickle (c : FileCfg) (name : Option Name) (t : T) (d : Disk M T V) :
    Except PyErr (Disk M T V) := do
  let (d, p) ← streamPath c "settings" d
  .ok (d.write (p, nameOr c.settingsName name ++ extPickle) (.tree t))

/-- `SettingsStream.save_to_txt` (dream/io.py:236-249); the text is composed elsewhere. -/
def saveToTxt (c : FileCfg) (name : Option Name) (s : List Char) (d : Disk M T V) :
    Except PyErr (Disk M T V) := do
  let (d, p) ← streamPath c "settings" d
  .ok (d.write (p, nameOr c.settingsName name ++ extTxt) (.text s))

/-- `SettingsStream.save_to_yaml` (dream/io.py:251-263), with `pyyaml` installed. -/
def saveToYaml (c : FileCfg) (name : Option Name) (t : T) (d : Disk M T V) :
    Except PyErr (Disk M T V) := do
  let (d, p) ← streamPath c "settings" d
  .ok (d.write (p, nameOr c.settingsName name ++ extYaml) (.yaml t))

/-- `SettingsStream.save_pre_time_routine` (dream/io.py:219-225). -/
def saveSettings (c : FileCfg) (t : T) (s : List Char) (d : Disk M T V) :
    Except PyErr (Disk M T V) := do
  let d ← if c.pickle then saveToPickle c none t d else .ok d
  let d ← if c.txt then saveToTxt c none s d else .ok d
  if c.yaml then saveToYaml c none t d else .ok d

/-- `SettingsStream.load_from_pickle` (dream/io.py:265-273). -/
def loadFromPickle (c : FileCfg) (name : Option Name) (d : Disk M T V) :
    Except PyErr (Content M T V) := do
  let (d, p) ← streamPath c "settings" d
  match ← d.read (p, nameOr c.settingsName name ++ extPickle) with
  | .mesh m => .ok (.mesh m)
  | .tree t => .ok (.tree t)
  | _ => .error .runtime

/-- `GridfunctionStream.save_gridfunction` (dream/io.py:441-448). -/
def saveGridfunction (c : FileCfg) (name : Option Name) (v : V) (d : Disk M T V) :
    Except PyErr (Disk M T V) := do
  let (d, p) ← streamPath c "states" d
  .ok (d.write (p, nameOr c.gfuName name ++ extNgs) (.vec v))

/-- `GridfunctionStream.load_gridfunction` (dream/io.py:380-387). -/
def loadGridfunction (c : FileCfg) (name : Option Name) (d : Disk M T V) : Except PyErr V := do
  let (d, p) ← streamPath c "states" d
  match ← d.read (p, nameOr c.gfuName name ++ extNgs) with
  | .vec v => .ok v
  | _ => .error .runtime

/-- What a user (or the solution routine) does with the streams; `setFolder` stands for every way
of changing a folder. -/
inductive FileCmd (M T V : Type)
  | saveMesh (m : M)
  | saveSettings (t : T) (s : List Char)
  | saveToPickle (name : Option Name) (t : T)
  | saveToTxt (name : Option Name) (s : List Char)
  | saveToYaml (name : Option Name) (t : T)
  | saveGridfunction (name : Option Name) (v : V)
  | configure (c : FileCfg)

/-- The effect of a command on configuration and disk. -/
def FileCmd.run (s : FileCfg × Disk M T V) : FileCmd M T V → Except PyErr (FileCfg × Disk M T V)
  | .saveMesh m => do .ok (s.1, ← Dream.saveMesh s.1 m s.2)
  | .saveSettings t x => do .ok (s.1, ← Dream.saveSettings s.1 t x s.2)
  | .saveToPickle n t => do .ok (s.1, ← Dream.saveToPickle s.1 n t s.2)
  | .saveToTxt n x => do .ok (s.1, ← Dream.saveToTxt s.1 n x s.2)
  | .saveToYaml n t => do .ok (s.1, ← Dream.saveToYaml s.1 n t s.2)
  | .saveGridfunction n v => do .ok (s.1, ← Dream.saveGridfunction s.1 n v s.2)
  | .configure c => .ok (c, s.2)

/-- A history of commands; a raising command leaves everything as it was. -/
def runFiles (s : FileCfg × Disk M T V) : List (FileCmd M T V) → FileCfg × Disk M T V
  | [] => s
  | c :: cs => match c.run s with
    | .ok s' => runFiles s' cs
    | .error _ => runFiles s cs

/-- The file names of the gridfunction stream (dream/io.py:389-395, 424, 428-439): `{filename}`,
`{filename}_{t}` and `{filename}_{t}_{fes}_{level}`. `str` is Python's rendering of a time. -/
def gfuFileName (filename : Name) (str : ℚ → Name) : GFile → Name
  | .state none => filename
  | .state (some t) => filename ++ '_' :: str t
  | .level t fes level => filename ++ '_' :: (str t ++ '_' :: (fes.toList ++ '_' :: level.toList))

/-- The states folder after a list of writes of the gridfunction stream, with the names used on the
disk. -/
def stateFolder (filename : Name) (str : ℚ → Name) (ws : List (GFile × V)) : Dict Name V :=
  ws.foldl (fun d w => d.set (gfuFileName filename str w.1 ++ extNgs) w.2) []

/-- `load_gridfunction` from the states folder (dream/io.py:380-387). -/
def loadNamed (folder : Dict Name V) (name : Name) : Except PyErr V :=
  match folder.get? (name ++ extNgs) with
  | none => .error .fileNotFound
  | some v => .ok v

/-- `load_transient_routine` (dream/io.py:397-413) with the names on the disk. -/
def loadTransientNamed (filename : Name) (str : ℚ → Name) (folder : Dict Name V) (tm : Timer)
    (rate : ℕ) : Except PyErr (List (ℚ × V)) := do
  let ts ← tm.run false rate
  ts.mapM fun tl => do
    let v ← loadNamed folder (filename ++ '_' :: str tl.2)
    .ok (tl.2, v)

/-- `load_time_levels` (dream/io.py:415-424) with the names on the disk. -/
def loadTimeLevelsNamed (filename : Name) (str : ℚ → Name) (folder : Dict Name V)
    (levels : List (String × String)) (t : ℚ) : Except PyErr (List ((String × String) × V)) :=
  levels.mapM fun fl => do
    let v ← loadNamed folder
      (filename ++ '_' :: (str t ++ '_' :: (fl.1.toList ++ '_' :: fl.2.toList)))
    .ok (fl, v)

end Dream
