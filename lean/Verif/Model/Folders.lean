import Verif.Model.Dict

/-!
# dream/io.py: output folders

An absolute path is the list of its components below the file system root. Paths are
not normalised by the file system (`..` is a component like any other), as in `pathlib`.
-/

namespace Dream

/-- An absolute path. -/
abbrev APath := List String

/-- What can be assigned to a folder: nothing, an absolute or a relative path. -/
inductive PathArg
  | none
  | abs (p : APath)
  | rel (p : List String)

/-- `IOFolders.data` (dream/io.py:102-122). -/
abbrev Folders := Dict String APath

/-- `Path.parent`: the parent of the root is the root. -/
def parentPath (p : APath) : APath := p.dropLast

/-- `Path.name` as a (possibly empty) relative path. -/
def namePath (p : APath) : List String := p.getLast?.toList

/-- The loop `while parent != old` (dream/io.py:62-64), at most `fuel` rounds;
`none` if it is still running. -/
def relLoop (old : APath) : ℕ → APath → List String → Option (List String)
  | 0, _, _ => none
  | fuel + 1, parent, name =>
    if parent ≠ old then relLoop old fuel (parentPath parent) (namePath parent ++ name)
    else some name

/-- The body of the loop over all folders (dream/io.py:56-65): the new value of one
folder. `is_relative_to` is "has `old` as a prefix". -/
def relocate (fuel : ℕ) (old new path : APath) : Option APath :=
  if path = new then some path
  else if old <+: path then
    (relLoop old fuel (parentPath path) (namePath path)).map fun name => new ++ name
  else some path

/-- `path.__set__` (dream/io.py:32-65). The loop over the items only replaces the value
of the item it is at, so the items are independent. `none`: not finished within
`fuel` rounds of an inner loop. -/
def folderSet (fuel : ℕ) (cwd : APath) (d : Folders) (key : String) (p : PathArg) :
    Option (Except PyErr Folders) :=
  match p with
  | .none => some (.ok (d.set key cwd))
  | .abs a => some (.ok (d.set key a))
  | .rel r =>
    match d.get? "root" with
    | none => some (.error .keyError)
    | some root =>
      let new := root ++ r
      let d' := d.set key new
      match d.get? key with
      | none => some (.ok d')
      | some old =>
        (d'.mapM fun (kv : String × APath) =>
          (relocate fuel old new kv.2).map fun q => (kv.1, q)).map Except.ok

/-- The folders of a fresh configuration (dream/io.py:104-122): the root is the current
directory, the others lie below it. -/
def Folders.init (cwd : APath) : Folders :=
  [("root", cwd), ("states", cwd ++ ["states"]), ("vtk", cwd ++ ["vtk"]),
   ("settings", cwd ++ ["cfg"]), ("sensors", cwd ++ ["sensors"])]

end Dream
