import Verif.Model.Conditions

/-!
# dream/config.py: registration of implementations and selection by name

Classes are numbers. One interface (`is_interface=True`) and the classes derived from it by single
inheritance are modelled.
-/

namespace Dream

/-- `str.lower` (for the ASCII letters that occur in class names). -/
def lower (s : Name) : Name := s.map Char.toLower

/-- The state of an interface: `tree.leafs` (dream/config.py:305-340), the attributes `name` and
`aliases` of every class and its method resolution order. -/
structure Registry where
  leafs : Dict Name ℕ
  attrs : Dict ℕ (Name × List Name)
  mro : Dict ℕ (List ℕ)

/-- A new interface class, number `0`: `aliases` is empty (dream/config.py:467-469). Its `name` is the
one of `InterfaceConfiguration`: that class has none when it is made and gets its class name in lower
case (417-419), and every class derived from it inherits this attribute, so that line 418 never
applies again. -/
def Registry.root : Registry where
  leafs := []
  attrs := [(0, (lower "InterfaceConfiguration".toList, []))]
  mro := [(0, [0])]

/-- The loop over the name and the aliases (dream/config.py:472-476): `ValueError` at the first
name that is taken; the earlier ones stay registered. -/
def registerNames (cls : ℕ) : List Name → Dict Name ℕ → Except PyErr Unit × Dict Name ℕ
  | [], leafs => (.ok (), leafs)
  | n :: ns, leafs =>
    if leafs.has (lower n) then (.error .valueError, leafs)
    else registerNames cls ns (leafs.set (lower n) cls)

/-- A class statement: the class it derives from, and the attributes in its body. -/
structure ClassDef where
  cls : ℕ
  parent : ℕ
  name : Option Name
  aliases : Option (List Name)
  skip : Bool := false

/-- The value of `cls.name` (before it is lower-cased) and `cls.aliases`: from the body of the
class, or inherited. -/
def Registry.resolve (R : Registry) (d : ClassDef) : Name × List Name :=
  let inherited := (R.attrs.get? d.parent).getD ([], [])
  (d.name.getD inherited.1, d.aliases.getD inherited.2)

/-- `InterfaceConfiguration.__init_subclass__` (dream/config.py:463-478) followed by
`UniqueConfiguration.__init_subclass__` (410-421), which lower-cases the name. If it raises, the class
statement fails, but registered names stay. -/
def Registry.define (R : Registry) (d : ClassDef) : Except PyErr Unit × Registry :=
  let (name, aliases) := R.resolve d
  let r := if d.skip then (.ok (), R.leafs) else registerNames d.cls (name :: aliases) R.leafs
  match r with
  | (.error e, leafs) => (.error e, { R with leafs := leafs })
  | (.ok _, leafs) => (.ok (),
      { leafs := leafs
        attrs := R.attrs.set d.cls (lower name, aliases)
        mro := R.mro.set d.cls (d.cls :: (R.mro.get? d.parent).getD []) })

/-- A sequence of class statements; failing ones are passed over. -/
def Registry.defineAll (R : Registry) (ds : List ClassDef) : Registry :=
  ds.foldl (fun R d => (R.define d).2) R

/-- The current implementation of an option: its class and the identity of the object;
`next` is the identity of the next object. Settings belong to the object. -/
structure Selected where
  cls : ℕ
  obj : ℕ
  next : ℕ
  deriving DecidableEq

/-- `isinstance` of an object of class `c` for class `k`. -/
def Registry.isA (R : Registry) (c k : ℕ) : Bool := ((R.mro.get? c).getD []).contains k

/-- `interface.__set__` for a string (dream/config.py:281-284, with `InterfaceTree.__getitem__`
311-321): `TypeError` for an unknown name; the object is kept if it is an instance of the
class, otherwise replaced by a new one. -/
def Registry.select (R : Registry) (s : Selected) (value : Name) : Except PyErr Unit × Selected :=
  match R.leafs.get? value with
  | none => (.error .typeError, s)
  | some k =>
    if R.isA s.cls k then (.ok (), s)
    else (.ok (), { cls := k, obj := s.next, next := s.next + 1 })

/-- A history of selections; rejected ones raise and are passed over. -/
def Registry.selectAll (R : Registry) (s : Selected) (h : List Name) : Selected :=
  h.foldl (fun s v => (R.select s v).2) s

/-- The interfaces of the package and the names their classes register, in the order of the
source: linear solvers, nonlinear solvers (dream/solver.py:116-123, 256-263), nonlinear methods (141-143),
time schemes (dream/time.py:169-188), time configurations (233-335), folders
(dream/io.py:137-144), streams (173-527), equations of state (dream/compressible/eos.py:88-91), Riemann
solvers (dream/compressible/riemann_solver.py:21-106), scalings
(dream/compressible/scaling.py:45-96), viscosities (dream/compressible/viscosity.py:23-42),
mixed methods, conservative methods and finite elements
(dream/compressible/formulations/conservative.py:63-818), solvers
(dream/compressible/solver.py:21-23). -/
def repoRegistrations : List (List (List String)) := [
  [["umfpack"], ["pardiso"]],
  [["umfpack"], ["pardiso"]],
  [["newton"]],
  [["implicit_euler", "ie"], ["bdf2"]],
  [["stationary"], ["transient"], ["pseudo_time_stepping", "pseudo"]],
  [["single"], ["benchmark"]],
  [["mesh"], ["settings"], ["vtk"], ["gfu"], ["dream"], ["sensor"]],
  [["ideal", "perfect"]],
  [["upwind"], ["lax_friedrich", "lf"], ["roe"], ["hll"], ["hllem"]],
  [["aerodynamic"], ["acoustic"], ["aeroacoustic"]],
  [["inviscid", "euler"], ["constant"], ["sutherland"]],
  [["inactive"], ["strain_heat"], ["gradient"]],
  [["hdg"]],
  [["conservative"]],
  [["compressible"]]]

end Dream
