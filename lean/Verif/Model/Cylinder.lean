import Verif.Model.Basic
import Mathlib.Analysis.SpecialFunctions.Pow.Real

/-!
# dream/mesh.py: the layers of `get_cylinder_mesh`

Radii and mesh sizes that are handed to the CAD kernel; the kernel and the mesh generator, and the
transfer to a mesh without curved layers, are not modelled.
-/

noncomputable section

namespace Dream

/-- The parameters of `get_cylinder_mesh` that determine radii and sizes (dream/mesh.py:821-835). -/
structure CylParams where
  radius : ℝ := 0.5
  sponge : Bool := false
  blLevels : ℕ := 5
  blThickness : ℝ := 0
  trLevels : ℕ := 5
  trGrowth : ℝ := 1.4
  trFactor : ℝ := 6
  ffFactor : ℝ := 50
  spFactor : ℝ := 60

/-- The discs that are glued: for the boundary layer and the transition region radius and mesh size
of each disc (in the order of the code, outermost first), and the radii of the other regions. -/
structure CylLayers where
  bl : List (ℝ × ℝ)
  tr : List (ℝ × ℝ)
  wake : ℝ
  farfield : ℝ
  outer : ℝ

/-- `np.linspace(a, b, k + 1)` for `k ≥ 1`. -/
def linspace (a b : ℝ) (k : ℕ) : List ℝ :=
  (List.range (k + 1)).map fun i : ℕ => a + i * ((b - a) / k)

/-- `np.diff`. -/
def diff (l : List ℝ) : List ℝ := List.zipWith (fun x y => y - x) l l.tail

/-- `bl_radius`, `tr_radius` (dream/mesh.py:847-848). -/
def CylParams.blRadius (p : CylParams) : ℝ := p.radius + p.blThickness
@[inherit_doc CylParams.blRadius] def CylParams.trRadius (p : CylParams) : ℝ := p.trFactor * p.radius

/-- The discs of the boundary layer (dream/mesh.py:859-866). -/
def CylParams.blFaces (p : CylParams) : Except PyErr (List (ℝ × ℝ)) :=
  if 0 < p.blThickness then
    if p.blLevels = 0 then .error .zeroDivision
    else .ok ((linspace p.radius p.blRadius p.blLevels).tail.reverse.map
      fun r => (r, p.blThickness / p.blLevels))
  else .ok []

/-- `tr_radial_levels` (dream/mesh.py:871-872). -/
def CylParams.trRadii (p : CylParams) : List ℝ :=
  (linspace 0 1 p.trLevels).map fun x => p.blRadius + (p.trRadius - p.blRadius) * x ^ p.trGrowth

/-- `tr_faces` with their sizes (dream/mesh.py:873-876). -/
def CylParams.trFaces (p : CylParams) : List (ℝ × ℝ) :=
  p.trRadii.tail.reverse.zip (diff p.trRadii)

/-- The factor of the outermost radius (dream/mesh.py:841-845). -/
def CylParams.outerFactor (p : CylParams) : ℝ := if p.sponge then p.spFactor else p.ffFactor

/-- The geometry of `get_cylinder_mesh` (dream/mesh.py:840-905). The variable `maxh` of
`wake_radius` is the last one of the preceding loop; without transition levels it does not
exist (unless gluing no faces has raised before). -/
def cylinderLayers (p : CylParams) : Except PyErr CylLayers :=
  if p.blThickness < 0 then .error .valueError
  else if p.sponge ∧ p.spFactor < p.ffFactor then .error .valueError
  else do
    let bl ← p.blFaces
    match p.trFaces.getLast? with
    | none => .error .unboundLocal
    | some f => .ok {
        bl := bl, tr := p.trFaces, wake := p.trRadius + f.2, farfield := p.ffFactor * p.radius
        outer := p.outerFactor * p.radius }

end Dream
