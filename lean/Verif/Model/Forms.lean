import Verif.Model.Conditions
import Verif.Model.Boundary

/-!
# dream/solver.py, dream/compressible/formulations/conservative.py: collecting the terms of the
discrete equations in a dictionary
-/

namespace Dream

/-- What a summand of the equations is. The expressions themselves are modelled elsewhere
(`Verif.Model.Physics`, `Verif.Model.Boundary`, `Verif.Model.Mixed`, `Verif.Model.Transient`). -/
inductive FormTerm
  | convection
  | diffusion
  | mixed
  | condition (f : Formulation) (regions : Name) (c : Cond)
  | time
  deriving DecidableEq

/-- `cfg.blf`: terms by label (dream/solver.py:400-402). -/
abbrev FormDict := Dict Name FormTerm

/-- The settings that decide which terms there are. `nameOf` is the attribute `name` of the
condition's class; `build` says whether writing down the expression of a term raises. -/
structure FormCfg where
  dim : ℕ
  inviscid : Bool
  mixed : MixedMethod
  stationary : Bool
  nameOf : Cond → Name
  build : FormTerm → Except PyErr Unit

/-- The label `f"{bc.name}_{bnd}"`
(dream/compressible/formulations/conservative.py:546, 564, 571, 641, 659, 688, 703, 729). -/
def formKey (nameOf : Cond → Name) (c : Cond) (regions : Name) : Name :=
  nameOf c ++ '_' :: regions

/-- `blf[key] = term`: the expression is built, then stored. -/
def FormCfg.store (cfg : FormCfg) (blf : FormDict) (key : Name) (t : FormTerm) :
    Except PyErr FormDict := do
  cfg.build t
  .ok (blf.set key t)

/-- The stationary configuration has no attribute `scheme`, which the characteristic conditions
read (dream/compressible/formulations/conservative.py:573, dream/time.py:233-274). -/
def FormCfg.schemeCheck (cfg : FormCfg) (f : Formulation) : Except PyErr Unit :=
  if f = .cbc ∧ cfg.stationary = true then .error .attributeError else .ok ()

/-- One round of `add_boundary_conditions` or `add_domain_conditions`
(dream/compressible/formulations/conservative.py:470-518). -/
def FormCfg.addCondition (cfg : FormCfg) (dispatch : Cond → Except PyErr (Option Formulation))
    (blf : FormDict) (kv : Name × Cond) : Except PyErr FormDict := do
  match ← dispatch kv.2 with
  | none => .ok blf
  | some f =>
    cfg.schemeCheck f
    cfg.store blf (formKey cfg.nameOf kv.2 kv.1) (.condition f kv.1 kv.2)

/-- `add_boundary_conditions` / `add_domain_conditions` for the grouping `d`
(dream/compressible/formulations/conservative.py:464-518). -/
def FormCfg.addConditionForms (cfg : FormCfg)
    (dispatch : Cond → Except PyErr (Option Formulation)) (d : Dict Name Cond) (blf : FormDict) :
    Except PyErr FormDict :=
  d.foldlM (cfg.addCondition dispatch) blf

/-- `add_mixed_form` of the three mixed methods
(dream/compressible/formulations/conservative.py:46-49, 90-122, 293-303). -/
def FormCfg.addMixedForm (cfg : FormCfg) (blf : FormDict) : Except PyErr FormDict :=
  match cfg.mixed with
  | .inactive => .ok blf
  | .strainHeat =>
    if cfg.dim = 3 then .error .notImplemented else cfg.store blf "mixed".toList .mixed
  | .gradient => cfg.store blf "mixed".toList .mixed

/-- `if not is_inviscid: add_diffusion_form`
(dream/compressible/formulations/conservative.py:442-462, 838-839). -/
def FormCfg.addDiffusion (cfg : FormCfg) (blf : FormDict) : Except PyErr FormDict :=
  if cfg.inviscid then .ok blf else cfg.store blf "diffusion".toList .diffusion

/-- `ConservativeFiniteElementMethod.add_symbolic_spatial_forms`
(dream/compressible/formulations/conservative.py:832-844). -/
def FormCfg.addSpatialForms (cfg : FormCfg) (bnds doms : Dict Name Cond) (blf : FormDict) :
    Except PyErr FormDict := do
  let blf ← cfg.store blf "convection".toList .convection
  let blf ← cfg.addDiffusion blf
  let blf ← cfg.addMixedForm blf
  let blf ← cfg.addConditionForms dispatchBoundary bnds blf
  cfg.addConditionForms dispatchDomain doms blf

/-- `add_symbolic_temporal_forms` of the time configurations: nothing in the stationary case
(dream/time.py:144-153, 218-221, 292-294, 357-359,
dream/compressible/formulations/conservative.py:333-336, 846-849). -/
def FormCfg.addTemporalForms (cfg : FormCfg) (blf : FormDict) : Except PyErr FormDict :=
  if cfg.stationary then .ok blf else cfg.store blf "time".toList .time

/-- `initialize_symbolic_forms` (dream/solver.py:400-405). -/
def FormCfg.initializeForms (cfg : FormCfg) (bnds doms : Dict Name Cond) :
    Except PyErr FormDict := do
  let blf ← cfg.addSpatialForms bnds doms []
  cfg.addTemporalForms blf

/-- The summands that `assemble` adds to the bilinear form, in order (dream/time.py:118-135,
237-254). -/
def assembled (blf : FormDict) : List FormTerm := blf.map Prod.snd

/-- The attribute `name` of the condition classes (dream/compressible/config.py:84, 106, 127, 187,
200, 222, 227, 232, 253, 264, dream/mesh.py:266, 282, 287, 326, 394, 437, 477); the two base
classes have none. -/
def CondClass.label : CondClass → Name
  | .farfield => "farfield".toList
  | .outflow => "outflow".toList
  | .cbc => "cbc".toList
  | .grcbc => "grcbc".toList
  | .nscbc => "nscbc".toList
  | .inviscidWall => "inviscid_wall".toList
  | .symmetry => "symmetry".toList
  | .isothermalWall => "isothermal_wall".toList
  | .adiabaticWall => "adiabatic_wall".toList
  | .pml => "pml".toList
  | .initial => "initial".toList
  | .perturbation => "perturbation".toList
  | .force => "force".toList
  | .gridDeformation => "grid_deformation".toList
  | .spongeLayer => "sponge_layer".toList
  | .pspongeLayer => "psponge_layer".toList
  | .periodic => "periodic".toList
  | .condition | .buffer => []

end Dream
