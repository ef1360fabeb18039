import Verif.Model.Forms

/-!
# Which terms the discrete equations should have (C65)
-/

namespace Dream.Spec

/-- The terms of the discrete equations: convection; diffusion if the fluid is viscous; the mixed
equations if there is a mixed method; one term per condition that has a formulation; the time
derivative unless the problem is stationary. -/
def equationTerms (viscous mixedMethod timeDependent : Bool)
    (conditions : List (Formulation × Name × Cond)) : List FormTerm :=
  [.convection] ++ (if viscous then [.diffusion] else []) ++
    (if mixedMethod then [.mixed] else []) ++
    conditions.map (fun x => .condition x.1 x.2.1 x.2.2) ++
    (if timeDependent then [.time] else [])

end Dream.Spec
