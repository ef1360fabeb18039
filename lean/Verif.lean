import Verif.Lemmas.Bend
import Verif.Lemmas.Bla
import Verif.Lemmas.CharApi
import Verif.Lemmas.Characteristic
import Verif.Lemmas.Config
import Verif.Lemmas.Dict
import Verif.Lemmas.Digit
import Verif.Lemmas.Dissipative
import Verif.Lemmas.Energy
import Verif.Lemmas.EnergyAnyDim
import Verif.Lemmas.EnergyPlanar
import Verif.Lemmas.Flow
import Verif.Lemmas.FlowBranch
import Verif.Lemmas.FlowCoeffs
import Verif.Lemmas.FlowGrad
import Verif.Lemmas.FlowMatrix
import Verif.Lemmas.FlowSlope
import Verif.Lemmas.ImplicitStep
import Verif.Lemmas.Levels
import Verif.Lemmas.LocLip
import Verif.Lemmas.OMesh
import Verif.Lemmas.Output
import Verif.Lemmas.PointFlux
import Verif.Lemmas.PolyTriangle
import Verif.Lemmas.PositiveRule
import Verif.Lemmas.PseudoContract
import Verif.Lemmas.Round
import Verif.Lemmas.SemiNewton
import Verif.Lemmas.SemiStep
import Verif.Lemmas.Stabilised
import Verif.Lemmas.TimeLimit
import Verif.Lemmas.Triangle
import Verif.Model.Basic
import Verif.Model.Bla
import Verif.Model.Boundary
import Verif.Model.Casts
import Verif.Model.Characteristic
import Verif.Model.Collect
import Verif.Model.Compat
import Verif.Model.Condensation
import Verif.Model.Conditions
import Verif.Model.Config
import Verif.Model.Cylinder
import Verif.Model.Dict
import Verif.Model.Dimensions
import Verif.Model.Examples
import Verif.Model.FieldDict
import Verif.Model.Files
import Verif.Model.Floats
import Verif.Model.Flow
import Verif.Model.Folders
import Verif.Model.Forces
import Verif.Model.Forms
import Verif.Model.Frame
import Verif.Model.Hdg
import Verif.Model.Initial
import Verif.Model.Interrupted
import Verif.Model.Layers
import Verif.Model.Lifecycle
import Verif.Model.Log
import Verif.Model.Mapping
import Verif.Model.Mixed
import Verif.Model.Nonlinear
import Verif.Model.OMesh
import Verif.Model.Options
import Verif.Model.Output
import Verif.Model.PSponge
import Verif.Model.Parameter
import Verif.Model.Physics
import Verif.Model.Pulse
import Verif.Model.Recorded
import Verif.Model.Registry
import Verif.Model.Relax
import Verif.Model.RootPointers
import Verif.Model.Scenes
import Verif.Model.Sensors
import Verif.Model.Session
import Verif.Model.SettingsText
import Verif.Model.Spaces
import Verif.Model.Streams
import Verif.Model.Time
import Verif.Model.Transient
import Verif.Model.Triangulation
import Verif.Model.Whole
import Verif.Props.Bla
import Verif.Props.Boundary
import Verif.Props.Casts
import Verif.Props.Characteristic
import Verif.Props.Collect
import Verif.Props.Compat
import Verif.Props.Condensation
import Verif.Props.Conditions
import Verif.Props.ConfigRestore
import Verif.Props.ConfigUpdate
import Verif.Props.Conservation
import Verif.Props.Conservative
import Verif.Props.Consistency
import Verif.Props.Contact
import Verif.Props.Convergence
import Verif.Props.Cylinder
import Verif.Props.Damped
import Verif.Props.Derived
import Verif.Props.Determined
import Verif.Props.Dimensions
import Verif.Props.Drift
import Verif.Props.ExactFlows
import Verif.Props.Extrusion
import Verif.Props.Farfield
import Verif.Props.FieldDict
import Verif.Props.Files
import Verif.Props.Floats
import Verif.Props.Folders
import Verif.Props.Forces
import Verif.Props.Forms
import Verif.Props.Frame
import Verif.Props.Freestream
import Verif.Props.FreestreamViscous
import Verif.Props.GridMapping
import Verif.Props.Handles
import Verif.Props.Independent
import Verif.Props.Inexact
import Verif.Props.Initial
import Verif.Props.Interrupted
import Verif.Props.Kinds
import Verif.Props.Layers
import Verif.Props.Lifecycle
import Verif.Props.Log
import Verif.Props.LowMach
import Verif.Props.Mapping
import Verif.Props.Mirror
import Verif.Props.MirrorMesh
import Verif.Props.Mixed
import Verif.Props.MixedIntegral
import Verif.Props.Newton
import Verif.Props.NewtonFlow
import Verif.Props.NewtonRuns
import Verif.Props.NewtonStabilised
import Verif.Props.NewtonStep
import Verif.Props.Nonlinear
import Verif.Props.OMesh
import Verif.Props.Options
import Verif.Props.Output
import Verif.Props.Overrelaxed
import Verif.Props.PSponge
import Verif.Props.Parameter
import Verif.Props.Positivity
import Verif.Props.PositivityMesh
import Verif.Props.PressurePositivity
import Verif.Props.PseudoFlow
import Verif.Props.PseudoMesh
import Verif.Props.Pulse
import Verif.Props.Recorded
import Verif.Props.Reference
import Verif.Props.Registry
import Verif.Props.Relax
import Verif.Props.Repeat
import Verif.Props.Replay
import Verif.Props.Returns
import Verif.Props.ReturnsMesh
import Verif.Props.Riemann
import Verif.Props.RootPointers
import Verif.Props.Rotation
import Verif.Props.Scenes
import Verif.Props.SensorRegions
import Verif.Props.Sensors
import Verif.Props.Session
import Verif.Props.SettingsText
import Verif.Props.Shock
import Verif.Props.ShockJump
import Verif.Props.ShortSteps
import Verif.Props.ShortStepsMesh
import Verif.Props.Sound
import Verif.Props.Spaces
import Verif.Props.Splitting
import Verif.Props.Stabilised
import Verif.Props.Stability
import Verif.Props.SteadyRuns
import Verif.Props.Streams
import Verif.Props.Symmetric
import Verif.Props.SymmetricViscous
import Verif.Props.Thermo
import Verif.Props.ThermoGrad
import Verif.Props.ThermoRefuse
import Verif.Props.TimeLimit
import Verif.Props.TimeScheme
import Verif.Props.Timer
import Verif.Props.Transient
import Verif.Props.Triangulation
import Verif.Props.TriangulationContact
import Verif.Props.TriangulationFlows
import Verif.Props.TriangulationMixed
import Verif.Props.TriangulationRotation
import Verif.Props.TriangulationUnits
import Verif.Props.Units
import Verif.Props.Viscous
import Verif.Props.Vortex
import Verif.Props.Walls
import Verif.Props.Whole
import Verif.Spec.Casts
import Verif.Spec.Conditions
import Verif.Spec.Config
import Verif.Spec.Conservation
import Verif.Spec.Contact
import Verif.Spec.Convergence
import Verif.Spec.Dimensions
import Verif.Spec.Drift
import Verif.Spec.Euler
import Verif.Spec.Exact
import Verif.Spec.Files
import Verif.Spec.Floats
import Verif.Spec.Forces
import Verif.Spec.Forms
import Verif.Spec.Gas
import Verif.Spec.Inexact
import Verif.Spec.Lifecycle
import Verif.Spec.Mirror
import Verif.Spec.NavierStokes
import Verif.Spec.Newton
import Verif.Spec.NewtonFlow
import Verif.Spec.Nonlinear
import Verif.Spec.Options
import Verif.Spec.Output
import Verif.Spec.Positivity
import Verif.Spec.Potential
import Verif.Spec.PressurePositivity
import Verif.Spec.PseudoFlow
import Verif.Spec.Recorded
import Verif.Spec.Relax
import Verif.Spec.Returns
import Verif.Spec.Rotation
import Verif.Spec.Scenes
import Verif.Spec.Sensors
import Verif.Spec.Shock
import Verif.Spec.ShortSteps
import Verif.Spec.Sound
import Verif.Spec.Stabilised
import Verif.Spec.Streams
import Verif.Spec.Symmetric
import Verif.Spec.SymmetricViscous
import Verif.Spec.TextLines
import Verif.Spec.Time
import Verif.Spec.TimeLimit
import Verif.Spec.Transient
import Verif.Spec.Triangle
import Verif.Spec.Units
