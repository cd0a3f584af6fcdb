import Verif.Num
import Verif.Ext
import Verif.RealInst
import Verif.Model.Transformations
import Verif.Model.Elements
import Verif.Model.Eom
import Verif.Model.Integrate
import Verif.Model.Convergence
import Verif.Model.Lyapunov
import Verif.Model.Symbolic
import Verif.Model.Perturbations
import Verif.Model.Qlaw
import Verif.Model.Export
import Verif.Model.Plot
import Verif.RatInst
import Verif.Spec
import Verif.Examples.Toy
import Verif.Examples.KernelRfl
import Verif.Proofs.Trace
import Verif.Proofs.Control
import Verif.Proofs.Exit
import Verif.Proofs.View
import Verif.Proofs.Sim
import Verif.Proofs.ExtLoop
import Verif.Props.Outcome
import Verif.Props.Time
import Verif.Props.Mass
import Verif.Props.Battery
import Verif.Props.Duty
import Verif.Props.Thrust
import Verif.Props.Effectivity
import Verif.Proofs.Object
import Verif.Props.Convergence
import Verif.Props.Inputs
import Verif.Props.Repeat
import Verif.Props.Object
import Verif.Props.StepControl
import Verif.Proofs.Vec3
import Verif.Proofs.Angles
import Verif.Props.Rotations
import Verif.Props.Perturbations
import Verif.Props.Integrators
import Verif.Props.ControlLaw
import Verif.Props.Elements
import Verif.Proofs.Kepler
import Verif.Props.Cartesian
import Verif.Props.Anomaly
import Verif.Props.Rates
import Verif.Props.Candidate
import Verif.Props.Coast
import Verif.Props.Newton
import Verif.Props.Export
import Verif.Props.PlotGeometry
import Verif.Props.Descent
import Verif.Examples.Burn
import Verif.Props.Weights
import Verif.Examples.MeeBurn
import Verif.Props.Recorded
import Verif.Proofs.Change
import Verif.Props.Units
import Verif.Props.Origin
import Verif.Model.Report
import Verif.Examples.Turn
import Verif.Props.Report
import Verif.Props.StateTrip
import Verif.Props.MeeGauss
import Verif.Props.PerturbUnits
import Verif.Props.OmRate
import Verif.Props.Mirror
import Verif.Props.ShortStep
import Verif.Proofs.Smooth
import Verif.Props.Uniform
import Verif.Props.Converges
import Verif.Props.Wound
import Verif.Props.Quotient
import Verif.Model.Json
import Verif.Model.Pretty
import Verif.Props.Saved
import Verif.Props.Pretty
import Verif.Proofs.RkOrder
import Verif.Proofs.Flow
import Verif.Props.KeplerMotion
import Verif.Props.KeplerDrift
import Verif.Props.Budget
import Verif.Round
import Verif.Binary
import Verif.Props.Rounded
import Verif.Model.Defaults
import Verif.Props.Defaults
import Verif.Proofs.Euler
import Verif.Proofs.ClosedLoop
import Verif.Props.Limit
import Verif.Props.Reach
import Verif.Model.Diff
import Verif.Props.Gradient
import Verif.Props.NodeLine
import Verif.Props.Frozen
import Verif.Props.ZeroWeight
import Verif.Props.NewtonMee
import Verif.Props.Inertial
import Verif.Proofs.Agree
import Verif.Props.GenRun
import Verif.Props.PackageRates
import Verif.Proofs.Signed
import Verif.Props.Disturbed
import Verif.Props.DisturbedNewton
import Verif.Props.DisturbedRun
import Verif.Props.DisturbedReach
import Verif.Proofs.Switched
import Verif.Proofs.SwitchedExists
import Verif.Props.Switched
import Verif.Props.SwitchedRun
import Verif.Proofs.DutyClock
import Verif.Props.DutyRun
import Verif.Proofs.SundmanClock
import Verif.Props.SundmanRun
import Verif.Props.SwitchedNewton
import Verif.Props.GenSwitched
import Verif.Props.BatteryRun
import Verif.Props.Energy
import Verif.Props.Interpolated
import Verif.Model.PlotInterp
import Verif.Props.PlotInterp
import Verif.Proofs.Resume
import Verif.Props.Resume
import Verif.Proofs.Reverse
import Verif.Proofs.ReverseLoop
import Verif.Props.Reverse
import Verif.Props.Retro
import Verif.Props.SampledEffectivity
import Verif.Props.Stops
import Verif.Props.NanState
import Verif.Props.Thresholds
import Verif.Props.BatteryFree
import Verif.Props.Printed
import Verif.Props.DutyFree
import Verif.Props.Consulted
import Verif.Props.Unused
import Verif.Props.NodeFrame
import Verif.Props.SameThrust
import Verif.Props.FracScale
import Verif.Props.OddScale
