import Verif.Rounding
import Verif.Scalar
import Verif.Model.CVector
import Verif.Model.Colour
import Verif.Model.Compute
import Verif.Model.Drivers
import Verif.Model.EnergyDriver
import Verif.Model.Exec
import Verif.Model.Group
import Verif.Model.Junction
import Verif.Model.Layer
import Verif.Model.Llgb
import Verif.Model.Log
import Verif.Model.Noise
import Verif.Model.PyBind
import Verif.Model.PyCache
import Verif.Model.PyDomain
import Verif.Model.PyEnergy
import Verif.Model.PyFilters
import Verif.Model.PyHebo
import Verif.Model.PyNoise
import Verif.Model.PyOersted
import Verif.Model.PyProc
import Verif.Model.PyResistance
import Verif.Model.PySb
import Verif.Model.PyTools
import Verif.Model.PyVector
import Verif.Model.PyView
import Verif.Model.Reservoir
import Verif.Model.Stack
import Verif.Spec.Compute
import Verif.Spec.Fields
import Verif.Spec.Groups
import Verif.Spec.Junction
import Verif.Spec.Larmor
import Verif.Spec.Llgb
import Verif.Spec.Motion
import Verif.Spec.MotionGroup
import Verif.Spec.MotionLlgb
import Verif.Spec.MotionReservoir
import Verif.Spec.MotionStack
import Verif.Spec.Noise
import Verif.Spec.PyBind
import Verif.Spec.PyDomain
import Verif.Spec.PyEnergy
import Verif.Spec.PyNoise
import Verif.Spec.PyOersted
import Verif.Spec.PyProc
import Verif.Spec.PyResistance
import Verif.Spec.PySb
import Verif.Spec.PyTools
import Verif.Spec.PyVector
import Verif.Spec.PyView
import Verif.Spec.Resistance
import Verif.Spec.Rotation
import Verif.Spec.Runs
import Verif.Spec.Setters
import Verif.Spec.Stacks
import Verif.Spec.Ticks
import Verif.Spec.Waves
import Verif.Lemmas.Calls
import Verif.Lemmas.Carry
import Verif.Lemmas.Conv
import Verif.Lemmas.ConvLlgb
import Verif.Lemmas.Converge
import Verif.Lemmas.Embed
import Verif.Lemmas.Ensemble
import Verif.Lemmas.EnsembleExist
import Verif.Lemmas.Exec
import Verif.Lemmas.Exist
import Verif.Lemmas.Frame
import Verif.Lemmas.GroupConv
import Verif.Lemmas.Keys
import Verif.Lemmas.Layer
import Verif.Lemmas.Limit
import Verif.Lemmas.LimitStep
import Verif.Lemmas.Llgb
import Verif.Lemmas.Log
import Verif.Lemmas.Normalised
import Verif.Lemmas.OneStep
import Verif.Lemmas.Order
import Verif.Lemmas.Outcome
import Verif.Lemmas.PySb
import Verif.Lemmas.PySbSmooth
import Verif.Lemmas.QuietStep
import Verif.Lemmas.Record
import Verif.Lemmas.RecordCols
import Verif.Lemmas.Rotation
import Verif.Lemmas.Run
import Verif.Lemmas.Scheme
import Verif.Lemmas.Sim
import Verif.Lemmas.Stack
import Verif.Lemmas.StackConv
import Verif.Lemmas.Steps
import Verif.Lemmas.Vec
import Verif.Props.Antiferro
import Verif.Props.Astroid
import Verif.Props.Autocorr
import Verif.Props.BindCalls
import Verif.Props.BindDispatch
import Verif.Props.Colour
import Verif.Props.Coloured
import Verif.Props.Compute
import Verif.Props.ComputeFft
import Verif.Props.Continuity
import Verif.Props.Convergence
import Verif.Props.ConvergenceCoupled
import Verif.Props.ConvergenceGroups
import Verif.Props.ConvergenceLlgb
import Verif.Props.ConvergenceReservoirs
import Verif.Props.ConvergenceStacks
import Verif.Props.CopiedNoise
import Verif.Props.CurrentWall
import Verif.Props.Depinning
import Verif.Props.Dipoles
import Verif.Props.Drivers
import Verif.Props.Drivers2
import Verif.Props.EnergyDriver
import Verif.Props.Equilibrium
import Verif.Props.Fields
import Verif.Props.GroupExamples
import Verif.Props.GroupLogs
import Verif.Props.GroupRuns
import Verif.Props.Groups
import Verif.Props.HallWall
import Verif.Props.Hebo
import Verif.Props.Larmor
import Verif.Props.LlgbClear
import Verif.Props.LlgbField
import Verif.Props.LlgbLogs
import Verif.Props.LlgbRelaxation
import Verif.Props.LlgbRuns
import Verif.Props.LlgbSteps
import Verif.Props.Logs
import Verif.Props.Modes
import Verif.Props.Neighbours
import Verif.Props.NewLayer
import Verif.Props.NoiseLaw
import Verif.Props.Oscillator
import Verif.Props.Precision
import Verif.Props.PyCache
import Verif.Props.PyDomain
import Verif.Props.PyEnergy
import Verif.Props.PyFilters
import Verif.Props.PyNoise
import Verif.Props.PyOersted
import Verif.Props.PyProc
import Verif.Props.PyProcScan
import Verif.Props.PyProcSpectra
import Verif.Props.PyProcVsd
import Verif.Props.PyResistance
import Verif.Props.PySb
import Verif.Props.PySbDescent
import Verif.Props.PySbDyn
import Verif.Props.PySbHessian
import Verif.Props.PySbMore
import Verif.Props.PySbScan
import Verif.Props.PyTools
import Verif.Props.PyVector
import Verif.Props.Quiet
import Verif.Props.Record
import Verif.Props.Relax
import Verif.Props.Repeat
import Verif.Props.ReservoirLogs
import Verif.Props.Reservoirs
import Verif.Props.Resistance
import Verif.Props.Rotation
import Verif.Props.Rounding
import Verif.Props.Runs
import Verif.Props.Scaling
import Verif.Props.Setters
import Verif.Props.Small
import Verif.Props.Smoothness
import Verif.Props.StackAlone
import Verif.Props.StackCurrents
import Verif.Props.StackExamples
import Verif.Props.StackLogs
import Verif.Props.StackRuns
import Verif.Props.Stacks
import Verif.Props.Stochastic
import Verif.Props.Switching
import Verif.Props.SwitchingTime
import Verif.Props.Ticks
import Verif.Props.Torque
import Verif.Props.Turned
import Verif.Props.TwoModels
import Verif.Props.Uncoupled
import Verif.Props.UnitLength
import Verif.Props.Vectors
import Verif.Props.ViewAxes
import Verif.Props.ViewDomains
import Verif.Props.ViewError
import Verif.Props.ViewFiles
import Verif.Props.ViewFit
import Verif.Props.ViewJunction
import Verif.Props.ViewSweep
import Verif.Props.WalkerPeriod
import Verif.Props.WallEnergy
import Verif.Props.Weiss
import Verif.Axioms
