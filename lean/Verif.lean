import Verif.Lemmas.Arc32
import Verif.Lemmas.ArcCourse32
import Verif.Lemmas.ArcGeometry
import Verif.Lemmas.Begin32
import Verif.Lemmas.Brake
import Verif.Lemmas.Brake32
import Verif.Lemmas.Clock32
import Verif.Lemmas.Course32
import Verif.Lemmas.Crowd
import Verif.Lemmas.Debounce
import Verif.Lemmas.Density
import Verif.Lemmas.Diagonal
import Verif.Lemmas.Doomed
import Verif.Lemmas.Double
import Verif.Lemmas.Drive
import Verif.Lemmas.Drive32
import Verif.Lemmas.Early32
import Verif.Lemmas.EmptyPath
import Verif.Lemmas.EventBuffer
import Verif.Lemmas.Execute
import Verif.Lemmas.ExecuteAll
import Verif.Lemmas.ExecuteQueue
import Verif.Lemmas.ExecuteRun
import Verif.Lemmas.ExecuteSteps
import Verif.Lemmas.ExecuteVelocity
import Verif.Lemmas.Float32
import Verif.Lemmas.Float64
import Verif.Lemmas.GCode
import Verif.Lemmas.GCodeArc
import Verif.Lemmas.GCodeBlock
import Verif.Lemmas.GCodeDouble
import Verif.Lemmas.GCodeExec
import Verif.Lemmas.GCodeLoop
import Verif.Lemmas.GCodeMotion
import Verif.Lemmas.GCodeParse
import Verif.Lemmas.GCodeReady
import Verif.Lemmas.GCodeRun
import Verif.Lemmas.GCodeSettings
import Verif.Lemmas.GCodeUnits
import Verif.Lemmas.Halt32
import Verif.Lemmas.Homing
import Verif.Lemmas.Homing32
import Verif.Lemmas.HomingMotion
import Verif.Lemmas.HomingOwn
import Verif.Lemmas.HomingReaction
import Verif.Lemmas.HomingReal
import Verif.Lemmas.HomingSmooth
import Verif.Lemmas.HomingWaits
import Verif.Lemmas.HostInterface
import Verif.Lemmas.HostRace
import Verif.Lemmas.Inputs
import Verif.Lemmas.Kept
import Verif.Lemmas.Limit
import Verif.Lemmas.Limit32
import Verif.Lemmas.Line32
import Verif.Lemmas.Link32
import Verif.Lemmas.ListInd
import Verif.Lemmas.MainLoop
import Verif.Lemmas.Moderate32
import Verif.Lemmas.MotionCtrl
import Verif.Lemmas.Num
import Verif.Lemmas.Onward
import Verif.Lemmas.Overflow
import Verif.Lemmas.Phase32
import Verif.Lemmas.PinOutput
import Verif.Lemmas.Pins
import Verif.Lemmas.Plan
import Verif.Lemmas.Plan32
import Verif.Lemmas.PlanExample
import Verif.Lemmas.PlanFun
import Verif.Lemmas.Queue32
import Verif.Lemmas.QueueGen
import Verif.Lemmas.QueueRoom
import Verif.Lemmas.Ramp32
import Verif.Lemmas.Regain32
import Verif.Lemmas.Replan
import Verif.Lemmas.Request
import Verif.Lemmas.Resume
import Verif.Lemmas.Resume32
import Verif.Lemmas.Ride
import Verif.Lemmas.Ring
import Verif.Lemmas.Run32
import Verif.Lemmas.SCurve
import Verif.Lemmas.Sampled32
import Verif.Lemmas.SendRace
import Verif.Lemmas.Session
import Verif.Lemmas.Single
import Verif.Lemmas.SpeedProfile
import Verif.Lemmas.Start32
import Verif.Lemmas.StepBuffer
import Verif.Lemmas.StepSignals
import Verif.Lemmas.Steps
import Verif.Lemmas.StopQueue
import Verif.Lemmas.StopRun
import Verif.Lemmas.Stopping32
import Verif.Lemmas.TickInv
import Verif.Lemmas.TickSeq
import Verif.Lemmas.Trip32
import Verif.Model.Debounce
import Verif.Model.Drive
import Verif.Model.Event
import Verif.Model.EventBuffer
import Verif.Model.FillLoop
import Verif.Model.Float32
import Verif.Model.Float64
import Verif.Model.GCode
import Verif.Model.GCodeBlock
import Verif.Model.GCodeDouble
import Verif.Model.Homing
import Verif.Model.HomingTarget
import Verif.Model.HostInterface
import Verif.Model.HostRace
import Verif.Model.Inputs
import Verif.Model.Junction
import Verif.Model.MainLoop
import Verif.Model.McuLoad
import Verif.Model.MotionCtrl
import Verif.Model.MotionItem
import Verif.Model.MotionText
import Verif.Model.MotorOutputs
import Verif.Model.Names
import Verif.Model.Num
import Verif.Model.PinOutput
import Verif.Model.Plotter
import Verif.Model.SendRace
import Verif.Model.Single
import Verif.Model.SpeedProfile
import Verif.Model.StepBuffer
import Verif.Model.StepRace
import Verif.Model.StepSignals
import Verif.Model.U32
import Verif.Props.Abandon
import Verif.Props.AbandonSingle
import Verif.Props.BufferOverflow
import Verif.Props.BufferRoom
import Verif.Props.CalcTicks
import Verif.Props.Configurations
import Verif.Props.Debounce
import Verif.Props.Emergency
import Verif.Props.Endless
import Verif.Props.EventBuffer
import Verif.Props.Execute
import Verif.Props.GCodeArc
import Verif.Props.GCodeDouble
import Verif.Props.GCodeExecute
import Verif.Props.GCodeFeed
import Verif.Props.GCodeLoop
import Verif.Props.GCodeModal
import Verif.Props.GCodePosition
import Verif.Props.GCodePrecision
import Verif.Props.GCodeSingle
import Verif.Props.GCodeText
import Verif.Props.GCodeUnits
import Verif.Props.Homing
import Verif.Props.HomingAxis
import Verif.Props.HomingMotion
import Verif.Props.HomingOverrun
import Verif.Props.HomingReaction
import Verif.Props.HomingReal
import Verif.Props.HomingSingle
import Verif.Props.HomingStop
import Verif.Props.HomingTimely
import Verif.Props.HomingWitness
import Verif.Props.HostInterface
import Verif.Props.HostProgram
import Verif.Props.Inputs
import Verif.Props.Junction
import Verif.Props.LockStep
import Verif.Props.MainHistory
import Verif.Props.MainLoop
import Verif.Props.McuLoad
import Verif.Props.MotionClock
import Verif.Props.MotionCtrl
import Verif.Props.MotionText
import Verif.Props.MotorOutputs
import Verif.Props.Names
import Verif.Props.Pins
import Verif.Props.Plan
import Verif.Props.Plotter
import Verif.Props.QueueRoom
import Verif.Props.Replan
import Verif.Props.Restart
import Verif.Props.RestartLimits
import Verif.Props.SendRace
import Verif.Props.Session
import Verif.Props.SingleArc
import Verif.Props.SingleClock
import Verif.Props.SinglePath
import Verif.Props.SinglePulses
import Verif.Props.SingleQueue
import Verif.Props.SingleResume
import Verif.Props.SingleRun
import Verif.Props.SingleSteps
import Verif.Props.SingleStop
import Verif.Props.SpeedProfile
import Verif.Props.SpeedSingle
import Verif.Props.StepBuffer
import Verif.Props.StepCounter
import Verif.Props.StepRace
import Verif.Props.StepSignals
import Verif.Props.StepTiming
import Verif.Props.Steps
import Verif.Props.StopExecute
import Verif.Props.Trajectory
import Verif.Spec.Debounce
import Verif.Spec.EventQueue
import Verif.Spec.Execute
import Verif.Spec.GCodeLoop
import Verif.Spec.GCodeRun
import Verif.Spec.GCodeText
import Verif.Spec.GCodeUnits
import Verif.Spec.GCodeWords
import Verif.Spec.Homing
import Verif.Spec.HostLink
import Verif.Spec.MainLoop
import Verif.Spec.McuLoad
import Verif.Spec.MotionRun
import Verif.Spec.MotionText
import Verif.Spec.MotorOutputs
import Verif.Spec.Onward
import Verif.Spec.Pins
import Verif.Spec.Plan
import Verif.Spec.Pulses
import Verif.Spec.Ride
import Verif.Spec.StepDensity
import Verif.Spec.StepQueue
import Verif.Tests.Control
import Verif.Tests.Discrete
import Verif.Tests.Kinematics
import Verif.Tests.Parser
