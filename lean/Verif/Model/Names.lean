import Verif.Model.GCode
import Verif.Model.Homing
import Verif.Model.Junction
import Verif.Model.MotionCtrl
import Verif.Model.MotionItem
/-!
# Model of the functions `toString` that name the values of enumerations, and of `version`

A string is the list of its characters before the terminating NUL. The `toString` member functions that print whole
objects with `sprintf("%f")` are in `MotionText`.
-/
namespace Moovr

/-- `toString(event)` — lib/event/event.cpp:3-108. -/
def Event.name : Event → String
  | .none => "none"
  | .emergencyStopButtonPressed => "emergencyStop button pressed"
  | .emergencyStopButtonReleased => "emergencyStop button released"
  | .feedHoldResumeButtonPressed => "feed Hold/Resume button pressed"
  | .feedHoldResumeButtonReleased => "feed Hold/Resume button released"
  | .probeSwitchClosed => "probeSwitch closed"
  | .probeSwitchOpened => "probeSwitch opened"
  | .limitSwitchXMinClosed => "limitSwitch XMin closed"
  | .limitSwitchYMinClosed => "limitSwitch YMin closed"
  | .limitSwitchZMinClosed => "limitSwitch ZMin closed"
  | .limitSwitchXMaxClosed => "limitSwitch XMax closed"
  | .limitSwitchYMaxClosed => "limitSwitch YMax closed"
  | .limitSwitchZMaxClosed => "limitSwitch ZMax closed"
  | .limitSwitchXMinOpened => "limitSwitch XMin opened"
  | .limitSwitchYMinOpened => "limitSwitch YMin opened"
  | .limitSwitchZMinOpened => "limitSwitch ZMin opened"
  | .limitSwitchXMaxOpened => "limitSwitch XMax opened"
  | .limitSwitchYMaxOpened => "limitSwitch YMax opened"
  | .limitSwitchZMaxOpened => "limitSwitch ZMax opened"
  | .motionAdded => "motion added"
  | .motionCompleted => "motion completed"
  | .allMotionsCompleted => "all motions completed"
  | .motionStarted => "motion started"
  | .stopRequested => "stop requested"
  | .motionStopped => "motion stopped"
  | .motionBufferOverflow => "motionBufferOverflow"
  | .homingStarted => "homing started"
  | .homingCompleted => "homing completed"
  | .homingError => "homing error"
  | .probingStarted => "probingStarted"
  | .probingCompleted => "probingCompleted"
  | .stepBufferUnderflow => "stepBufferUnderflow"
  | .stepBufferOverflow => "stepBufferOverflow"
  | _ => "unknown"

/-- `toString(gCodeParseError)` — lib/gcode/gcodeparseerror.cpp:3-77. -/
def GCode.ParseError.name : GCode.ParseError → String
  | .none => "None"
  | .tooManyWordsInBlock => "TooManyWordsInBlock"
  | .invalidArcParameters => "InvalidArcParameters"
  | .modalGroupCollision => "ModalGroupCollision"
  | .valueWordCollision => "ValueWordCollision"
  | .invalidLineNumber => "InvalidLineNumber"
  | .invalidFeedrate => "InvalidFeedrate"
  | .missingFeedrate => "MissingFeedrate"
  | .invalidSpindleSpeed => "InvalidSpindleSpeed"
  | .missingPForG4 => "MissingPForG4"
  | .invalidDwellTime => "InvalidDwellTime"
  | .missingLForG10 => "MissingLForG10"
  | .missingPForG10 => "MissingPForG10"
  | .invalidPForG10 => "InvalidPForG10"
  | .missingAxisWord => "MissingAxisWord"
  | .missingOffsetWord => "MissingOffsetWord"
  | .unsupportedgCodeWord => "UnsupportedgCodeWord"
  | _ => "unknown"

/-- `toString(gCodeParseResultType)` — lib/gcode/gcodeparseresulttype.cpp:3-18. -/
def GCode.Result.name : GCode.Result → String
  | .emptyBlock => "EmptyBlock"
  | .okContextUpdateOnly => "OkContextUpdateOnly"
  | .okContextUpdateAndMotion => "OkContextUpdateAndMotion"
  | _ => "unknown"

/-- `toString(homingState)` — lib/maincontroller/homingstate.cpp:3-33. -/
def HomingState.name : HomingState → String
  | .lost => "lost"
  | .stopping => "stopping"
  | .closing => "closing"
  | .closedWaitForStop => "closedWaitForStop"
  | .opening => "opening"
  | .openedWaitForStop => "openedWaitForStop"
  | .offsettingWaitForStop => "offsettingWaitForStop"
  | .found => "found"

/-- `toString(motionType)` — lib/motion/motiontype.cpp:3-30. -/
def MotionType.name : MotionType → String
  | .traverse => "traverse"
  | .feedLinear => "feedLinear"
  | .feedHelicalCW => "feedHelicalCW"
  | .feedHelicalCCW => "feedHelicalCCW"
  | .pauseAndResume => "pauseAndResume"
  | .pause => "pause"
  | .none => "none"

/-- `toString(motionState)` — lib/motion/motionstate.cpp:3-18. -/
def MotionState.name : MotionState → String
  | .running => "running"
  | .stopping => "stopping"
  | .stopped => "stopped"

/-- `toString(motionStrategy)` — lib/motion/motionstrategy.cpp:3-17. -/
def Strategy.name : Strategy → String
  | .minimizeSpeed => "minimizeSpeed"
  | .maximizeSpeed => "minimizeSpeed"

/-- `toString(rotationDirection)` — lib/general/rotationdirection.cpp:4-16. -/
def RotationDirection.name : RotationDirection → String
  | .clockwise => "clockwise"
  | .counterClockwise => "counterClockwise"

/-- `toString(speedProfileOrder)` — lib/motion/speedprofileorder.cpp:3-15. -/
def Order.name : Order → String
  | .firstOrder => "1st order"
  | .secondOrder => "2nd order"

/-- `enum class mainState` — lib/maincontroller/mainstate.h:10-16 (no other use outside commented-out code). -/
inductive MainState where
  | ready | homing | probing | running | error
  deriving DecidableEq, Repr

/-- `toString(mainState)` — lib/maincontroller/mainstate.cpp:3-24. -/
def MainState.name : MainState → String
  | .ready => "ready"
  | .homing => "homing"
  | .probing => "probing"
  | .running => "running"
  | .error => "error"

/-- `enum class probingState` — lib/maincontroller/probingstate.h:11-15 (no other use outside commented-out code). -/
inductive ProbingState where
  | lost | search | found
  deriving DecidableEq, Repr

/-- `toString(probingState)` — lib/maincontroller/probingstate.cpp:3-18. -/
def ProbingState.name : ProbingState → String
  | .lost => "lost"
  | .search => "search"
  | .found => "found"

/-- `toString(motionCalculateDirection)` — lib/motion/motioncalculatedirection.cpp:11-23. -/
def CalculateDirection.name : CalculateDirection → String
  | .forward => "forward"
  | .reverse => "reverse"

/-- `enum class error` of the host interface — lib/hostinterface/hostinterfaceerror.h:11-15. -/
inductive HostError where
  | none | underflow | overflow
  deriving DecidableEq, Repr

/-- `hostinterface::toString(error)` — lib/hostinterface/hostinterfaceerror.cpp:5-18. -/
def HostError.name : HostError → String
  | .none => "none"
  | .underflow => "underflow"
  | .overflow => "overflow"

/-- What `loop` prints for each event it handles — src/cnc3axis/main.cpp:183 (the text between `"Event : "` and the line feed). -/
def eventLog (events : List Event) : List String := events.map Event.name

/-! ## `version` -/

namespace Version

/-- A decimal digit. -/
def digit (d : Nat) : Char := Char.ofNat ('0'.toNat + d)

/-- The decimal representation of a natural number. -/
def decimal (n : Nat) : List Char := if n < 10 then [digit n] else decimal (n / 10) ++ [digit (n % 10)]
termination_by n

/-- `%d` for an argument of type `uint32_t` — the bits are taken as a signed number. -/
def asInt (n : BitVec 32) : List Char := if n.msb then '-' :: decimal (2 ^ 32 - n.toNat) else decimal n.toNat

/-- `maxVersionStringLenght` — lib/general/version.h:20. -/
def maxVersionStringLength : Nat := 14

/-- `versionString` after construction — lib/general/version.cpp:4-6: `snprintf` writes at most the given number of characters,
including the terminating NUL. -/
def text (a b c : BitVec 32) : List Char :=
  ("V ".toList ++ asInt a ++ ['.'] ++ asInt b ++ ['.'] ++ asInt c).take (maxVersionStringLength - 1)

end Version
end Moovr
