/-!
# Events

`lib/event/event.h` lines 11–55: `enum class event : uint32_t`.
-/
namespace Moovr

/-- `enum class event` — lib/event/event.h:11-55 (same names, same order). -/
inductive Event where
  | none
  | emergencyStopButtonPressed | emergencyStopButtonReleased
  | feedHoldResumeButtonPressed | feedHoldResumeButtonReleased
  | probeSwitchClosed | probeSwitchOpened
  | limitSwitchXMinClosed | limitSwitchYMinClosed | limitSwitchZMinClosed
  | limitSwitchXMaxClosed | limitSwitchYMaxClosed | limitSwitchZMaxClosed
  | limitSwitchXMinOpened | limitSwitchYMinOpened | limitSwitchZMinOpened
  | limitSwitchXMaxOpened | limitSwitchYMaxOpened | limitSwitchZMaxOpened
  | stepBufferUnderflow | stepBufferOverflow
  | motionAdded | motionCompleted | allMotionsCompleted | motionStarted
  | stopRequested | motionStopped | motionBufferOverflow
  | homingStarted | homingCompleted | homingError
  | probingStarted | probingCompleted
  | eventBufferUnderflow | eventBufferOverflow
  deriving DecidableEq, Repr, Inhabited

end Moovr
