import Mathlib.Data.Rat.Defs
import Mathlib.Algebra.Order.Ring.Rat
import Verif.Model.Event
/-!
# Model of `homingController`

`lib/maincontroller/homing.h`, `lib/maincontroller/homing.cpp`, `lib/maincontroller/homingstate.h`.

What the homing controller asks of the rest of the machine (switches, motion controller, event queue) is recorded as a
list of actions, in the order of execution; what it reads (is a switch closed? is the motion controller running? where is
the machine?) is given by an arbitrary environment `Env`, one per call. `Verif.Model.MainLoop` connects the actions to the
models of the other components.

Numbers are rationals: the constants of `machineProperties` are floats, and the only arithmetic is a change of sign.
Not modelled: `handleTimeouts` and `exitState` (no effect), the local variables of homing.cpp:153-154 (unused).
-/
namespace Moovr

/-- `enum class homingState` — lib/maincontroller/homingstate.h:12-21. -/
inductive HomingState where
  | lost | stopping | closing | closedWaitForStop | opening | openedWaitForStop | offsettingWaitForStop | found
  deriving DecidableEq, Repr

/-- The members of `machineProperties` that homing uses — lib_target/cnc3axis/general/machineproperties.h:46-79. An axis is its
number in `enum class axis`; `n` (`nmbrAxis`) stands for "no axis". -/
structure HomingConfig where
  n : Nat
  nmbrHomingAxis : Nat
  homingSequence : Nat → Nat
  homingDirection : Nat → Bool
  hasLimitsMax : Nat → Bool
  limitMaxIndex : Nat → Nat
  hasLimitsMin : Nat → Bool
  limitMinIndex : Nat → Nat
  sMax : Nat → ℚ
  homingOffset : Nat → ℚ
  vHoming : ℚ
  vHomingSlow : ℚ

/-- The shipped values — lib_target/cnc3axis/general/machineproperties.h:46-79. -/
def HomingConfig.cnc3axis : HomingConfig where
  n := 3
  nmbrHomingAxis := 3
  homingSequence i := [2, 0, 1].getD i 3
  homingDirection _ := true
  hasLimitsMax _ := true
  limitMaxIndex a := [1, 2, 0].getD a 0
  hasLimitsMin _ := false
  limitMinIndex a := [0, 2, 4].getD a 0
  sMax a := [300, 160, 60].getD a 0
  homingOffset _ := 3
  vHoming := 10
  vHomingSlow := 1

/-- The arguments of `simplifiedMotion::set` (simplifiedmotion.cpp:47) in a homing move: start position in steps, axis,
signed distance in mm, speed in mm/s. -/
structure HomingMove where
  position : Nat → Int
  axis : Nat
  offset : ℚ
  speed : ℚ

/-- An action of the homing controller, or a value it has read. -/
inductive HomingAct where
  /-- `start()` was called -/
  | started
  /-- `handleEvents(e)` was called -/
  | handled (e : Event)
  /-- `myInputs[i].isClosed()` returned `b` -/
  | sawClosed (i : Nat) (b : Bool)
  /-- `theMotionController.isRunning()` returned `b` -/
  | sawRunning (b : Bool)
  /-- `theEventBuffer.pushEvent(e)` -/
  | push (e : Event)
  /-- `theMotionController.stop()` -/
  | stop
  /-- `theMotionController.flushMotionBuffer()` -/
  | flush
  /-- `theMotionController.append(aMotion)` -/
  | append (m : HomingMove)
  /-- `theMotionController.start()` -/
  | go

/-- What the controller reads during a call. -/
structure HomingEnv where
  /-- `myInputs[i].isClosed()` -/
  closed : Nat → Bool
  /-- `theMotionController.isRunning()` -/
  running : Bool
  /-- `theMotionController.getMachinePosition()`, in steps -/
  position : Nat → Int

/-- Data members — homing.h:32-39. (`currentHomingAxisIndex` always is `currentHomingAxis` as a number.) -/
structure Homer where
  state : HomingState
  homingSequenceIndex : Nat
  currentHomingAxis : Nat
  theLimitSwitch : Nat
  limitSwitchClose : Event
  limitSwitchOpen : Event
  deriving DecidableEq, Repr

namespace Homer
variable (cfg : HomingConfig)

/-- Fresh object — homing.h:32-39. -/
def fresh : Homer := ⟨.lost, 0, cfg.n, 0, .none, .none⟩

/-- The events of the maximum limit switch of an axis — homing.cpp:50-66 (`default` is X). -/
def maxEvents : Nat → Event × Event
  | 1 => (.limitSwitchYMaxClosed, .limitSwitchYMaxOpened)
  | 2 => (.limitSwitchZMaxClosed, .limitSwitchZMaxOpened)
  | _ => (.limitSwitchXMaxClosed, .limitSwitchXMaxOpened)

/-- The events of the minimum limit switch of an axis — homing.cpp:72-88. -/
def minEvents : Nat → Event × Event
  | 1 => (.limitSwitchYMinClosed, .limitSwitchYMinOpened)
  | 2 => (.limitSwitchZMinClosed, .limitSwitchZMinOpened)
  | _ => (.limitSwitchXMinClosed, .limitSwitchXMinOpened)

/-- The body of the loop in `selectAxis` — homing.cpp:44-92: `true` if it returns. -/
def tryAxis (h : Homer) : Homer × Bool :=
  let axis := cfg.homingSequence h.homingSequenceIndex
  let h := { h with currentHomingAxis := axis }
  if axis < cfg.n then
    if cfg.homingDirection axis then
      if cfg.hasLimitsMax axis then
        ({ h with
          theLimitSwitch := cfg.limitMaxIndex axis
          limitSwitchClose := (maxEvents axis).1
          limitSwitchOpen := (maxEvents axis).2 }, true)
      else (h, false)
    else
      if cfg.hasLimitsMin axis then
        ({ h with
          theLimitSwitch := cfg.limitMinIndex axis
          limitSwitchClose := (minEvents axis).1
          limitSwitchOpen := (minEvents axis).2 }, true)
      else (h, false)
  else (h, false)

/-- `selectAxis` — homing.cpp:42-96; the first argument is the number of remaining rounds. -/
def selectLoop : Nat → Homer → Homer × Bool
  | 0, h => (h, false)
  | k + 1, h =>
    let r := tryAxis cfg h
    if r.2 then (r.1, true)
    else selectLoop k { r.1 with homingSequenceIndex := r.1.homingSequenceIndex + 1 }

/-- `selectAxis` — homing.cpp:42-96. -/
def selectAxis (h : Homer) : Homer × Bool := selectLoop cfg (cfg.nmbrHomingAxis - h.homingSequenceIndex) h

/-- `nextAxis` — homing.cpp:34-40. -/
def nextAxis (h : Homer) : Homer × Bool :=
  if h.homingSequenceIndex < cfg.nmbrHomingAxis then
    selectAxis cfg { h with homingSequenceIndex := h.homingSequenceIndex + 1 }
  else (h, false)

/-- `enterState` — homing.cpp:194-272: the actions. -/
def enterState (env : HomingEnv) (h : Homer) : List HomingAct :=
  let axis := h.currentHomingAxis
  match h.state with
  | .lost => []
  | .stopping => [.stop]
  | .closing =>
    [.flush, .append ⟨env.position, axis, if cfg.homingDirection axis then cfg.sMax axis else -1 * cfg.sMax axis, cfg.vHoming⟩, .go]
  | .closedWaitForStop => [.stop]
  | .opening =>
    [.flush, .append ⟨env.position, axis, if cfg.homingDirection axis then -1 * cfg.sMax axis else cfg.sMax axis, cfg.vHomingSlow⟩,
      .go]
  | .openedWaitForStop => [.stop]
  | .offsettingWaitForStop =>
    [.flush, .append ⟨env.position, axis, if cfg.homingDirection axis then -1 * cfg.homingOffset axis else cfg.homingOffset axis,
      cfg.vHoming⟩, .go]
  | .found => [.push .homingCompleted]

/-- `goTo` — homing.cpp:187-192. -/
def goTo (env : HomingEnv) (h : Homer) (s : HomingState) : Homer × List HomingAct :=
  ({ h with state := s }, enterState cfg env { h with state := s })

/-- Towards or away from the switch, depending on whether it is closed — homing.cpp:21-27, :107-113, :157-163. -/
def approach (env : HomingEnv) (h : Homer) : Homer × List HomingAct :=
  let c := env.closed h.theLimitSwitch
  let r := goTo cfg env h (if c then .opening else .closing)
  (r.1, .sawClosed h.theLimitSwitch c :: r.2)

/-- `start` — homing.cpp:14-32. -/
def start (env : HomingEnv) (h : Homer) : Homer × List HomingAct :=
  let r := selectAxis cfg { h with homingSequenceIndex := 0 }
  if r.2 then
    if env.running then
      let x := goTo cfg env r.1 .stopping
      (x.1, [.started, .push .homingStarted, .sawRunning true] ++ x.2)
    else
      let x := approach cfg env r.1
      (x.1, [.started, .push .homingStarted, .sawRunning false] ++ x.2)
  else (r.1, [.started, .push .homingError])

/-- The `switch` of `handleEvents` — homing.cpp:98-182. -/
def react (env : HomingEnv) (h : Homer) (e : Event) : Homer × List HomingAct :=
  match h.state with
  | .lost => (h, [])
  | .stopping => if e = .motionStopped then approach cfg env h else (h, [])
  | .closing => if h.limitSwitchClose = e then goTo cfg env h .closedWaitForStop else (h, [])
  | .closedWaitForStop => if e = .motionStopped then goTo cfg env h .opening else (h, [])
  | .opening => if h.limitSwitchOpen = e then goTo cfg env h .openedWaitForStop else (h, [])
  | .openedWaitForStop => if e = .motionStopped then goTo cfg env h .offsettingWaitForStop else (h, [])
  | .offsettingWaitForStop =>
    if e = .motionStopped then
      let r := nextAxis cfg h
      if r.2 then approach cfg env r.1 else goTo cfg env r.1 .found
    else (h, [])
  | .found => (h, [])

/-- `handleEvents` — homing.cpp:98-182, with the call itself as first action. -/
def handleEvents (env : HomingEnv) (h : Homer) (e : Event) : Homer × List HomingAct :=
  let r := react cfg env h e
  (r.1, .handled e :: r.2)

/-- The public calls — homing.h:18-21 (`nextAxis` is public, too, but only called from within). -/
inductive Call where
  | start
  | event (e : Event)

/-- Dispatch. -/
def call (h : Homer) : Call × HomingEnv → Homer × List HomingAct
  | (.start, env) => start cfg env h
  | (.event e, env) => handleEvents cfg env h e

/-- A history of calls, first call first: final state and all actions. -/
def run (h : Homer) : List (Call × HomingEnv) → Homer × List HomingAct
  | [] => (h, [])
  | c :: cs =>
    let r := call cfg h c
    let r' := run r.1 cs
    (r'.1, r.2 ++ r'.2)

end Homer
end Moovr
