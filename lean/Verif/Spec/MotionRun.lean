import Verif.Spec.StepQueue
import Verif.Spec.Pulses
/-!
# Specification of the motion controller

What a log of calls on the motion controller must look like, in terms of a plain list of waiting motions, the three
run states and the reported events. Independent of the ring buffer and of the calculation loops.
-/
namespace Moovr

/-- `enum class motionState` — lib/motion/motionstate.h:11-15. -/
inductive MotionState where
  | stopped
  | running
  | stopping
  deriving DecidableEq, Repr

namespace MotionSpec
open PulseSpec (Dir Cmd)

/-- The calls on a motion controller (lib/motion/motionctrl.h:22-46): `Req` is the type of motion requests, `Time` of
times, `Ovr` of overrides. -/
inductive Call (Req Time Ovr : Type) where
  | configure (maxTicks : Nat) (width : Time)
  | append (r : Req)
  | start
  | stop
  | flush
  | resetPosition
  | override (o : Ovr)
  | calculate

/-- Kinds of calls. -/
def Call.isReset {Req Time Ovr : Type} : Call Req Time Ovr → Bool
  | .resetPosition => true
  | _ => false
@[inherit_doc Call.isReset] def Call.isFlush {Req Time Ovr : Type} : Call Req Time Ovr → Bool
  | .flush => true
  | _ => false
@[inherit_doc Call.isReset] def Call.isStop {Req Time Ovr : Type} : Call Req Time Ovr → Bool
  | .stop => true
  | _ => false
@[inherit_doc Call.isReset] def Call.isCalculate {Req Time Ovr : Type} : Call Req Time Ovr → Bool
  | .calculate => true
  | _ => false

/-- What happened on one tick: the step command of each axis, the reported events, and the motion
that was sampled, if any. -/
structure Tick (Job : Type) where
  cmd : Nat → Cmd
  events : List Event
  active : Option Job

/-- What a call did: the events it reported; and for a calculation, the entry it returned and its ticks. -/
structure Ret (Job : Type) where
  events : List Event
  entry : Option Step
  ticks : List (Tick Job)

/-- A log of calls, first call first. -/
abbrev Log (Req Job Time Ovr : Type) := List (Call Req Time Ovr × Ret Job)

/-- Number of motions that may wait. -/
def capacity : Nat := 32

/-- The steps made by a command. -/
def stepsOf : Cmd → Int
  | none => 0
  | some .forward => 1
  | some .backward => -1

/-- Forward minus backward commands on an axis over some ticks. -/
def net {Job : Type} (a : Nat) (ticks : List (Tick Job)) : Int := (ticks.map fun t => stepsOf (t.cmd a)).sum

/-- The position of an axis after a log: `p` plus forward minus backward steps since the last reset. -/
def positionAfter {Req Job Time Ovr : Type} (a : Nat) : Int → Log Req Job Time Ovr → Int
  | p, [] => p
  | _, (.resetPosition, _) :: rest => positionAfter a 0 rest
  | p, (_, r) :: rest => positionAfter a (p + net a r.ticks) rest

/-- All ticks of a log. -/
def ticksOf {Req Job Time Ovr : Type} (log : Log Req Job Time Ovr) : List (Tick Job) :=
  log.flatMap fun x => x.2.ticks

/-- All returned entries of a log. -/
def entriesOf {Req Job Time Ovr : Type} (log : Log Req Job Time Ovr) : List Step :=
  log.flatMap fun x => x.2.entry.toList

/-- Abstract state: the waiting motions (first one being executed) and the run state. -/
structure Abs (Job : Type) where
  waiting : List Job
  state : MotionState

/-- How one tick may change the abstract state. -/
structure TickOk {Job : Type} (q : Abs Job) (t : Tick Job) (q' : Abs Job) : Prop where
  /-- one `motionCompleted` per motion that leaves, and they leave from the front -/
  completed : q'.waiting = q.waiting.drop (t.events.count .motionCompleted)
  enough : t.events.count .motionCompleted ≤ q.waiting.length
  /-- a stopped controller does nothing -/
  idle : q.state = .stopped → t.events = [] ∧ t.active = none ∧ q'.state = .stopped ∧ ∀ a, t.cmd a = none
  /-- the run state changes only to stopped, and exactly when `motionStopped` is reported -/
  state : q.state ≠ .stopped → q'.state = if .motionStopped ∈ t.events then .stopped else q.state
  /-- `allMotionsCompleted` is reported exactly when the last waiting motion completes -/
  all : .allMotionsCompleted ∈ t.events ↔ (q.waiting ≠ [] ∧ q'.waiting = [])
  /-- and then it is the last event, right after `motionStopped` and the motion's `motionCompleted` -/
  last : .allMotionsCompleted ∈ t.events →
    ∃ pre, t.events = pre ++ [.motionStopped, .motionCompleted, .allMotionsCompleted] ∧ .allMotionsCompleted ∉ pre
  /-- no other events -/
  only : ∀ e ∈ t.events, e = .motionStopped ∨ e = .motionCompleted ∨ e = .allMotionsCompleted
  /-- the motion sampled is the first of those still waiting -/
  active : t.active = if q.state = .stopped then none else q'.waiting.head?
  /-- steps are only made for a sampled motion -/
  steps : t.active = none → ∀ a, t.cmd a = none

/-- Consecutive ticks. -/
def TicksOk {Job : Type} : Abs Job → List (Tick Job) → Abs Job → Prop
  | q, [], q' => q' = q
  | q, t :: ts, q'' => ∃ q', TickOk q t q' ∧ TicksOk q' ts q''

/-- How one call may change the abstract state. `job` gives the identity of a requested motion. -/
def CallOk {Req Job Time Ovr : Type} (job : Req → Job) (q : Abs Job) :
    Call Req Time Ovr → Ret Job → Abs Job → Prop
  | .append r, ret, q' => ret.entry = none ∧ ret.ticks = [] ∧
    if q.waiting.length < capacity
    then ret.events = [] ∧ q' = { q with waiting := q.waiting ++ [job r] }
    else ret.events = [.motionBufferOverflow] ∧ q' = q
  | .start, ret, q' => ret.entry = none ∧ ret.ticks = [] ∧
    if q.waiting = [] then ret.events = [] ∧ q' = q
    else ret.events = [.motionStarted] ∧ q' = { q with state := .running }
  | .stop, ret, q' => ret.entry = none ∧ ret.ticks = [] ∧
    ret.events = [.stopRequested] ∧ q' = { q with state := .stopping }
  | .flush, ret, q' => ret.entry = none ∧ ret.ticks = [] ∧ ret.events = [] ∧
    q' = if q.state = .stopped then { q with waiting := [] } else q
  | .calculate, ret, q' => ret.entry.isSome ∧ ret.ticks ≠ [] ∧
    ret.events = ret.ticks.flatMap Tick.events ∧ TicksOk q ret.ticks q'
  | _, ret, q' => ret.entry = none ∧ ret.ticks = [] ∧ ret.events = [] ∧ q' = q

/-- A whole log. -/
def LogOk {Req Job Time Ovr : Type} (job : Req → Job) : Abs Job → Log Req Job Time Ovr → Abs Job → Prop
  | q, [], q' => q' = q
  | q, (c, r) :: rest, q'' => ∃ q', CallOk job q c r q' ∧ LogOk job q' rest q''

/-- Every returned entry lasts as many ticks as were calculated for it: at least one and at most the interval limit (at
least one), as last configured; `limit` is the limit before the log. -/
def EntriesTimely {Req Job Time Ovr : Type} : Nat → Log Req Job Time Ovr → Prop
  | _, [] => True
  | _, (.configure m _, r) :: rest => r.entry = none ∧ EntriesTimely (m % 2 ^ 32) rest
  | limit, (_, r) :: rest =>
    (∀ e, r.entry = some e → 1 ≤ e.timeBefore ∧ e.timeBefore ≤ max 1 limit ∧ e.timeBefore = r.ticks.length) ∧
    EntriesTimely limit rest

/-- The motions sampled on consecutive ticks are those accepted, in order; `served` have completed before. -/
def TicksInOrder {Job : Type} (accepted : List Job) : Nat → List (Tick Job) → Prop
  | _, [] => True
  | served, t :: ts =>
    let served' := served + t.events.count .motionCompleted
    served' ≤ accepted.length ∧ (∀ j, t.active = some j → accepted[served']? = some j) ∧
    TicksInOrder accepted served' ts

/-- The motions of a log without flush are executed in the order accepted, each once: an append without an overflow
report is accepted; each `motionCompleted` moves on to the next. -/
def ExecutedInOrder {Req Job Time Ovr : Type} (job : Req → Job) :
    List Job → Nat → Log Req Job Time Ovr → Prop
  | _, _, [] => True
  | acc, served, (.append r, ret) :: rest =>
    ExecutedInOrder job (if .motionBufferOverflow ∈ ret.events then acc else acc ++ [job r]) served rest
  | acc, served, (_, ret) :: rest =>
    TicksInOrder acc served ret.ticks ∧
    ExecutedInOrder job acc (served + (ret.ticks.flatMap Tick.events).count .motionCompleted) rest

/-- Forward minus backward pulses on a wire pair, given step and direction line on each tick and the step line before:
a pulse counts at its rising edge, in the direction then shown. -/
def pulseCount : Bool → List (Bool × Bool) → Int
  | _, [] => 0
  | before, (step, dir) :: rest => (if !before && step then (if dir then -1 else 1) else 0) + pulseCount step rest

end MotionSpec
end Moovr
