import Verif.Model.StepSignals
import Verif.Spec.MotionRun
/-!
# Model of `sampleTime`, `motionBuffer` and `motionCtrl`

`lib/motion/sampletime.{h,cpp}`, `lib/motion/motionbuffer.{h,cpp}`, `lib/motion/motionctrl.{h,cpp}`.

The control logic is modelled for an arbitrary `MotionKit`: the arithmetic on times and the member functions of
`class motion` are parameters about which nothing is assumed. So every theorem about the controller holds in
particular for 32-bit floats, whatever they round to, NaN and infinities included. `Verif.Model.MotionItem` gives
the kit with exact real arithmetic.

Modelled with 32-bit wrap-around: `level`, `sampleIndex`, the tick counter. Not modelled: overflow of the `int32_t`
machine position (needs more than 2^31 steps); `levelMax` and `isOptimal` (written, never read); `hold()`,
`resume()` (empty bodies). `pushEvent` on the global event queue appends to `events` (the queue itself: C01–C03).
-/
namespace Moovr
open PulseSpec (Dir Cmd)
open MotionSpec (Call Ret Tick Log)

/-- `enum class motionStrategy` — lib/motion/motionstrategy.h:13-16. -/
inductive Strategy where
  | minimizeSpeed
  | maximizeSpeed
  deriving DecidableEq, Repr

/-- The operations `motionCtrl` uses on times, motions and positions; no laws. -/
structure MotionKit where
  /-- `nmbrAxis` -/
  n : Nat
  /-- `float` times -/
  Time : Type
  /-- `simplifiedMotion` -/
  Req : Type
  /-- the members of `motion` other than `speedProfile` (lib/motion/motionitem.h:48-51) -/
  Traj : Type
  /-- `motionSpeedProfile` -/
  Prof : Type
  /-- `overrides` -/
  Ovr : Type
  /-- distance along the trajectory -/
  Dist : Type
  /-- position of an axis in mm -/
  Pos : Type
  /-- `0.0f` -/
  zero : Time
  /-- default of `minStepPulseWidth`, sampletime.h:28 -/
  one : Time
  /-- `static_cast<float>(sampleIndex) * minStepPulseWidth + sampleZeroOffset` — sampletime.cpp:10 -/
  sample : Nat → Time → Time → Time
  /-- `a > b` on times — sampletime.cpp:20 -/
  later : Time → Time → Bool
  /-- `a - b` on times — motionctrl.cpp:190 -/
  diff : Time → Time → Time
  /-- the members of a fresh `motion` other than the speed profile -/
  traj₀ : Traj
  /-- the speed profile of a fresh `motion` -/
  prof₀ : Prof
  /-- default overrides — overrides.h:5-6 -/
  ovr₀ : Ovr
  /-- `motion::set` (effect on everything but the profile) — motionitem.cpp:11-38 -/
  setTraj : Traj → Prof → Req → Traj
  /-- `motion::set` (effect on the profile) — motionitem.cpp:11-38 -/
  setProf : Traj → Prof → Req → Ovr → Strategy → Prof
  /-- `motion::optimize(overrides, strategy)` — motionitem.cpp:129-200 -/
  optimize : Ovr → Strategy → Traj → Prof → Prof
  /-- `motion::optimize(overrides, strategy, tNow)` — motionitem.cpp:122-127 -/
  optimizeAt : Ovr → Strategy → Time → Traj → Prof → Prof
  /-- `speedProfile.right.vEnd = 0` — motionctrl.cpp:109, `vJunction` returns 0 (line 122) -/
  endAtRest : Prof → Prof
  /-- `speedProfile.left.vStart = 0` — motionctrl.cpp:116 -/
  startAtRest : Prof → Prof
  /-- `speedProfile.duration` -/
  duration : Prof → Time
  /-- `speedProfile.tStop` -/
  tStop : Prof → Time
  /-- `motion::s` — motionitem.cpp:71-86 -/
  s : Traj → Prof → Time → Dist
  /-- `motion::isMoving` — motionitem.cpp:265-267 -/
  isMoving : Traj → Nat → Bool
  /-- `motion::positionInMmFromDistanceTravelled` — motionitem.cpp:298-306 -/
  position : Traj → Nat → Dist → Pos
  /-- `motionCtrl::needStepForward` — motionctrl.cpp:231-235; the last argument is the machine position -/
  needStepForward : Nat → Pos → Int → Bool
  /-- `motionCtrl::needStepBackward` — motionctrl.cpp:237-240 -/
  needStepBackward : Nat → Pos → Int → Bool

/-! ## `sampleTime` -/

/-- Data members — sampletime.h:25-28. -/
structure SampleTime (K : MotionKit) where
  timeInMotion : K.Time
  sampleZeroOffset : K.Time
  sampleIndex : Nat
  minStepPulseWidth : K.Time

namespace SampleTime
variable {K : MotionKit}

/-- Constructor — sampletime.cpp:4-6 with sampletime.h:25-28. -/
def fresh (K : MotionKit) : SampleTime K := ⟨K.zero, K.zero, 0, K.one⟩

/-- `next` — sampletime.cpp:8-11. -/
def next (t : SampleTime K) : SampleTime K :=
  let i := u32add t.sampleIndex 1
  { t with sampleIndex := i, timeInMotion := K.sample i t.minStepPulseWidth t.sampleZeroOffset }

/-- `initialize` — sampletime.cpp:13-17. -/
def reinit (t : SampleTime K) : SampleTime K :=
  { t with sampleIndex := 0, sampleZeroOffset := K.zero, timeInMotion := K.zero }

/-- `isBeyond` — sampletime.cpp:19-21. -/
def isBeyond (t : SampleTime K) (someTime : K.Time) : Bool := K.later t.timeInMotion someTime

/-- `initializeNextMotion` — sampletime.cpp:23-26. -/
def initializeNextMotion (t : SampleTime K) : SampleTime K :=
  { t with sampleIndex := 0, timeInMotion := t.sampleZeroOffset }

/-- `setminStepPulseWidth` — sampletime.cpp:28-30. -/
def setMinStepPulseWidth (t : SampleTime K) (w : K.Time) : SampleTime K := { t with minStepPulseWidth := w }

end SampleTime

/-! ## `motionBuffer` -/

/-- A `motion` in the buffer — motionitem.h:48-51. `request` is not in the code: it remembers the request with which
`set` was last called on this cell (`none`: never), so that theorems can say which motion is executed. -/
structure Motion (K : MotionKit) where
  request : Option K.Req
  traj : K.Traj
  prof : K.Prof

/-- Data members — motionbuffer.h:28-31. -/
structure MotionBuffer (K : MotionKit) where
  cells : Nat → Motion K
  head : Nat
  level : Nat

namespace MotionBuffer
variable {K : MotionKit}

/-- `length` — motionbuffer.h:28. -/
def length : Nat := 32

/-- Fresh object — motionbuffer.h:29-31. -/
def fresh (K : MotionKit) : MotionBuffer K := ⟨fun _ => ⟨none, K.traj₀, K.prof₀⟩, 0, 0⟩

/-- `isEmpty` — motionbuffer.cpp:10-12. -/
def isEmpty (b : MotionBuffer K) : Bool := 0 = b.level

/-- `isFull` — motionbuffer.cpp:14-16. -/
def isFull (b : MotionBuffer K) : Bool := b.level ≥ length

/-- `push` — motionbuffer.cpp:18-26; also returns the index. -/
def push (b : MotionBuffer K) : MotionBuffer K × Nat :=
  ({ b with level := u32add b.level 1 }, (b.head + b.level) % length)

/-- `pop` — motionbuffer.cpp:28-32 (`--level` wraps around when the buffer is empty). -/
def pop (b : MotionBuffer K) : MotionBuffer K := { b with head := (b.head + 1) % length, level := u32sub b.level 1 }

/-- `getHead` — motionbuffer.cpp:34-36. -/
def getHead (b : MotionBuffer K) : Motion K := b.cells b.head

/-- `flush` — motionbuffer.cpp:42-45. -/
def flush (b : MotionBuffer K) : MotionBuffer K := { b with head := 0, level := 0 }

/-- Replace the profile of the motion at an index. -/
def updProf (b : MotionBuffer K) (i : Nat) (f : Motion K → K.Prof) : MotionBuffer K :=
  { b with cells := fun j => if j = i then { b.cells i with prof := f (b.cells i) } else b.cells j }

end MotionBuffer

/-! ## `motionCtrl` -/

/-- Data members — motionctrl.h:40-49; `events` are all events pushed so far (oldest first). -/
structure MotionCtrl (K : MotionKit) where
  machinePosition : Nat → Int
  state : MotionState
  overrides : K.Ovr
  time : SampleTime K
  buffer : MotionBuffer K
  signals : StepSignals
  events : List Event

namespace MotionCtrl
variable {K : MotionKit}

/-- Fresh object — motionctrl.h:40-49. -/
def fresh (K : MotionKit) : MotionCtrl K :=
  ⟨fun _ => 0, .stopped, K.ovr₀, .fresh K, .fresh K, .init, []⟩

/-- `initialize` — motionctrl.cpp:21-24; the first argument is a `uint32_t`. -/
def configure (c : MotionCtrl K) (maxTicks : Nat) (width : K.Time) : MotionCtrl K :=
  { c with
    signals := c.signals.setMaxTicksSinceLastOutput (maxTicks % 2 ^ 32)
    time := c.time.setMinStepPulseWidth width }

/-- `isRunning` — motionctrl.cpp:30-32. -/
def isRunning (c : MotionCtrl K) : Bool := c.state ≠ .stopped

/-- `theStrategy` — motionctrl.cpp:34-36. -/
def strategy (c : MotionCtrl K) : Strategy := if c.state = .running then .maximizeSpeed else .minimizeSpeed

/-- `theEventBuffer.pushEvent`. -/
def pushEvent (c : MotionCtrl K) (e : Event) : MotionCtrl K := { c with events := c.events ++ [e] }

/-- `append` — motionctrl.cpp:38-45. -/
def append (c : MotionCtrl K) (r : K.Req) : MotionCtrl K :=
  if !c.buffer.isFull then
    let p := c.buffer.push
    let b := p.1
    let m := b.cells p.2
    let m' : Motion K := ⟨some r, K.setTraj m.traj m.prof r, K.setProf m.traj m.prof r c.overrides c.strategy⟩
    { c with buffer := { b with cells := fun j => if j = p.2 then m' else b.cells j } }
  else c.pushEvent .motionBufferOverflow

/-- `optimizePair` — motionctrl.cpp:102-118. -/
def optimizePair (c : MotionCtrl K) (junctionIndex : Nat) : MotionCtrl K :=
  let left := (c.buffer.head + junctionIndex) % MotionBuffer.length
  let right := (c.buffer.head + junctionIndex + 1) % MotionBuffer.length
  let b := c.buffer.updProf left fun m => K.endAtRest m.prof
  let b :=
    if 0 = junctionIndex then
      (b.updProf left fun m => K.optimizeAt c.overrides c.strategy c.time.timeInMotion m.traj m.prof).updProf left
        fun m => K.optimize c.overrides c.strategy m.traj m.prof
    else b.updProf left fun m => K.optimize c.overrides c.strategy m.traj m.prof
  let b := b.updProf right fun m => K.startAtRest m.prof
  let b := b.updProf right fun m => K.optimize c.overrides c.strategy m.traj m.prof
  { c with buffer := b }

/-- Number of rounds of the loops at motionctrl.cpp:88 and :93: `level - 1` for a level of at least 2 that is positive
as an `int32_t`, otherwise 0 (a level of 2^31, where line 88 overflows, is counted as 0). -/
def junctions (level : Nat) : Nat := if level < 2 ^ 31 then level - 1 else 0

/-- `optimize` — motionctrl.cpp:77-100. -/
def optimize (c : MotionCtrl K) : MotionCtrl K :=
  if c.buffer.level = 0 then c
  else if c.buffer.level = 1 then
    { c with buffer := c.buffer.updProf c.buffer.head fun m =>
        K.optimizeAt c.overrides c.strategy c.time.timeInMotion m.traj m.prof }
  else
    match c.strategy with
    | .minimizeSpeed => (List.range (junctions c.buffer.level)).foldl optimizePair c
    | .maximizeSpeed => (List.range (junctions c.buffer.level)).reverse.foldl optimizePair c

/-- `start` — motionctrl.cpp:47-54. -/
def start (c : MotionCtrl K) : MotionCtrl K :=
  if !c.buffer.isEmpty then optimize { c.pushEvent .motionStarted with state := .running } else c

/-- `stop` — motionctrl.cpp:60-64. -/
def stop (c : MotionCtrl K) : MotionCtrl K := optimize { c.pushEvent .stopRequested with state := .stopping }

/-- `flushMotionBuffer` — motionctrl.cpp:70-75. -/
def flushMotionBuffer (c : MotionCtrl K) : MotionCtrl K :=
  if !c.isRunning then { c with time := c.time.reinit, buffer := c.buffer.flush } else c

/-- `resetMachinePosition` — motionctrl.cpp:252-256. -/
def resetMachinePosition (c : MotionCtrl K) : MotionCtrl K :=
  { c with machinePosition := fun a => if a < K.n then 0 else c.machinePosition a }

/-- The decision of `move` for one axis — motionctrl.cpp:219-227. -/
def decision (c : MotionCtrl K) (axis : Nat) : Cmd :=
  let m := c.buffer.getHead
  let distanceTravelled := K.s m.traj m.prof c.time.timeInMotion
  if axis < K.n ∧ K.isMoving m.traj axis = true then
    let positionInMm := K.position m.traj axis distanceTravelled
    if K.needStepForward axis positionInMm (c.machinePosition axis) then some .forward
    else if K.needStepBackward axis positionInMm (c.machinePosition axis) then some .backward
    else none
  else none

/-- `move` — motionctrl.cpp:215-229 with `stepForward` and `stepBackward` (lines 242-250). The decision for an axis
reads only that axis' machine position, so deciding for all axes first and then stepping is the same. -/
def move (c : MotionCtrl K) : MotionCtrl K × (Nat → Cmd) :=
  let cmd := c.decision
  ({ c with
    signals := c.signals.commands K.n cmd
    machinePosition := fun a => match cmd a with
      | some .forward => c.machinePosition a + 1
      | some .backward => c.machinePosition a - 1
      | none => c.machinePosition a }, cmd)

/-- Going on to the next motion — motionctrl.cpp:190-193. -/
def nextMotion (c : MotionCtrl K) : MotionCtrl K :=
  let t := { c.time with sampleZeroOffset := K.diff c.time.timeInMotion (K.duration c.buffer.getHead.prof) }
  { c with buffer := c.buffer.pop, time := t.initializeNextMotion }.pushEvent .motionCompleted

/-- End of the last motion — motionctrl.cpp:195-200. -/
def lastMotion (c : MotionCtrl K) : MotionCtrl K :=
  let c := { c with buffer := c.buffer.pop, time := c.time.reinit, state := .stopped }
  ((c.pushEvent .motionStopped).pushEvent .motionCompleted).pushEvent .allMotionsCompleted

/-- The inner loop of `calcNextStepperMotorSignals` — motionctrl.cpp:187-207. The first argument bounds the number of
rounds; `none` if the bound is reached. Returns the step commands and the motion sampled by `move`, if any. -/
def settle : Nat → MotionCtrl K → Option (MotionCtrl K × (Nat → Cmd) × Option (Option K.Req))
  | 0, _ => none
  | fuel + 1, c =>
    if c.time.isBeyond (K.duration c.buffer.getHead.prof) then
      if c.buffer.level > 1 then settle fuel c.nextMotion
      else some (c.lastMotion, fun _ => none, none)
    else some (c.move.1, c.move.2, some c.buffer.getHead.request)

/-- The stop test — motionctrl.cpp:182-186. -/
def sampleAndCheckStop (c : MotionCtrl K) : MotionCtrl K :=
  let c := { c with time := c.time.next }
  if c.time.isBeyond (K.tStop c.buffer.getHead.prof) then { c with state := .stopped }.pushEvent .motionStopped else c

/-- One round of the outer loop up to line 208 — motionctrl.cpp:180-208. -/
def tick (c : MotionCtrl K) : Option (MotionCtrl K × Tick (Option K.Req)) :=
  let c₁ := { c with signals := c.signals.next }
  if c.isRunning then
    let c₃ := c₁.sampleAndCheckStop
    (settle (c₃.buffer.level + 1) c₃).map fun r =>
      (r.1, ⟨r.2.1, r.1.events.drop c.events.length, r.2.2⟩)
  else some (c₁, ⟨fun _ => none, [], none⟩)

/-- `calcNextStepperMotorSignals` — motionctrl.cpp:178-213: the outer loop, at most `fuel` rounds (`none` if that is
not enough). Returns the entry and what happened on each tick. -/
def calcLoop : Nat → MotionCtrl K → Option (MotionCtrl K × Step × List (Tick (Option K.Req)))
  | 0, _ => none
  | fuel + 1, c =>
    match c.tick with
    | none => none
    | some (c', t) =>
      if c'.signals.isModified || c'.signals.isTimedOut then
        let r := c'.signals.output
        some ({ c' with signals := r.1 }, r.2, [t])
      else
        (calcLoop fuel c').map fun r => (r.1, r.2.1, t :: r.2.2)

/-- `calcNextStepperMotorSignals` with a bound that is always sufficient (property C24). -/
def calcNext (c : MotionCtrl K) : Option (MotionCtrl K × Step × List (Tick (Option K.Req))) :=
  calcLoop (c.signals.maxTicksSinceLastOutput + 1) c

/-- `getMachinePosition` — motionctrl.cpp:258-263, the steps (millimetres are these divided by the steps per mm). -/
def getMachinePosition (c : MotionCtrl K) : List Int := (List.range K.n).map c.machinePosition

/-- Dispatch of a call; `none` if the call never returns. -/
def call (c : MotionCtrl K) : Call K.Req K.Time K.Ovr → Option (MotionCtrl K × Ret (Option K.Req))
  | .configure m w => some (c.configure m w, ⟨[], none, []⟩)
  | .append r => let c' := c.append r; some (c', ⟨c'.events.drop c.events.length, none, []⟩)
  | .start => let c' := c.start; some (c', ⟨c'.events.drop c.events.length, none, []⟩)
  | .stop => let c' := c.stop; some (c', ⟨c'.events.drop c.events.length, none, []⟩)
  | .flush => let c' := c.flushMotionBuffer; some (c', ⟨c'.events.drop c.events.length, none, []⟩)
  | .resetPosition => some (c.resetMachinePosition, ⟨[], none, []⟩)
  | .override o => some ({ c with overrides := o }, ⟨[], none, []⟩)
  | .calculate => c.calcNext.map fun r => (r.1, ⟨r.1.events.drop c.events.length, some r.2.1, r.2.2⟩)

/-- A history of calls (first call first): final state and log; `none` if some call never returns. -/
def run (c : MotionCtrl K) : List (Call K.Req K.Time K.Ovr) →
    Option (MotionCtrl K × Log K.Req (Option K.Req) K.Time K.Ovr)
  | [] => some (c, [])
  | k :: ks =>
    match c.call k with
    | none => none
    | some (c', r) => (c'.run ks).map fun x => (x.1, (k, r) :: x.2)

/-- No `calcNextStepperMotorSignals()` in the history happens while the queue is empty (`getLevel() = 0`) and the state is
not stopped. (By `motion_only_stop_on_empty`, only a `stop()` on an empty queue leads to that situation.) -/
def NeverBusyEmpty (c : MotionCtrl K) : List (Call K.Req K.Time K.Ovr) → Prop
  | [] => True
  | k :: ks =>
    (k.isCalculate = true → c.state ≠ .stopped → c.buffer.level ≠ 0) ∧
    ∀ c' r, c.call k = some (c', r) → NeverBusyEmpty c' ks

/-- No `stop()` in the history finds `getLevel() = 0`. -/
def StopsNonEmpty (c : MotionCtrl K) : List (Call K.Req K.Time K.Ovr) → Prop
  | [] => True
  | k :: ks =>
    (k.isStop = true → c.buffer.level ≠ 0) ∧
    ∀ c' r, c.call k = some (c', r) → StopsNonEmpty c' ks

end MotionCtrl
end Moovr
