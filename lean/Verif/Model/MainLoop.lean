import Verif.Model.Inputs
import Verif.Model.Debounce
import Verif.Model.EventBuffer
import Verif.Model.MotionCtrl
import Verif.Model.Homing
/-!
# Model of the main program

`src/cnc3axis/main.cpp` lines 66–79 and 134–186: the components connected to each other.

The environment of an iteration of `loop` is arbitrary: how many calculations the step buffer asks for
(`Verif.Model.FillLoop` has the details; the output interrupt neither reads nor writes anything modelled here), whether
the sampling timer has expired, and what the ports read. Not modelled: the serial output, `delay`, timers, initialisation
of the hardware.
-/
namespace Moovr
open EventQueueSpec (Call)

/-- `nmbrInputs` of the main program — lib_target/cnc3axis/general/machineproperties.h:16 (the size of `myInputs`). -/
def Board.nmbrInputs : Nat := 9

/-- `myInputs` — src/cnc3axis/main.cpp:70-79. -/
def Board.myInputs₀ : Nat → DebouncedInput
  | 0 => .mk' .limitSwitchZMaxClosed .limitSwitchZMaxOpened
  | 1 => .mk' .limitSwitchXMaxClosed .limitSwitchXMaxOpened
  | 2 => .mk' .limitSwitchYMaxClosed .limitSwitchYMaxOpened
  | 3 => .mk' .limitSwitchYMinClosed .limitSwitchYMinOpened
  | 4 => .mk' .limitSwitchZMinClosed .limitSwitchZMinOpened
  | 5 => .mk' .limitSwitchXMinClosed .limitSwitchXMinOpened
  | 6 => .mk' .emergencyStopButtonPressed .emergencyStopButtonReleased
  | 7 => .mk' .feedHoldResumeButtonPressed .feedHoldResumeButtonReleased
  | _ => .mk' .probeSwitchClosed .probeSwitchOpened

/-- What the main program is compiled with: the homing part of `machineProperties`; how `simplifiedMotion::set` makes a
request from its arguments (simplifiedmotion.cpp:47-67); the arguments of `motionCtrl::initialize` (main.cpp:152). -/
structure Target (K : MotionKit) where
  cfg : HomingConfig
  request : HomingMove → K.Req
  maxTicks : Nat
  width : K.Time

/-- The global objects — main.cpp:45-79, :127. Not in the code: `calls`, all calls on the event queue; `acts`, all actions of the
homing controller (both first one first). -/
structure Board (K : MotionKit) where
  inputs : Inputs
  myInputs : Nat → DebouncedInput
  queue : EventBuffer
  ctrl : MotionCtrl K
  homer : Homer
  calls : List Call
  acts : List HomingAct

/-- One iteration of `loop`, as seen from outside. -/
structure Round where
  /-- how often `needsFilling()` returns true -/
  calcs : Nat
  /-- `sampleInputsTimer.expired()` -/
  expired : Bool
  /-- the ports when they are sampled -/
  ports : Ports

/-! Conditions on executions, used as hypotheses. -/

namespace MotionCtrl
variable {K : MotionKit}

/-- How often a controller reports that motion has stopped. -/
def stopCount (c c' : MotionCtrl K) : Nat := (c'.events.drop c.events.length).count .motionStopped

/-- The next calculation reports at most once that motion has stopped, and while running only at the end of the last motion. -/
def Regular (c : MotionCtrl K) : Prop :=
  ∀ r, c.calcNext = some r → stopCount c r.1 ≤ 1 ∧ (c.state = .running → r.1.state = .stopped → r.1.buffer.level = 0)

end MotionCtrl

namespace Board
open MotionCtrl (Regular)
variable {K : MotionKit} (t : Target K)

/-- A call on `theEventBuffer` other than `popEvent`. -/
def onQueue (b : Board K) (c : Call) : Board K := { b with queue := (b.queue.call c).1, calls := b.calls ++ [c] }

/-- `theEventBuffer.pushEvent`. -/
def push (b : Board K) (e : Event) : Board K := b.onQueue (.push e)

/-- The motion controller gets into state `c`; the events it has reported meanwhile go to the queue. -/
def withCtrl (b : Board K) (c : MotionCtrl K) : Board K :=
  (c.events.drop b.ctrl.events.length).foldl push { b with ctrl := c }

/-- The loop that fills the step buffer — main.cpp:164-169. `none`: a calculation never returns. -/
def fill : Nat → Board K → Option (Board K)
  | 0, b => some b
  | k + 1, b =>
    match b.ctrl.calcNext with
    | none => none
    | some r => fill k (b.withCtrl r.1)

/-- One input — main.cpp:174-177. -/
def sampleInput (b : Board K) (i : Nat) : Board K :=
  let r := (b.myInputs i).getEvent (b.inputs.get i)
  let b := { b with myInputs := fun j => if j = i then r.1 else b.myInputs j }
  if Event.none ≠ r.2 then b.push r.2 else b

/-- Sampling — main.cpp:171-178. -/
def sample (b : Board K) (p : Ports) : Board K :=
  (List.range nmbrInputs).foldl sampleInput { b with inputs := b.inputs.sample p }

/-- What the homing controller can read. -/
def env (b : Board K) : HomingEnv :=
  ⟨fun i => (b.myInputs i).isClosed, b.ctrl.isRunning, b.ctrl.machinePosition⟩

/-- An action of the homing controller is carried out. -/
def exec (b : Board K) : HomingAct → Board K
  | .push e => b.push e
  | .stop => b.withCtrl b.ctrl.stop
  | .flush => b.withCtrl b.ctrl.flushMotionBuffer
  | .append m => b.withCtrl (b.ctrl.append (t.request m))
  | .go => b.withCtrl b.ctrl.start
  | _ => b

/-- The homing controller gets into state `h` with the actions `acts`. -/
def withHomer (b : Board K) (r : Homer × List HomingAct) : Board K :=
  r.2.foldl (exec t) { b with homer := r.1, acts := b.acts ++ r.2 }

/-- Handling an event, if there is one — main.cpp:181-185. -/
def handle (b : Board K) : Board K :=
  let b₁ := b.onQueue .hasEvents
  if b.queue.hasEvents then
    let b₂ := b₁.onQueue .pop
    b₂.withHomer t (Homer.handleEvents t.cfg b₂.env b₂.homer b₁.queue.popEvent.2)
  else b₁

/-- `loop` — main.cpp:163-186. -/
def loop (b : Board K) (r : Round) : Option (Board K) :=
  match b.fill r.calcs with
  | none => none
  | some b => some ((if r.expired then b.sample r.ports else b).handle t)

/-- The global objects before `setup`. -/
def fresh : Board K := ⟨.fresh, myInputs₀, .init, .fresh K, .fresh t.cfg, [], []⟩

/-- `setup` — main.cpp:134-161; `p` is what the ports read. -/
def setup (p : Ports) : Board K :=
  let b : Board K := (fresh t).onQueue .reinit
  let b := { b with inputs := b.inputs.sample p }
  let b := { b with myInputs := fun i => if i < nmbrInputs then (b.myInputs i).doInitialize (b.inputs.get i) else b.myInputs i }
  let b := b.withCtrl (b.ctrl.configure t.maxTicks t.width)
  let b := b.withCtrl b.ctrl.resetMachinePosition
  b.withHomer t (Homer.start t.cfg b.env b.homer)

/-- Iterations of `loop`. -/
def loops (b : Board K) : List Round → Option (Board K)
  | [] => some b
  | r :: rs =>
    match b.loop t r with
    | none => none
    | some b => b.loops rs

/-- What homing needs in one iteration: calculations are regular, and a stop is ordered only while a motion is in the queue. -/
structure OrderlyRound (b : Board K) (r : Round) : Prop where
  regular : ∀ k, k < r.calcs → ∀ b₁, b.fill k = some b₁ → Regular b₁.ctrl
  stop : ∀ b₁ b', b.fill r.calcs = some b₁ → b.loop t r = some b' → .stop ∈ b'.acts.drop b.acts.length → b₁.ctrl.buffer.level ≠ 0

/-- All iterations are orderly. -/
def Orderly (b : Board K) : List Round → Prop
  | [] => True
  | r :: rs => OrderlyRound t b r ∧ ∀ b', b.loop t r = some b' → Orderly b' rs

/-- The machine after `setup` and some iterations of `loop`; `none` if a calculation never returns. -/
def run (p : Ports) (rounds : List Round) : Option (Board K) := (setup t p).loops t rounds

end Board
end Moovr
