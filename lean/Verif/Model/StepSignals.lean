import Verif.Model.U32
import Verif.Spec.StepQueue
import Verif.Spec.Pulses
/-!
# Model of `stepSignals`

`lib/outputs_stepper_motor/stepsignals.h` lines 12–30, `lib/outputs_stepper_motor/stepsignals.cpp` lines 4–52.
The number of axes (`nmbrAxis`, a compile-time constant per machine: 3 for cnc3axis) is a parameter `n`.
-/
namespace Moovr
open PulseSpec (Dir Cmd)

/-- Data members — stepsignals.h:24-29. -/
structure StepSignals where
  dirSetup : BitVec 32
  stepRise : BitVec 32
  stepFall : BitVec 32
  lastOutput : BitVec 32
  ticksSinceLastOutput : Nat
  maxTicksSinceLastOutput : Nat

namespace StepSignals

/-- Freshly constructed object — stepsignals.h:24-29. -/
def init : StepSignals := ⟨0, 0, 0, 0, 0, 0⟩

/-- `isModified` — stepsignals.cpp:4-6. -/
def isModified (s : StepSignals) : Bool := s.dirSetup ≠ s.lastOutput

/-- `next` — stepsignals.cpp:8-12. -/
def next (s : StepSignals) : StepSignals :=
  { s with
    dirSetup := s.stepRise
    stepRise := s.stepFall
    ticksSinceLastOutput := u32add s.ticksSinceLastOutput 1 }

/-- `mask` — stepsignals.cpp:15 and :28. -/
def stepMask (axis : Nat) : BitVec 32 := 1#32 <<< (2 * axis)

/-- `stepBackward` — stepsignals.cpp:13-24. -/
def stepBackward (n : Nat) (s : StepSignals) (axis : Nat) : StepSignals :=
  if axis ≤ n then
    let mask := stepMask axis
    let dirSetup := s.dirSetup &&& ~~~mask
    let stepRise := s.stepRise ||| mask
    let stepFall := s.stepFall &&& ~~~mask
    let mask := mask <<< 1
    { s with
      dirSetup := dirSetup ||| mask
      stepRise := stepRise ||| mask
      stepFall := stepFall ||| mask }
  else s

/-- `stepForward` — stepsignals.cpp:26-37. -/
def stepForward (n : Nat) (s : StepSignals) (axis : Nat) : StepSignals :=
  if axis ≤ n then
    let mask := stepMask axis
    let dirSetup := s.dirSetup &&& ~~~mask
    let stepRise := s.stepRise ||| mask
    let stepFall := s.stepFall &&& ~~~mask
    let mask := mask <<< 1
    { s with
      dirSetup := dirSetup &&& ~~~mask
      stepRise := stepRise &&& ~~~mask
      stepFall := stepFall &&& ~~~mask }
  else s

/-- `output` — stepsignals.cpp:39-44. -/
def output (s : StepSignals) : StepSignals × Step :=
  ({ s with lastOutput := s.dirSetup, ticksSinceLastOutput := 0 }, ⟨s.ticksSinceLastOutput, s.dirSetup⟩)

/-- `setMaxTicksSinceLastOutput` — stepsignals.cpp:46-48. -/
def setMaxTicksSinceLastOutput (s : StepSignals) (m : Nat) : StepSignals := { s with maxTicksSinceLastOutput := m }

/-- `isTimedOut` — stepsignals.cpp:50-52. -/
def isTimedOut (s : StepSignals) : Bool := s.ticksSinceLastOutput ≥ s.maxTicksSinceLastOutput

/-- A step command on an axis: as issued by `motionCtrl::move` — lib/motion/motionctrl.cpp:222-226. -/
def command (n : Nat) (s : StepSignals) (axis : Nat) : Cmd → StepSignals
  | none => s
  | some .forward => s.stepForward n axis
  | some .backward => s.stepBackward n axis

/-- The step commands of one tick, axis by axis — the loop in `motionCtrl::move`, lib/motion/motionctrl.cpp:219-228. -/
def commands (n : Nat) (s : StepSignals) (cmd : Nat → Cmd) : StepSignals :=
  (List.range n).foldl (fun s axis => s.command n axis (cmd axis)) s

/-- One tick: `next()` and the step commands of that tick — lib/motion/motionctrl.cpp:180 and :204. -/
def tick (n : Nat) (s : StepSignals) (cmd : Nat → Cmd) : StepSignals := s.next.commands n cmd

/-- The signal pattern on each tick, for a sequence of per-tick commands. -/
def waveform (n : Nat) (s : StepSignals) : List (Nat → Cmd) → List (BitVec 32)
  | [] => []
  | c :: cs => (s.tick n c).dirSetup :: waveform n (s.tick n c) cs

/-- The test and output at the end of each round of the loop in `calcNextStepperMotorSignals` —
lib/motion/motionctrl.cpp:209-211. -/
def flush (s : StepSignals) : StepSignals × Option Step :=
  if s.isModified || s.isTimedOut then let r := s.output; (r.1, some r.2) else (s, none)

/-- Ticks with output: final state and the entries emitted, oldest first. -/
def pump (n : Nat) (s : StepSignals) : List (Nat → Cmd) → StepSignals × List Step
  | [] => (s, [])
  | c :: cs =>
    let r := (s.tick n c).flush
    let r' := pump n r.1 cs
    (r'.1, r.2.toList ++ r'.2)

end StepSignals
end Moovr
