import Verif.Model.MotionCtrl
import Verif.Model.PinOutput
/-!
# From the motion controller to the pins, in time

`src/cnc3axis/main.cpp`: the loop that fills the step buffer with the outputs of the motion controller (lines 164–169), the rest of
the main loop, which calls the motion controller (lines 171–187), and the interrupt of the output timer (lines 98–103), which
interrupts both at any time except within `write`. Time is counted in ticks of the output timer; the timer expires exactly when its
period is over. How long the program takes for anything is left open.
-/
namespace Moovr
open MotionSpec

/-- Motion controller, step buffer with timer and pins, the output that was calculated but not yet written, the outputs that
the buffer rejected, and the time. For the specification: when the loop last found that the buffer needs no filling, and the log of the
calls on the controller. -/
structure Drive (K : MotionKit) where
  ctrl : MotionCtrl K
  out : PinOutput
  pending : Option Step
  lost : List Step
  now : Nat
  lastFull : Nat
  log : Log K.Req (Option K.Req) K.Time K.Ovr

namespace Drive
variable {K : MotionKit}

/-- What happens. -/
inductive Op (K : MotionKit) where
  /-- time passes -/
  | elapse (n : Nat)
  /-- `while (theStepBuffer.needsFilling())`, and `calcNextStepperMotorSignals()` if so — main.cpp:164-165 -/
  | check
  /-- `theStepBuffer.write(aStep)` — main.cpp:166-168 -/
  | put
  /-- the timer expires and `pit1_isr` runs — main.cpp:98-103 -/
  | expire
  /-- another call on the motion controller, outside of the filling loop -/
  | call (k : Call K.Req K.Time K.Ovr)

/-- Calls made only by `setup()` or by the filling loop. -/
def reserved : Call K.Req K.Time K.Ovr → Bool
  | .configure _ _ => true
  | .calculate => true
  | _ => false

/-- One operation; `none` if it cannot happen now (the timer expires neither late nor early; the loop writes what it calculated before
anything else). -/
def step (s : Drive K) : Op K → Option (Drive K)
  | .elapse n => if s.now + n ≤ s.out.nextExpiry then some { s with now := s.now + n } else none
  | .check =>
    if s.pending.isSome then none
    else if s.out.buffer.needsFilling then
      (s.ctrl.call .calculate).map fun x => { s with ctrl := x.1, pending := x.2.entry, log := s.log ++ [(.calculate, x.2)] }
    else some { s with lastFull := s.now }
  | .put =>
    s.pending.map fun e =>
      { s with
        out := s.out.step (.write e)
        pending := none
        lost := if s.out.buffer.level < StepBuffer.length then s.lost else s.lost ++ [e] }
  | .expire => if s.now = s.out.nextExpiry then some { s with out := s.out.step .expire } else none
  | .call k =>
    if s.pending.isSome || reserved k then none
    else (s.ctrl.call k).map fun x => { s with ctrl := x.1, log := s.log ++ [(k, x.2)] }

/-- A sequence of operations. -/
def run (s : Drive K) : List (Op K) → Option (Drive K)
  | [] => some s
  | op :: ops => (s.step op).bind fun s' => s'.run ops

/-- `setup()` — main.cpp:152-156: the controller is initialised with `maxTicksSinceLastOutput` (375) and the width of a tick, the timer
is started, the step buffer has been primed by its constructor. -/
def start (K : MotionKit) (b : StepBuffer) (w : K.Time) : Drive K where
  ctrl := (MotionCtrl.fresh K).configure 375 w
  out := .start b
  pending := none
  lost := []
  now := 0
  lastFull := 0
  log := [(.configure 375 w, ⟨[], none, []⟩)]

/-- The main loop is fast enough: whenever the timer expires, at most `D` ticks have passed since the loop found that the buffer needs
no filling (or since the start). -/
def Punctual (D : Nat) (s : Drive K) : List (Op K) → Prop
  | [] => True
  | op :: ops => (op = .expire → s.now ≤ s.lastFull + D) ∧ ∀ s', s.step op = some s' → Punctual D s' ops

end Drive
end Moovr
