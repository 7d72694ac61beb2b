import Verif.Model.StepBuffer
/-!
# Output timer and its interrupt handler

`src/cnc3axis/main.cpp` lines 98–103 (`pit1_isr`), `lib_target/cnc3axis/outputs/timers.cpp` lines 12–49 and 66–87.

The K64/K66 periodic interrupt timer is trusted hardware, modelled as its reference manual describes it: when the
counter expires it is reloaded from `PIT_LDVAL1` as it is *at that moment*, so the period that starts then lasts
`PIT_LDVAL1 + 1` ticks; a value written by the interrupt handler only takes effect at the next expiry.
Interrupt latency and masking during `write` (a few bus cycles) are not modelled. Time unit: one PIT0 period.
-/
namespace Moovr

/-- Step buffer, timer register, time of the next expiry, and the updates of the pins so far (oldest first). -/
structure PinOutput where
  buffer : StepBuffer
  ldval : Nat
  nextExpiry : Nat
  pins : List (Nat × BitVec 32)

namespace PinOutput

/-- After `outputTimer::initialize` / `enable` — timers.cpp:29 and :67-71: `PIT_LDVAL1 = 100`, timer started at
time 0. -/
def start (b : StepBuffer) : PinOutput := ⟨b, 100, 101, []⟩

/-- Expiry of the timer, then `pit1_isr` — src/cnc3axis/main.cpp:98-103; `reload` — timers.cpp:85-87;
`theStepBuffer.read()`; `stepperMotorOutputs::write` — steppermotor.cpp (port register). -/
def interrupt (o : PinOutput) : PinOutput :=
  let r := o.buffer.read
  { buffer := r.1
    ldval := u32sub r.2.timeBefore 1
    nextExpiry := o.nextExpiry + (o.ldval + 1)
    pins := o.pins ++ [(o.nextExpiry, r.2.signals)] }

/-- What happens: the main loop writes an entry, or the timer expires. -/
inductive Op where
  | write (s : Step)
  | expire
  deriving DecidableEq, Repr

/-- One operation. `write` — src/cnc3axis/main.cpp:166-168. -/
def step (o : PinOutput) : Op → PinOutput
  | .write s => { o with buffer := o.buffer.write s }
  | .expire => o.interrupt

/-- A sequence of operations. -/
def run (o : PinOutput) (ops : List Op) : PinOutput := ops.foldl step o

/-- The step-buffer calls in a sequence of operations. -/
def calls (ops : List Op) : List StepQueueSpec.Call :=
  ops.map fun
    | .write s => .write s
    | .expire => .read

end PinOutput
end Moovr
