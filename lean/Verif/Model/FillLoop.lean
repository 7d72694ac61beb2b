import Verif.Model.StepBuffer
/-!
# The loop that fills the step buffer

`src/cnc3axis/main.cpp` lines 164–169, interrupted by `pit1_isr` (lines 98–103). `needsFilling()` and the calculation
run with interrupts enabled, `write` with the interrupt disabled.
-/
namespace Moovr

/-- Step buffer; whether the loop condition has been found true and a calculated output is about to be written;
and the calculated outputs that the buffer rejected. -/
structure FillLoop where
  buffer : StepBuffer
  committed : Bool
  lost : List Step

namespace FillLoop

/-- What happens. -/
inductive Op where
  /-- evaluate `theStepBuffer.needsFilling()` — main.cpp:164 -/
  | check
  /-- `write` the output that was calculated — main.cpp:165-168 -/
  | put (s : Step)
  /-- the output interrupt reads an entry — main.cpp:99 -/
  | interrupt
  deriving DecidableEq, Repr

/-- One operation; `put` only happens after a successful check. -/
def step (f : FillLoop) : Op → FillLoop
  | .check => if f.committed then f else { f with committed := f.buffer.needsFilling }
  | .put s =>
    if f.committed then
      { buffer := f.buffer.write s
        committed := false
        lost := if f.buffer.level < StepBuffer.length then f.lost else f.lost ++ [s] }
    else f
  | .interrupt => { f with buffer := f.buffer.read.1 }

/-- A sequence of operations. -/
def run (f : FillLoop) (ops : List Op) : FillLoop := ops.foldl step f

/-- The step-buffer calls made by a sequence of operations. -/
def calls (f : FillLoop) : List Op → List StepQueueSpec.Call
  | [] => []
  | .check :: ops => calls (f.step .check) ops
  | .put s :: ops => (if f.committed then [.write s] else []) ++ calls (f.step (.put s)) ops
  | .interrupt :: ops => .read :: calls (f.step .interrupt) ops

end FillLoop
end Moovr
