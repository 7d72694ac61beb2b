import Verif.Model.Event
import Verif.Spec.EventQueue
/-!
# Model of `eventBuffer`

`lib/event/eventbuffer.h` lines 12–30, `lib/event/eventbuffer.cpp` lines 3–51.

The C array `theEventBuffer[16]` is a total function `Nat → Event`; every index the code uses is reduced
modulo 16 before the access, so only cells 0..15 are ever touched.
`head`, `level`, `levelMax` are `uint32_t` in the code and `Nat` here: they stay ≤ 16 (proved:
`Moovr.EventBuffer.Wf`), so no 32-bit wrap-around can occur.
-/
namespace Moovr

/-- `class eventBuffer`, data members — lib/event/eventbuffer.h:24-29. -/
structure EventBuffer where
  cells : Nat → Event
  head : Nat
  level : Nat
  levelMax : Nat
  lastError : Event

namespace EventBuffer

/-- `eventBuffer::length` — lib/event/eventbuffer.h:24. -/
def length : Nat := 16

/-- A freshly constructed `eventBuffer` (member initialisers) — lib/event/eventbuffer.h:25-29. -/
def init : EventBuffer where
  cells := fun _ => .none
  head := 0
  level := 0
  levelMax := 0
  lastError := .none

/-- `eventBuffer::initialize` — lib/event/eventbuffer.cpp:3-8. The cells are not cleared.
(`initialize` is a Lean keyword, hence the name.) -/
def doInitialize (b : EventBuffer) : EventBuffer :=
  { b with head := 0, level := 0, levelMax := 0, lastError := .none }

/-- `eventBuffer::pushEvent` — lib/event/eventbuffer.cpp:10-22. -/
def pushEvent (b : EventBuffer) (e : Event) : EventBuffer :=
  if Event.none ≠ e then
    if b.level < length then
      let level' := b.level + 1
      { b with
        cells := fun i => if i = (b.head + b.level) % length then e else b.cells i
        level := level'
        levelMax := if level' > b.levelMax then level' else b.levelMax }
    else
      { b with lastError := .eventBufferOverflow }
  else b

/-- `eventBuffer::popEvent` — lib/event/eventbuffer.cpp:24-34. -/
def popEvent (b : EventBuffer) : EventBuffer × Event :=
  if b.level > 0 then
    ({ b with head := (b.head + 1) % length, level := b.level - 1 }, b.cells b.head)
  else
    ({ b with lastError := .eventBufferUnderflow }, .none)

/-- `eventBuffer::hasEvents` — lib/event/eventbuffer.cpp:36-39. -/
def hasEvents (b : EventBuffer) : Bool := b.level > 0

/-- `eventBuffer::getLevelMax` — lib/event/eventbuffer.cpp:41-45. -/
def getLevelMax (b : EventBuffer) : EventBuffer × Nat :=
  ({ b with levelMax := 0 }, b.levelMax)

/-- `eventBuffer::getLastError` — lib/event/eventbuffer.cpp:47-51. -/
def getLastError (b : EventBuffer) : EventBuffer × Event :=
  ({ b with lastError := .none }, b.lastError)

/-- Dispatch of one public call (lib/event/eventbuffer.h:14-19) to the function above. -/
def call (b : EventBuffer) : EventQueueSpec.Call → EventBuffer × EventQueueSpec.Ret
  | .reinit => (b.doInitialize, .unit)
  | .push e => (b.pushEvent e, .unit)
  | .pop => let r := b.popEvent; (r.1, .event r.2)
  | .hasEvents => (b, .bool b.hasEvents)
  | .getLevelMax => let r := b.getLevelMax; (r.1, .nat r.2)
  | .getLastError => let r := b.getLastError; (r.1, .event r.2)

/-- State after a history of calls on a freshly constructed buffer. -/
def after (calls : List EventQueueSpec.Call) : EventBuffer :=
  calls.foldl (fun b c => (b.call c).1) init

end EventBuffer
end Moovr

namespace Moovr.EventBuffer

/-- The log (call, returned value) of a history of calls on a freshly constructed buffer; both the history and
the log are given *latest call first*. -/
def logRev : List EventQueueSpec.Call → List (EventQueueSpec.Call × EventQueueSpec.Ret)
  | [] => []
  | c :: earlier => (c, ((after earlier.reverse).call c).2) :: logRev earlier

end Moovr.EventBuffer
