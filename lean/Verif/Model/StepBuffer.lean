import Verif.Model.U32
import Verif.Spec.StepQueue
/-!
# Model of `stepBuffer`

`lib/outputs_stepper_motor/stepbuffer.h` lines 16–43, `lib/outputs_stepper_motor/stepbuffer.cpp` lines 16–75.

The C array `buffer[256]` of `{timeBefore, signals}` is two total functions; every index the code uses is reduced
modulo 256. Initially the cells are uninitialised: theorems quantify over them. `totalTime` is 32-bit arithmetic
with wrap-around; `head` and `level` cannot wrap (proved ≤ 256).
-/
namespace Moovr

/-- Data members — stepbuffer.h:30-42. -/
structure StepBuffer where
  times : Nat → Nat
  sigs : Nat → BitVec 32
  level : Nat
  head : Nat
  totalTime : Nat
  minimumTotalTime : Nat
  minimumLevel : Nat
  lastError : Event

namespace StepBuffer

/-- `stepBuffer::length` — stepbuffer.h:31. -/
def length : Nat := 256

/-- `stepBuffer::needsFilling` — stepbuffer.cpp:66-69. -/
def needsFilling (b : StepBuffer) : Bool :=
  b.level < b.minimumLevel || b.totalTime < b.minimumTotalTime

/-- `stepBuffer::write` — stepbuffer.cpp:30-41. -/
def write (b : StepBuffer) (s : Step) : StepBuffer :=
  if b.level < length then
    { b with
      times := fun i => if i = (length + b.head + b.level - 2) % length then s.timeBefore else b.times i
      sigs := fun i => if i = (b.head + b.level) % length then s.signals else b.sigs i
      level := b.level + 1
      totalTime := u32add b.totalTime s.timeBefore }
  else { b with lastError := .stepBufferOverflow }

/-- `stepBuffer::read` — stepbuffer.cpp:43-56. -/
def read (b : StepBuffer) : StepBuffer × Step :=
  if b.level > 0 then
    ({ b with
        totalTime := u32sub b.totalTime (b.times b.head)
        head := (b.head + 1) % length
        level := b.level - 1 },
      ⟨b.times b.head, b.sigs b.head⟩)
  else ({ b with lastError := .stepBufferUnderflow }, ⟨1000, 1000⟩)

/-- `stepBuffer::getLastError` — stepbuffer.cpp:71-75. -/
def getLastError (b : StepBuffer) : StepBuffer × Event := ({ b with lastError := .none }, b.lastError)

/-- Outcome of running (part of) the loop in `initialize`. -/
inductive InitResult where
  /-- the loop ended -/
  | done (b : StepBuffer)
  /-- `minimumTotalTime / minimumLevel` with `minimumLevel = 0`: undefined behaviour -/
  | divisionByZero
  /-- still looping after the given number of iterations -/
  | running

/-- The first three assignments of `stepBuffer::initialize` — stepbuffer.cpp:21-23. -/
def reset (b : StepBuffer) : StepBuffer := { b with level := 0, head := 0, totalTime := 0 }

/-- The `while` loop of `stepBuffer::initialize` — stepbuffer.cpp:25-27 — cut off after `fuel` iterations. -/
def initLoop : Nat → StepBuffer → InitResult
  | 0, b => if b.needsFilling then .running else .done b
  | fuel + 1, b =>
    if b.needsFilling then
      if b.minimumLevel = 0 then .divisionByZero
      else initLoop fuel (b.write ⟨b.minimumTotalTime / b.minimumLevel, 0⟩)
    else .done b

/-- `stepBuffer::initialize` — stepbuffer.cpp:20-28 (also the constructor body, lines 16-18) — returns, with result
`b'`, when started on `b`. -/
def InitReturns (b b' : StepBuffer) : Prop := ∃ fuel, initLoop fuel b.reset = .done b'

/-- Dispatch of one public call. `getTimeInTicks` — stepbuffer.cpp:58-60, `getLevel` — stepbuffer.cpp:62-64. -/
def call (b : StepBuffer) : StepQueueSpec.Call → StepBuffer × StepQueueSpec.Ret
  | .write s => (b.write s, .unit)
  | .read => let r := b.read; (r.1, .step r.2)
  | .needsFilling => (b, .bool b.needsFilling)
  | .getTimeInTicks => (b, .nat b.totalTime)
  | .getLevel => (b, .nat b.level)
  | .getLastError => let r := b.getLastError; (r.1, .event r.2)

/-- State after a history of calls (first call first), starting in `b`. -/
def after (b : StepBuffer) (calls : List StepQueueSpec.Call) : StepBuffer :=
  calls.foldl (fun b c => (b.call c).1) b

/-- Log of a history starting in `b`; history and log *latest call first*. -/
def logRev (b : StepBuffer) : List StepQueueSpec.Call → List (StepQueueSpec.Call × StepQueueSpec.Ret)
  | [] => []
  | c :: earlier => (c, ((b.after earlier.reverse).call c).2) :: logRev b earlier

end StepBuffer
end Moovr
