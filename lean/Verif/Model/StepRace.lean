import Verif.Model.FillLoop
/-!
# The step buffer and its interrupt, access by access

The loop of `Verif.Model.FillLoop` (`src/cnc3axis/main.cpp` lines 164–169) split into its individual accesses to the data members of
`theStepBuffer`: `needsFilling()` makes two loads (stepbuffer.cpp:66-69), `write` some loads and stores
(stepbuffer.cpp:30-41), where `level++` and `totalTime += …` are a load followed by a store. The interrupt handler
(main.cpp:98-103) runs to completion whenever it fires; it does not fire between `NVIC_DISABLE_IRQ` and `NVIC_ENABLE_IRQ`.

Simplification: every load of the source text is a load from memory (the members are not `volatile`; a compiler that keeps `level`
in a register across calls is not covered).
-/
namespace Moovr.StepRace

/-- Where the main program is. -/
inductive Pc where
  /-- `level < minimumLevel` in `needsFilling` — stepbuffer.cpp:67 -/
  | check
  /-- `totalTime < minimumTotalTime` in `needsFilling` — stepbuffer.cpp:67 -/
  | checkTime
  /-- `calcNextStepperMotorSignals()` — main.cpp:165 -/
  | calculate
  /-- `NVIC_DISABLE_IRQ` — main.cpp:166 -/
  | mask
  /-- `level < length` in `write` — stepbuffer.cpp:31 -/
  | test
  /-- store of `timeBefore` — stepbuffer.cpp:33-34 -/
  | putTime
  /-- store of `signals` — stepbuffer.cpp:32, 35 -/
  | putSignals
  /-- load part of `level++` — stepbuffer.cpp:36 -/
  | loadLevel
  /-- store part of `level++` — stepbuffer.cpp:36 -/
  | storeLevel
  /-- load part of `totalTime += …` — stepbuffer.cpp:37 -/
  | loadTotal
  /-- store part of `totalTime += …` — stepbuffer.cpp:37 -/
  | storeTotal
  /-- `lastError = event::stepBufferOverflow` — stepbuffer.cpp:39 -/
  | putError
  /-- `NVIC_ENABLE_IRQ` — main.cpp:168 -/
  | unmask
  deriving DecidableEq, Repr

/-- The shared buffer, the main program's place and registers, the interrupt mask; and for the statements: what has been calculated
and given to `write` (calls that have returned), and what the interrupt handler has read. -/
structure State where
  buffer : StepBuffer
  pc : Pc
  step : Step
  tmp : Nat
  masked : Bool
  written : List Step
  outs : List Step

/-- Before the loop. -/
def start (b : StepBuffer) : State where
  buffer := b
  pc := .check
  step := ⟨0, 0⟩
  tmp := 0
  masked := false
  written := []
  outs := []

/-- One access by the main program — main.cpp:164-169; `guarded = false` is the same program without the two `NVIC_…` lines. The
result of the calculation (used at `calculate` only) is `x`. After the loop, `loop()` does other things and comes back to it. -/
def mainStep (guarded : Bool) (s : State) (x : Step) : State :=
  let b := s.buffer
  match s.pc with
  | .check => if b.level < b.minimumLevel then { s with pc := .calculate } else { s with pc := .checkTime }
  | .checkTime => if b.totalTime < b.minimumTotalTime then { s with pc := .calculate } else { s with pc := .check }
  | .calculate => { s with pc := .mask, step := x }
  | .mask => { s with pc := .test, masked := guarded }
  | .test => if b.level < StepBuffer.length then { s with pc := .putTime } else { s with pc := .putError }
  | .putTime =>
    { s with
      pc := .putSignals
      buffer := { b with times := fun i =>
        if i = (StepBuffer.length + b.head + b.level - 2) % StepBuffer.length then s.step.timeBefore else b.times i } }
  | .putSignals =>
    { s with
      pc := .loadLevel
      buffer := { b with sigs := fun i => if i = (b.head + b.level) % StepBuffer.length then s.step.signals else b.sigs i } }
  | .loadLevel => { s with pc := .storeLevel, tmp := b.level }
  | .storeLevel => { s with pc := .loadTotal, buffer := { b with level := s.tmp + 1 } }
  | .loadTotal => { s with pc := .storeTotal, tmp := b.totalTime }
  | .storeTotal =>
    { s with pc := .unmask, buffer := { b with totalTime := u32add s.tmp s.step.timeBefore }, written := s.written ++ [s.step] }
  | .putError => { s with pc := .unmask, buffer := { b with lastError := .stepBufferOverflow }, written := s.written ++ [s.step] }
  | .unmask => { s with pc := .check, masked := false }

/-- The interrupt handler — main.cpp:98-103. While it is disabled it stays pending: it fires later. -/
def interrupt (s : State) : State :=
  if s.masked then s else { s with buffer := s.buffer.read.1, outs := s.outs ++ [s.buffer.read.2] }

/-- A schedule: the main program makes one access, or the timer expires. -/
inductive Move where
  | main (x : Step)
  | irq
  deriving DecidableEq, Repr

/-- One move. -/
def move (guarded : Bool) (s : State) : Move → State
  | .main x => mainStep guarded s x
  | .irq => interrupt s

/-- A schedule. -/
def run (guarded : Bool) (s : State) (ms : List Move) : State := ms.foldl (move guarded) s

end Moovr.StepRace
