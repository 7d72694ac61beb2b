import Verif.Model.HostInterface
/-!
# `getMessage` interrupted by byte receptions

Same code as `Verif.Model.HostInterface`, but `hostInterface::getMessage`
(lib/hostinterface/hostinterface.cpp:16-34) is split into its individual accesses to the shared (`volatile`)
variables; `x--` on a `volatile uint32_t` is a load followed by a store. The reception interrupt
(`rxReady`, hostinterface_uart.cpp:40-56) runs to completion whenever it fires.
Only the two players that share the receive buffer are modelled.
-/
namespace Moovr.HostRace
open HostSpec (Byte)

/-- Where the main program is inside `getMessage`. -/
inductive Pc where
  /-- not in `getMessage` -/
  | idle
  /-- evaluating `rxBufferLevel > 0` — line 19 -/
  | test
  /-- `byteReceived = rxBuffer[rxBufferHead]` — line 20 -/
  | readByte
  /-- `rxBufferHead = (rxBufferHead + 1) % rxBufferLength` — line 21 (the interrupt only reads this variable) -/
  | advanceHead
  /-- load part of `rxBufferLevel--` — line 22 -/
  | loadLevel
  /-- store part of `rxBufferLevel--` — line 22 -/
  | storeLevel
  /-- `destinationBuffer[bytesRead++] = byteReceived` and the newline test — lines 23-26 -/
  | copy
  /-- load part of `rxBufferLines--` — line 27 -/
  | loadLines
  /-- store part of `rxBufferLines--` — line 27 -/
  | storeLines
  /-- terminate the string and return — lines 28-29 / 33 -/
  | finish
  deriving DecidableEq, Repr

/-- Shared data, the main program's registers, and the messages returned so far. -/
structure State where
  host : HostInterface
  pc : Pc
  byte : Byte
  tmp : Nat
  dest : List Byte
  out : List (List Byte)

/-- Start: fresh object, main program outside `getMessage`. -/
def start : State where
  host := HostInterface.init
  pc := .idle
  byte := 0
  tmp := 0
  dest := []
  out := []

/-- One micro step of the main program; from `idle` it enters `getMessage`. lib/hostinterface/hostinterface.cpp:16-34. -/
def mainStep (s : State) : State :=
  match s.pc with
  | .idle => { s with pc := .test, dest := [] }
  | .test => if s.host.rxLevel > 0 then { s with pc := .readByte } else { s with pc := .finish }
  | .readByte => { s with pc := .advanceHead, byte := s.host.rxBuffer s.host.rxHead }
  | .advanceHead =>
    { s with pc := .loadLevel, host := { s.host with rxHead := (s.host.rxHead + 1) % HostInterface.bufferLength } }
  | .loadLevel => { s with pc := .storeLevel, tmp := s.host.rxLevel }
  | .storeLevel => { s with pc := .copy, host := { s.host with rxLevel := s.tmp - 1 } }
  | .copy =>
    if (10 : Byte) = s.byte then { s with pc := .loadLines, dest := s.dest ++ [s.byte] }
    else { s with pc := .test, dest := s.dest ++ [s.byte] }
  | .loadLines => { s with pc := .storeLines, tmp := s.host.rxLines }
  | .storeLines => { s with pc := .finish, host := { s.host with rxLines := u32sub s.tmp 1 } }
  | .finish => { s with pc := .idle, out := s.out ++ [s.dest] }

/-- Reception interrupt. -/
def interrupt (s : State) (b : Byte) : State := { s with host := s.host.rxReady b }

/-- A schedule: the main program advances one micro step, or the reception interrupt fires with a byte. -/
inductive Step where
  | main
  | rx (b : Byte)
  deriving DecidableEq, Repr

/-- Execution of a schedule. -/
def run : List Step → State → State
  | [], s => s
  | .main :: l, s => run l (mainStep s)
  | .rx b :: l, s => run l (interrupt s b)

/-- Execution of a schedule when interrupts are masked during `getMessage` (the discipline that
`src/threadsafety.md` asks for): `none` if an interrupt would fire inside it. -/
def runMasked : List Step → State → Option State
  | [], s => some s
  | .main :: l, s => runMasked l (mainStep s)
  | .rx b :: l, s => if s.pc = .idle then runMasked l (interrupt s b) else none

/-- The bytes received in a schedule. -/
def received : List Step → List Byte
  | [] => []
  | .main :: l => received l
  | .rx b :: l => b :: received l

end Moovr.HostRace
