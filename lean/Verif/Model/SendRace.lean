import Verif.Model.HostInterface
/-!
# `sendMessage` interrupted by the transmitter

Same code as `Verif.Model.HostInterface`, but `hostInterface::sendMessage` (lib/hostinterface/hostinterface.cpp:36-54) and
`hostInterfaceUart::sendMessage` (hostinterface_uart.cpp:69-72) are split into their individual accesses to the shared variables;
`x++` on a `volatile uint32_t` is a load followed by a store. The transmitter interrupt (`txReady`, hostinterface_uart.cpp:58-67)
runs to completion whenever it fires; it fires only while it is enabled (`tie`). Only the two players that share the transmit buffer
are modelled. The interrupt handler that calls `txReady` is commented out in src/cnc3axis/main.cpp:105-117.
-/
namespace Moovr.SendRace
open HostSpec (Byte)

/-- Where the main program is inside `sendMessage`. -/
inductive Pc where
  /-- not in `sendMessage` -/
  | idle
  /-- `length <= (txBufferLength - txBufferLevel)` — line 44 -/
  | room
  /-- `index < length` — line 46 -/
  | test
  /-- load of `txBufferHead` — line 48 -/
  | loadHead
  /-- load of `txBufferLevel` — line 48 -/
  | loadLevel
  /-- store of the byte — line 48 -/
  | put
  /-- load part of `txBufferLevel++` — line 49 -/
  | loadCount
  /-- store part of `txBufferLevel++` — line 49 -/
  | storeCount
  /-- `UART0_C2 |= UART_C2_TIE` — hostinterface_uart.cpp:71 -/
  | enable
  deriving DecidableEq, Repr

/-- Shared data, the main program's registers (`rest`: the bytes not yet copied); and for the statements: the messages given to
`sendMessage` so far, and the bytes put on the wire. -/
structure State where
  host : HostInterface
  pc : Pc
  rest : List Byte
  reg : Nat
  sent : List (List Byte)
  wire : List Byte

/-- Start: fresh object, main program outside `sendMessage`. -/
def start : State where
  host := HostInterface.init
  pc := .idle
  rest := []
  reg := 0
  sent := []
  wire := []

/-- One access of the main program; from `idle` it enters `sendMessage` with the message `msg`.
lib/hostinterface/hostinterface.cpp:36-54, hostinterface_uart.cpp:69-72. -/
def mainStep (s : State) (msg : List Byte) : State :=
  let h := s.host
  match s.pc with
  | .idle => { s with pc := .room, rest := msg, sent := s.sent ++ [msg] }
  | .room => if s.rest.length ≤ u32sub HostInterface.bufferLength h.txLevel then { s with pc := .test } else { s with pc := .enable }
  | .test => if s.rest = [] then { s with pc := .enable } else { s with pc := .loadHead }
  | .loadHead => { s with pc := .loadLevel, reg := h.txHead }
  | .loadLevel => { s with pc := .put, reg := (s.reg + h.txLevel) % HostInterface.bufferLength }
  | .put =>
    { s with pc := .loadCount, host := { h with txBuffer := fun i => if i = s.reg then s.rest.headD 0 else h.txBuffer i } }
  | .loadCount => { s with pc := .storeCount, reg := h.txLevel }
  | .storeCount => { s with pc := .test, rest := s.rest.tail, host := { h with txLevel := s.reg + 1 } }
  | .enable => { s with pc := .idle, host := { h with tie := true } }

/-- Transmitter interrupt. -/
def interrupt (s : State) : State :=
  if s.host.tie then { s with host := s.host.txReady.1, wire := s.wire ++ s.host.txReady.2.toList } else s

/-- A schedule: the main program makes one access, or the transmitter is ready for a byte. -/
inductive Move where
  | main (msg : List Byte)
  | irq
  deriving DecidableEq, Repr

/-- One move. -/
def move (s : State) : Move → State
  | .main msg => mainStep s msg
  | .irq => interrupt s

/-- Execution of a schedule. -/
def run (s : State) (ms : List Move) : State := ms.foldl move s

/-- The interrupt handler never runs inside `sendMessage` (the discipline that `src/threadsafety.md` asks for). -/
def Masked : List Move → State → Prop
  | [], _ => True
  | .main msg :: l, s => Masked l (mainStep s msg)
  | .irq :: l, s => (s.pc = .idle ∨ s.host.tie = false) ∧ Masked l (interrupt s)

/-- The main program calls `sendMessage` only while the transmitter interrupt is off, that is, when everything has been sent. -/
def Patient : List Move → State → Prop
  | [], _ => True
  | .main msg :: l, s => (s.pc = .idle → s.host.tie = false ∧ msg.length ≤ HostInterface.bufferLength) ∧ Patient l (mainStep s msg)
  | .irq :: l, s => Patient l (interrupt s)

end Moovr.SendRace
