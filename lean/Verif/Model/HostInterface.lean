import Verif.Model.U32
import Verif.Spec.HostLink
/-!
# Model of `hostInterface` / `hostInterfaceUart`

`lib/hostinterface/hostinterface.h` lines 15–40, `lib/hostinterface/hostinterface.cpp` lines 16–66,
`lib_target/cnc3axis/hostinterface/hostinterface_uart.cpp` lines 40–76
(`lib_target/plotter2axis/hostinterface` is identical).

Arrays are total functions; every index is reduced modulo 256 by the code before the access.
`rxBufferLines--` is modelled with 32-bit wrap-around (`u32sub`); the other counters cannot wrap (proved ≤ 256).
Every call is atomic here; see `Verif.Model.HostRace` for interrupts inside `getMessage`.
-/
namespace Moovr
open HostSpec (Byte)

/-- Data members — lib/hostinterface/hostinterface.h:31-39, plus the UART's transmitter-interrupt-enable bit
(`UART0_C2 & UART_C2_TIE`) used by hostinterface_uart.cpp:65 and :71. -/
structure HostInterface where
  rxBuffer : Nat → Byte
  rxHead : Nat
  rxLevel : Nat
  rxLines : Nat
  txBuffer : Nat → Byte
  txHead : Nat
  txLevel : Nat
  tie : Bool

namespace HostInterface

/-- `rxBufferLength`, `txBufferLength` — lib/hostinterface/hostinterface.h:28-29. -/
def bufferLength : Nat := 256

/-- Freshly constructed object — lib/hostinterface/hostinterface.h:32-39; transmitter interrupt off
(hostinterface_uart.cpp:36). -/
def init : HostInterface where
  rxBuffer := fun _ => 0
  rxHead := 0
  rxLevel := 0
  rxLines := 0
  txBuffer := fun _ => 0
  txHead := 0
  txLevel := 0
  tie := false

/-- `hostInterface::initialize` — lib/hostinterface/hostinterface.cpp:56-62. -/
def doInitialize (h : HostInterface) : HostInterface :=
  { h with rxHead := 0, rxLevel := 0, rxLines := 0, txHead := 0, txLevel := 0 }

/-- The `while` loop of `hostInterface::getMessage` — lib/hostinterface/hostinterface.cpp:19-31. `dest` are the
bytes copied so far; the terminating zero (lines 28 and 33) is implicit in the returned list. The first argument
bounds the number of iterations; `getMessage` passes `rxLevel`, which the loop decrements, so the bound is never
what ends it. -/
def getMessageLoop : Nat → HostInterface → List Byte → HostInterface × List Byte
  | 0, h, dest => (h, dest)
  | n + 1, h, dest =>
    if h.rxLevel > 0 then
      let byteReceived := h.rxBuffer h.rxHead
      let h' := { h with rxHead := (h.rxHead + 1) % bufferLength, rxLevel := h.rxLevel - 1 }
      let dest' := dest ++ [byteReceived]
      if (10 : Byte) = byteReceived then
        ({ h' with rxLines := u32sub h'.rxLines 1 }, dest')
      else getMessageLoop n h' dest'
    else (h, dest)

/-- `hostInterface::getMessage` — lib/hostinterface/hostinterface.cpp:16-34. -/
def getMessage (h : HostInterface) : HostInterface × List Byte := getMessageLoop h.rxLevel h []

/-- The copy loop of `hostInterface::sendMessage` — lib/hostinterface/hostinterface.cpp:46-50. -/
def copyTx (h : HostInterface) : List Byte → HostInterface
  | [] => h
  | b :: bs =>
    copyTx { h with
      txBuffer := fun i => if i = (h.txHead + h.txLevel) % bufferLength then b else h.txBuffer i
      txLevel := h.txLevel + 1 } bs

/-- `hostInterfaceUart::sendMessage` — hostinterface_uart.cpp:69-72 with `hostInterface::sendMessage` —
lib/hostinterface/hostinterface.cpp:36-54. `msg` are the source bytes before the terminating zero (lines 42-43). -/
def sendMessage (h : HostInterface) (msg : List Byte) : HostInterface :=
  let h' := if msg.length ≤ bufferLength - h.txLevel then copyTx h msg else h
  { h' with tie := true }

/-- `hostInterface::hasMessage` — lib/hostinterface/hostinterface.cpp:64-66. -/
def hasMessage (h : HostInterface) : Bool := h.rxLines > 0

/-- `hostInterfaceUart::rxReady` — hostinterface_uart.cpp:40-56; the byte read from `UART0_D` is an argument. -/
def rxReady (h : HostInterface) (byteReceived : Byte) : HostInterface :=
  if h.rxLevel < bufferLength then
    let h' := { h with
      rxBuffer := fun i => if i = (h.rxHead + h.rxLevel) % bufferLength then byteReceived else h.rxBuffer i
      rxLevel := h.rxLevel + 1 }
    if (10 : Byte) = byteReceived then { h' with rxLines := u32add h'.rxLines 1 } else h'
  else h

/-- `hostInterfaceUart::txReady` — hostinterface_uart.cpp:58-67; returns the byte written to `UART0_D`, if any. -/
def txReady (h : HostInterface) : HostInterface × Option Byte :=
  if h.txLevel > 0 then
    ({ h with txHead := (h.txHead + 1) % bufferLength, txLevel := h.txLevel - 1 }, some (h.txBuffer h.txHead))
  else ({ h with tie := false }, none)

/-- Dispatch of one call / interrupt. -/
def call (h : HostInterface) : HostSpec.Call → HostInterface × HostSpec.Ret
  | .reinit => (h.doInitialize, .unit)
  | .recv b => (h.rxReady b, .unit)
  | .getMessage => let r := h.getMessage; (r.1, .bytes r.2)
  | .hasMessage => (h, .bool h.hasMessage)
  | .send msg => (h.sendMessage msg, .unit)
  | .txReady => let r := h.txReady; (r.1, .wire r.2)

/-- State after a history of calls on a fresh object (first call first). -/
def after (calls : List HostSpec.Call) : HostInterface := calls.foldl (fun h c => (h.call c).1) init

/-- Log of a history; history and log *latest call first*. -/
def logRev : List HostSpec.Call → List (HostSpec.Call × HostSpec.Ret)
  | [] => []
  | c :: earlier => (c, ((after earlier.reverse).call c).2) :: logRev earlier

end HostInterface
end Moovr
