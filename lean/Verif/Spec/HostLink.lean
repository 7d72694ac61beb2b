/-!
# Specification of the host link

Byte streams as lists; independent of the ring buffers in the code.
-/
namespace Moovr.HostSpec

abbrev Byte := UInt8

/-- Line feed. -/
def newline : Byte := 10

/-- Calls on the host interface and interrupts from the UART. -/
inductive Call where
  /-- `initialize()` -/
  | reinit
  /-- reception interrupt carrying one byte -/
  | recv (b : Byte)
  /-- `getMessage()` -/
  | getMessage
  /-- `hasMessage()` -/
  | hasMessage
  /-- `sendMessage()`; the bytes before the terminating zero -/
  | send (msg : List Byte)
  /-- transmitter-ready interrupt -/
  | txReady
  deriving DecidableEq, Repr

/-- What a call returns or puts on the wire. -/
inductive Ret where
  | unit
  | bytes (bs : List Byte)
  | bool (b : Bool)
  | wire (b : Option Byte)
  deriving DecidableEq, Repr

/-- Both buffers hold at most this many bytes. -/
def capacity : Nat := 256

/-- The bytes up to and including the first line feed; all bytes if there is none. -/
def firstLine : List Byte → List Byte
  | [] => []
  | b :: bs => if b = newline then [b] else b :: firstLine bs

/-- What remains after `firstLine`. -/
def afterLine : List Byte → List Byte
  | [] => []
  | b :: bs => if b = newline then bs else afterLine bs

/-- Received bytes not yet read, after one more call. -/
def rxNext (q : List Byte) : Call → List Byte
  | .reinit => []
  | .recv b => if q.length < capacity then q ++ [b] else q
  | .getMessage => afterLine q
  | _ => q

/-- Bytes accepted for transmission and not yet sent, after one more call. -/
def txNext (q : List Byte) : Call → List Byte
  | .reinit => []
  | .send msg => if q.length + msg.length ≤ capacity then q ++ msg else q
  | .txReady => q.tail
  | _ => q

/-- Unread received bytes after a history (first call first). -/
def rxPending (calls : List Call) : List Byte := calls.foldl rxNext []

/-- Unsent bytes after a history (first call first). -/
def txPending (calls : List Call) : List Byte := calls.foldl txNext []

/-- What a call must return after a history. -/
def expected (calls : List Call) : Call → Ret
  | .reinit => .unit
  | .recv _ => .unit
  | .getMessage => .bytes (firstLine (rxPending calls))
  | .hasMessage => .bool (decide (newline ∈ rxPending calls))
  | .send _ => .unit
  | .txReady => .wire (txPending calls).head?

/-- Bytes received since the last `initialize` that found room, in order; history *latest call first*. -/
def receivedRev : List Call → List Byte
  | [] => []
  | .reinit :: _ => []
  | .recv b :: earlier =>
    if (rxPending earlier.reverse).length < capacity then receivedRev earlier ++ [b] else receivedRev earlier
  | _ :: earlier => receivedRev earlier

/-- Concatenation of the messages handed out since the last `initialize`; log *latest call first*. -/
def deliveredRev : List (Call × Ret) → List Byte
  | [] => []
  | (.reinit, _) :: _ => []
  | (.getMessage, .bytes bs) :: earlier => deliveredRev earlier ++ bs
  | _ :: earlier => deliveredRev earlier

/-- Concatenation of the messages accepted for transmission since the last `initialize`; history *latest call
first*. A message is accepted whole iff it fits into the free space, else not at all. -/
def acceptedTxRev : List Call → List Byte
  | [] => []
  | .reinit :: _ => []
  | .send msg :: earlier =>
    if msg.length ≤ capacity - (txPending earlier.reverse).length
    then acceptedTxRev earlier ++ msg else acceptedTxRev earlier
  | _ :: earlier => acceptedTxRev earlier

/-- Bytes put on the wire since the last `initialize`; log *latest call first*. -/
def wireRev : List (Call × Ret) → List Byte
  | [] => []
  | (.reinit, _) :: _ => []
  | (.txReady, .wire (some b)) :: earlier => wireRev earlier ++ [b]
  | _ :: earlier => wireRev earlier

end Moovr.HostSpec
