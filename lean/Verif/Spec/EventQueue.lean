import Verif.Model.Event
/-!
# Specification of the event queue

Independent of the ring-buffer model: a list of pending events (oldest first) with room for 16, and two
functions of the *history* of calls that say what the error flag and the high-water mark must be.
-/
namespace Moovr.EventQueueSpec

/-- The public calls of `eventBuffer` (lib/event/eventbuffer.h:14-19). -/
inductive Call where
  | reinit
  | push (e : Event)
  | pop
  | hasEvents
  | getLevelMax
  | getLastError
  deriving DecidableEq, Repr

/-- What a call returns. -/
inductive Ret where
  | unit
  | event (e : Event)
  | bool (b : Bool)
  | nat (n : Nat)
  deriving DecidableEq, Repr

/-- The queue holds at most this many events. -/
def capacity : Nat := 16

/-- A push is accepted iff it carries a real event and there is room. -/
def Accepts (q : List Event) (e : Event) : Prop := e ≠ .none ∧ q.length < capacity

instance (q e) : Decidable (Accepts q e) := by unfold Accepts; infer_instance

/-- Pending events after a call, oldest first. -/
def next (q : List Event) : Call → List Event
  | .reinit => []
  | .push e => if Accepts q e then q ++ [e] else q
  | .pop => q.tail
  | _ => q

/-- Pending events after a whole history of calls (first call first). -/
def pending (calls : List Call) : List Event := calls.foldl next []

/-- The incident, if any, that a call causes in a queue with pending events `q`. -/
def incident (q : List Event) : Call → Option Event
  | .push e => if e ≠ .none ∧ capacity ≤ q.length then some .eventBufferOverflow else none
  | .pop => if q = [] then some .eventBufferUnderflow else none
  | _ => none

/-- The error that `getLastError` must report after a history given *latest call first*: the latest incident
since the last `getLastError`/`initialize`. -/
def lastErrorRev : List Call → Event
  | [] => .none
  | .getLastError :: _ => .none
  | .reinit :: _ => .none
  | c :: earlier =>
    match incident (pending earlier.reverse) c with
    | some e => e
    | none => lastErrorRev earlier

/-- The high-water mark that `getLevelMax` must report after a history given *latest call first*: the largest
number of pending events reached by an accepted push since the last `getLevelMax`/`initialize`. -/
def highWaterRev : List Call → Nat
  | [] => 0
  | .getLevelMax :: _ => 0
  | .reinit :: _ => 0
  | .push e :: earlier =>
    if Accepts (pending earlier.reverse) e
    then max ((pending earlier.reverse).length + 1) (highWaterRev earlier)
    else highWaterRev earlier
  | _ :: earlier => highWaterRev earlier

/-- The value call `c` must return after the history `calls` (first call first). -/
def expected (calls : List Call) : Call → Ret
  | .reinit => .unit
  | .push _ => .unit
  | .pop => .event ((pending calls).head?.getD .none)
  | .hasEvents => .bool (decide (pending calls ≠ []))
  | .getLevelMax => .nat (highWaterRev calls.reverse)
  | .getLastError => .event (lastErrorRev calls.reverse)

end Moovr.EventQueueSpec

namespace Moovr.EventQueueSpec

/-- Events accepted since the last `initialize`, in order, for a history given *latest call first*. -/
def acceptedRev : List Call → List Event
  | [] => []
  | .reinit :: _ => []
  | .push e :: earlier =>
    if Accepts (pending earlier.reverse) e then acceptedRev earlier ++ [e] else acceptedRev earlier
  | _ :: earlier => acceptedRev earlier

/-- Events handed out since the last `initialize`, given the log of calls with the values they returned,
*latest call first*. -/
def handedOutRev : List (Call × Ret) → List Event
  | [] => []
  | (.reinit, _) :: _ => []
  | (.pop, .event e) :: earlier => if e = .none then handedOutRev earlier else handedOutRev earlier ++ [e]
  | _ :: earlier => handedOutRev earlier

end Moovr.EventQueueSpec
