import Verif.Spec.Debounce
import Verif.Spec.EventQueue
import Verif.Model.Inputs
/-!
# Specification of the main loop

Which event belongs to which input, which pin an input is wired to, what the debounced changes of a sampling history are.
-/
namespace Moovr.LoopSpec
open EventQueueSpec

/-- The inputs: name of the event when the contact closes or the button is pressed (pin low), and when it opens or is
released (pin high). -/
def inputEvents : List (Event × Event) :=
  [(.limitSwitchZMaxClosed, .limitSwitchZMaxOpened), (.limitSwitchXMaxClosed, .limitSwitchXMaxOpened),
   (.limitSwitchYMaxClosed, .limitSwitchYMaxOpened), (.limitSwitchYMinClosed, .limitSwitchYMinOpened),
   (.limitSwitchZMinClosed, .limitSwitchZMinOpened), (.limitSwitchXMinClosed, .limitSwitchXMinOpened),
   (.emergencyStopButtonPressed, .emergencyStopButtonReleased), (.feedHoldResumeButtonPressed, .feedHoldResumeButtonReleased),
   (.probeSwitchClosed, .probeSwitchOpened)]

/-- The event that reports that input `i` has changed to `high`. -/
def inputEvent (i : Nat) (high : Bool) : Event :=
  match inputEvents[i]? with
  | some (low, up) => if high then up else low
  | none => .none

/-- Events that report a change of an input. -/
def isInput (e : Event) : Bool := inputEvents.any fun p => e = p.1 || e = p.2

/-- The pin of input `i`: 0–7 are port D, 8 is pin 25 of port E. -/
def pin (i : Nat) (p : Ports) : Bool := if i < 8 then p.d.getLsbD i else p.e.getLsbD 25

/-- The events of sampling round `r`, in the order of the inputs, where `reports i` are the debounced changes of input `i`. -/
def roundEvents (reports : Nat → List (Option Bool)) (r : Nat) : List Event :=
  (List.range 9).filterMap fun i => ((reports i).getD r none).map (inputEvent i)

/-- `es` are the events for debounced changes of the inputs, if the ports read `p₀` at first and then, in the sampling rounds,
`ps`. -/
def Changes (p₀ : Ports) (ps : List Ports) (es : List Event) : Prop :=
  ∃ reports : Nat → List (Option Bool),
    (∀ i < 9, DebounceSpec.Reports (pin i p₀) [] (ps.map (pin i)) (reports i)) ∧
    es = (List.range ps.length).flatMap (roundEvents reports)

/-- All events offered to the queue. -/
def offered (calls : List Call) : List Event :=
  calls.filterMap fun
    | .push e => some e
    | _ => none

/-- No event was ever offered to a full queue. -/
def NoOverflow (calls : List Call) : Prop :=
  ∀ before e after, calls = before ++ .push e :: after → (pending before).length < capacity

end Moovr.LoopSpec
