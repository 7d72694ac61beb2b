import Verif.Model.Event
/-!
# Model of `debouncedInput`

`lib/inputs/debouncedinput.h` lines 13–29, `lib/inputs/debouncedinput.cpp` lines 10–60.
`debounceCounter` is a `uint32_t` in the code and a `Nat` here; it stays in 0..4 (proved).
-/
namespace Moovr

/-- `class debouncedInput`, data members — lib/inputs/debouncedinput.h:22-28. -/
structure DebouncedInput where
  onOpen : Event
  onClose : Event
  debounceCounter : Nat
  currentState : Bool
  previousState : Bool
  deriving DecidableEq, Repr

namespace DebouncedInput

/-- `debouncedInput::debounceMaxCount` — lib/inputs/debouncedinput.h:21. -/
def debounceMaxCount : Nat := 4

/-- Constructor and member initialisers — lib/inputs/debouncedinput.cpp:10-11, debouncedinput.h:26-28. -/
def mk' (eventOnOpen eventOnClose : Event) : DebouncedInput where
  onOpen := eventOnOpen
  onClose := eventOnClose
  debounceCounter := 0
  currentState := false
  previousState := false

/-- `debouncedInput::initialize` — lib/inputs/debouncedinput.cpp:13-23. -/
def doInitialize (d : DebouncedInput) (undebouncedInput : Bool) : DebouncedInput :=
  if undebouncedInput then
    { d with debounceCounter := debounceMaxCount, currentState := true, previousState := true }
  else
    { d with debounceCounter := 0, currentState := false, previousState := false }

/-- `debouncedInput::getState` — lib/inputs/debouncedinput.cpp:25-27. -/
def getState (d : DebouncedInput) : Bool := d.currentState

/-- `debouncedInput::isClosed` — lib/inputs/debouncedinput.cpp:29-31. -/
def isClosed (d : DebouncedInput) : Bool := false == d.currentState

/-- `debouncedInput::isOpen` — lib/inputs/debouncedinput.cpp:33-35. -/
def isOpen (d : DebouncedInput) : Bool := true == d.currentState

/-- `debouncedInput::getEvent` — lib/inputs/debouncedinput.cpp:37-60. -/
def getEvent (d : DebouncedInput) (undebouncedInput : Bool) : DebouncedInput × Event :=
  if undebouncedInput then
    if d.debounceCounter < debounceMaxCount then
      ({ d with debounceCounter := d.debounceCounter + 1 }, .none)
    else if !d.previousState then
      ({ d with currentState := true, previousState := true }, d.onClose)
    else
      ({ d with currentState := true }, .none)
  else
    if d.debounceCounter > 0 then
      ({ d with debounceCounter := d.debounceCounter - 1 }, .none)
    else if d.previousState then
      ({ d with currentState := false, previousState := false }, d.onOpen)
    else
      ({ d with currentState := false }, .none)

/-- Feed a list of samples (first sample first); returns the final state and the events returned, in order. -/
def feed (d : DebouncedInput) : List Bool → DebouncedInput × List Event
  | [] => (d, [])
  | x :: xs =>
    let r := d.getEvent x
    let r' := r.1.feed xs
    (r'.1, r.2 :: r'.2)

end DebouncedInput
end Moovr
