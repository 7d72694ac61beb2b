import Verif.Model.Debounce
import Verif.Model.Inputs
import Verif.Model.Names
/-!
# Model of the program of the plotter

`src/plotter2axis/main.cpp`. At the pinned commit motion control, step output and host interface are commented out there: the program
samples its inputs and prints the debounced events. Not modelled: the delay, the configuration of the pins, and how the serial port
transmits (a printed line is an entry of `printed`).
-/
namespace Moovr

/-- The global objects that the program uses — main.cpp:57, :60-69 — and the lines printed so far. -/
structure Plotter where
  inputs : Inputs
  myInputs : Nat → DebouncedInput
  printed : List String

namespace Plotter

/-- `nmbrInputs` — lib_target/plotter2axis/general/machineproperties.h:16 (the board has 12, switches.h:20). -/
def nmbrInputs : Nat := 9

/-- `myInputs` — main.cpp:60-69; elements beyond the array are never used. -/
def myInputs₀ : Nat → DebouncedInput
  | 0 => .mk' .limitSwitchXMinClosed .limitSwitchXMinOpened
  | 1 => .mk' .limitSwitchXMaxClosed .limitSwitchXMaxOpened
  | 2 => .mk' .limitSwitchYMinClosed .limitSwitchYMinOpened
  | 3 => .mk' .limitSwitchYMaxClosed .limitSwitchYMaxOpened
  | 4 => .mk' .limitSwitchZMinClosed .limitSwitchZMinOpened
  | 5 => .mk' .limitSwitchZMaxClosed .limitSwitchZMaxOpened
  | 6 => .mk' .emergencyStopButtonPressed .emergencyStopButtonReleased
  | 7 => .mk' .feedHoldResumeButtonPressed .feedHoldResumeButtonReleased
  | _ => .mk' .probeSwitchClosed .probeSwitchOpened

/-- `setup` — main.cpp:112-128; `p` is what the ports read. -/
def setup (p : Ports) : Plotter :=
  let inputs := Inputs.fresh.sample p
  { inputs := inputs
    myInputs := fun i => if i < nmbrInputs then (myInputs₀ i).doInitialize (inputs.get i) else myInputs₀ i
    printed := ["Moovr T0.1 - cnc3axis"] }

/-- One input — main.cpp:137-142. -/
def sampleInput (b : Plotter) (i : Nat) : Plotter :=
  let r := (b.myInputs i).getEvent (b.inputs.get i)
  { b with
    myInputs := fun j => if j = i then r.1 else b.myInputs j
    printed := if Event.none ≠ r.2 then b.printed ++ [r.2.name] else b.printed }

/-- `loop` — main.cpp:130-151: `some p` if the timer has expired and the ports read `p`, `none` if it has not. -/
def loop (b : Plotter) : Option Ports → Plotter
  | none => b
  | some p => (List.range nmbrInputs).foldl sampleInput { b with inputs := b.inputs.sample p }

/-- The program: `setup`, then iterations of `loop`. -/
def run (p : Ports) (rounds : List (Option Ports)) : Plotter := rounds.foldl loop (setup p)

end Plotter
end Moovr
