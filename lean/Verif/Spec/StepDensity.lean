import Verif.Spec.Pulses
/-!
# How often step commands change the lines of an axis
-/
namespace Moovr
open PulseSpec

/-- How often the lines of an axis change because of the commands: twice for each step, once more if it turns round. -/
def load (cur : Bool) : List Cmd → Nat
  | [] => 0
  | none :: cs => load cur cs
  | some d :: cs => 2 + (if d.line = cur then 0 else 1) + load d.line cs

/-- In any ticks less than `750`, the commands of an axis do not change its lines more than `m` times. -/
def AtMost (m : Nat) (cs : List Cmd) : Prop := ∀ D i T, T < 750 → load D ((cs.drop i).take T) ≤ m

end Moovr
