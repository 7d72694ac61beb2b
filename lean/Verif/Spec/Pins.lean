import Verif.Spec.MotionRun
/-!
# What the pins show over time

The updates of the port (time, pattern), oldest first, and what a motor driver sees of them: pulses on the step line of each axis
(bit `2 a`), in the direction then shown on its direction line (bit `2 a + 1`).
-/
namespace Moovr.PinSpec
open MotionSpec

/-- The pattern at time `t`: that of the latest update not after `t`. -/
def levelAt (pins : List (Nat × BitVec 32)) (t : Nat) : BitVec 32 := pins.foldl (fun v p => if p.1 ≤ t then p.2 else v) 0

/-- Forward minus backward pulses of an axis up to and including time `t`. -/
def pulsesUntil (pins : List (Nat × BitVec 32)) (a t : Nat) : Int :=
  pulseCount false ((List.range (t + 1)).map fun u => ((levelAt pins u).getLsbD (2 * a), (levelAt pins u).getLsbD (2 * a + 1)))

end Moovr.PinSpec
