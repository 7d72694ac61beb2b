import Verif.Model.MotorOutputs
/-!
# Specification of the motor outputs

In terms of the calls only: what the last relevant call asked for.
-/
namespace Moovr.MotorSpec
open MotorOutputs (Call)

/-- Whether the motors 1–3 are to be enabled after `calls`, if they were `was` before. -/
def enabled123 (was : Bool) : List Call → Bool
  | [] => was
  | .configure :: cs => enabled123 false cs
  | .enableMotors123 x :: cs => enabled123 x cs
  | _ :: cs => enabled123 was cs

/-- Whether the motors 4–6 are to be enabled. -/
def enabled456 (was : Bool) : List Call → Bool
  | [] => was
  | .configure :: cs => enabled456 false cs
  | .enableMotors456 x :: cs => enabled456 x cs
  | _ :: cs => enabled456 was cs

/-- The last value written to the step and direction pins. -/
def written (was : BitVec 32) : List Call → BitVec 32
  | [] => was
  | .write v :: cs => written v cs
  | _ :: cs => written was cs

end Moovr.MotorSpec
