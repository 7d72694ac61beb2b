import Verif.Model.MainLoop
import Verif.Model.Single
/-!
# Model of the homing requests

How homing makes a motion from the position of the machine, an axis, a distance and a speed, with the arithmetic of the machine: exact,
and in single precision.
-/
namespace Moovr
open Num

/-- The motion that homing appends — lib/maincontroller/homing.cpp:205-215, :228-237, :250-259: a fresh `simplifiedMotion`, set with
the position as `motionCtrl::getMachinePosition` gives it in mm (motionctrl.cpp:258-263; the rounding of the cast to `float` is not
modelled). -/
noncomputable def Machine.homingRequest (M : Machine) (m : HomingMove) : SimplifiedMotion :=
  (SimplifiedMotion.fresh M.n).setLinear (fun i => fin (m.position i) / fin (M.stepsPerMm i)) m.axis (fin m.offset) (fin m.speed)

/-- The main program compiled for a machine, with the real motion arithmetic. -/
noncomputable def Machine.target (M : Machine) (cfg : HomingConfig) (maxTicks : Nat) (width : Num) : Target M.kit :=
  ⟨cfg, M.homingRequest, maxTicks, width⟩

/-- The motion that homing appends, in single precision — as `homingRequest`; `motionCtrl::getMachinePosition` computes
`static_cast<float>(machinePositionInSteps) / stepsPerMm` (motionctrl.cpp:258-263). -/
noncomputable def Machine.homingRequest32 (M : Machine) (m : HomingMove) : SimplifiedMotion :=
  (SimplifiedMotion.fresh M.n).setLinear
    (fun i => (Single.num (Float32.rnd (m.position i)) / Single.num (M.stepsPerMm i) : Single).val) m.axis (fin m.offset) (fin m.speed)

/-- The main program compiled for a machine, with the motion arithmetic in single precision. -/
noncomputable def Machine.target32 (M : Machine) (fpu : Fpu) (cfg : HomingConfig) (maxTicks : Nat) (width : Single) :
    Target (M.kit32 fpu) :=
  ⟨cfg, M.homingRequest32, maxTicks, width⟩

end Moovr
