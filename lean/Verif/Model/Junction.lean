import Verif.Model.MotionItem
/-!
# Model of the speed at the junction of two motions

`motion::vOut` (lib/motion/motionitem.cpp:202-234), the part of `motionCtrl::vJunction` after its first statement
(lib/motion/motionctrl.cpp:124-174), `speedProfileAccDec::calcSpeed` (lib/motion/speedprofileaccdec.cpp:109-115) and
`motion::positionFromDistance` (lib/motion/motionitem.cpp:280-296).

None of this is executed by the firmware: `vJunction` begins with `return 0.0F` ("TODO add smarter code"), and nothing else calls
these functions. They are modelled because they are the code that is to be enabled later. Over `Num`, without rounding.
-/
namespace Moovr
open Num

/-- `enum class motionCalculateDirection` — lib/motion/motioncalculatedirection.h:11-14. -/
inductive CalculateDirection where
  | forward
  | reverse
  deriving DecidableEq, Repr

/-- `motion::vOut`, static — motionitem.cpp:210-234. -/
noncomputable def vOut (vIn aMax dMax length : Num) (strategy : Strategy) (direction : CalculateDirection) : Num :=
  let adMax := match direction, strategy with
    | .forward, .maximizeSpeed => aMax
    | .forward, .minimizeSpeed => dMax
    | .reverse, .maximizeSpeed => fin (-1) * dMax
    | .reverse, .minimizeSpeed => fin (-1) * aMax
  let d := (vIn * vIn) + (fin 2 * length * adMax)
  if (fin 0).lt d then d.sqrt else fin 0

/-- `motion::vOut`, member — motionitem.cpp:202-208; `length` is `trajectory.length`. -/
noncomputable def Profile.vOut (p : Profile) (length : Num) (strategy : Strategy) : CalculateDirection → Num
  | .forward => Moovr.vOut p.left.vStart p.aMax p.dMax length strategy .forward
  | .reverse => Moovr.vOut p.right.vEnd p.aMax p.dMax length strategy .reverse

/-- `if (vTest < vResult) { vResult = vTest; }` — motionctrl.cpp:145-147. -/
noncomputable def Junction.restrict (vResult vTest : Num) : Num := if vTest.lt vResult then vTest else vResult

/-- `if (vTest > vResult) { vResult = vTest; }` — motionctrl.cpp:131-133. -/
noncomputable def Junction.raise (vResult vTest : Num) : Num := if vResult.lt vTest then vTest else vResult

open Junction in
/-- `motionCtrl::vJunction` without its first statement — motionctrl.cpp:124-174; a motion is its speed profile and the length of its
trajectory. -/
noncomputable def vJunctionRest (strategy : Strategy) (o : Overrides) (left right : Profile × Num) : Num :=
  match strategy with
  | .minimizeSpeed =>
    raise (raise (fin 0) (left.1.vOut left.2 .minimizeSpeed .forward)) (right.1.vOut right.2 .minimizeSpeed .reverse)
  | .maximizeSpeed =>
    restrict (restrict (restrict (restrict (restrict (restrict posInf
      (left.1.vOut left.2 .maximizeSpeed .forward))
      (right.1.vOut right.2 .maximizeSpeed .reverse))
      (left.1.vFeed * o.feedOverride)) left.1.vMax)
      (right.1.vFeed * o.feedOverride)) right.1.vMax

/-- `motionCtrl::optimizePair` as it would be with that `vJunction`, without the re-planning of the two motions — motionctrl.cpp:102-119;
the queue is a list of motions, counted from the oldest. (Re-planning a motion that has not begun keeps the members that are read here.) -/
noncomputable def optimizePairRest (strategy : Strategy) (o : Overrides) (c : Nat → Profile × Num) (junctionIndex : Nat) :
    Nat → Profile × Num :=
  let v := vJunctionRest strategy o (c junctionIndex) (c (junctionIndex + 1))
  fun i =>
    if i = junctionIndex then ({ (c i).1 with right := (c i).1.right.setvEnd v }, (c i).2)
    else if i = junctionIndex + 1 then ({ (c i).1 with left := (c i).1.left.setvStart v }, (c i).2)
    else c i

/-- `speedProfileAccDec::calcSpeed` — speedprofileaccdec.cpp:109-115. -/
noncomputable def AccDec.calcSpeed (p : AccDec Num) : Num :=
  let ad := if p.vStart.lt p.vEnd then p.aMax else p.dMax
  (p.vStart * p.vStart + fin 2 * ad * p.length).sqrt

/-- `class point` — lib/general/point.h:13-20. -/
structure Point where
  inMm : Nat → Num
  inSteps : Nat → Int

/-- `motion::positionFromDistance` — motionitem.cpp:280-296. -/
noncomputable def Trajectory.positionFromDistance (M : Machine) (t : Trajectory) (p : Point) (s : Num) : Point :=
  let mm (axis : Nat) : Num :=
    if axis = t.arcAxis0 then t.arcCenter0 + t.radius * (t.startAngle + t.deltaRealTime axis * s).cos
    else if axis = t.arcAxis1 then t.arcCenter1 + t.radius * (t.startAngle + t.deltaRealTime axis * s).sin
    else t.startPosition axis + t.deltaRealTime axis * s
  { inMm := fun axis => if axis < M.n ∧ t.isMoving axis then mm axis else p.inMm axis
    inSteps := fun axis =>
      if axis < M.n ∧ t.isMoving axis then M.toInt32 (mm axis * fin (M.stepsPerMm axis)) else p.inSteps axis }

end Moovr
