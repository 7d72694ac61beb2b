import Verif.Model.SpeedProfile
import Verif.Model.MotionCtrl
/-!
# Model of `class motion`

`lib/motion/motionitem.{h,cpp}`, `lib/motion/motiontrajectory.{h,cpp}`, `lib/motion/motionspeedprofile.{h,cpp}`,
`lib/motion/motionperipherals.{h,cpp}`, `lib/motion/simplifiedmotion.{h,cpp}` and the step decision of
`lib/motion/motionctrl.cpp:231-240`, over `Num` (reals with infinities and NaN; no rounding, so `double` and `float` are
the same). Not modelled: `setForTest`; for `toString` see `MotionText`, for `vOut` and `positionFromDistance` see `Junction`.
-/
namespace Moovr
open Num

/-- `enum class motionType` — lib/motion/motiontype.h:11-19. -/
inductive MotionType where
  | traverse
  | feedLinear
  | feedHelicalCW
  | feedHelicalCCW
  | pauseAndResume
  | pause
  | none
  deriving DecidableEq, Repr

/-- Types of motion along a trajectory: the first `case` group of motionitem.cpp:15-18 and :131-134. -/
def MotionType.moves : MotionType → Bool
  | .traverse | .feedLinear | .feedHelicalCW | .feedHelicalCCW => true
  | _ => false

/-- `enum class rotationDirection` — lib/general/rotationdirection.h:11-14. -/
inductive RotationDirection where
  | clockwise
  | counterClockwise
  deriving DecidableEq, Repr

/-- `simplifiedMotion::Trajectory` — simplifiedmotion.h:18-27. An axis is a number below `nmbrAxis`; `nmbrAxis` itself
stands for "no axis". -/
structure ReqTrajectory where
  length : Num
  startPosition : Nat → Num
  delta : Nat → Num
  arcAxis0 : Nat
  arcAxis1 : Nat
  arcCenter0 : Num
  arcCenter1 : Num
  radius : Num
  startAngle : Num
  deltaAngle : Num

/-- `simplifiedMotion::Peripherals` — simplifiedmotion.h:34-39; also `motionPeripherals` — motionperipherals.h:24-27. -/
structure Peripherals where
  coolantFlood : Bool
  coolantMist : Bool
  spindleSpeed : Num
  spindleDirection : RotationDirection

/-- `simplifiedMotion` — simplifiedmotion.h:14-39. -/
structure SimplifiedMotion where
  type : MotionType
  trajectory : ReqTrajectory
  vFeed : Num
  duration : Num
  peripherals : Peripherals

/-- A default-constructed `simplifiedMotion` — simplifiedmotion.h:14-39; `n` is `nmbrAxis`. -/
noncomputable def SimplifiedMotion.fresh (n : Nat) : SimplifiedMotion where
  type := .none
  trajectory := ⟨fin 0, fun _ => fin 0, fun _ => fin 0, n, n, fin 0, fin 0, fin 0, fin 0, fin 0⟩
  vFeed := posInf
  duration := fin 0
  peripherals := ⟨false, false, fin 0, .clockwise⟩

/-- `simplifiedMotion::set` — simplifiedmotion.cpp:47-57. -/
noncomputable def SimplifiedMotion.setLinear (m : SimplifiedMotion) (positionInMm : Nat → Num) (axis : Nat)
    (offset speed : Num) : SimplifiedMotion :=
  { m with
    type := .feedLinear
    vFeed := speed
    trajectory := { m.trajectory with
      length := offset.abs
      delta := fun i => if i = axis then offset else m.trajectory.delta i
      startPosition := positionInMm } }

/-- The machine's constants — lib_target/*/general/machineproperties.h. `unspecified` is what the conversion of a number that
does not fit into an `int32_t` yields (undefined behaviour in C++; assumed to yield some value). -/
structure Machine where
  /-- `nmbrAxis` -/
  n : Nat
  stepsPerMm : Nat → ℝ
  hysteresis : ℝ
  vMax : Nat → ℝ
  aMax : Nat → ℝ
  dMax : Nat → ℝ
  jMax : ℝ
  minLengthSProfile : ℝ
  unspecified : Num → Int

/-! ## Trajectory -/

/-- Data members of `motionTrajectory` — motiontrajectory.h:20-38 (`deltaAngle` is never written and only printed). -/
structure Trajectory where
  startPosition : Nat → Num
  delta : Nat → Num
  arcAxis0 : Nat
  arcAxis1 : Nat
  arcCenter0 : Num
  arcCenter1 : Num
  startAngle : Num
  radius : Num
  length : Num
  deltaRealTime : Nat → Num
  directionUnitVector : Nat → Num

namespace Trajectory

/-- Default member values — motiontrajectory.h:20-38. -/
noncomputable def zero (n : Nat) : Trajectory :=
  ⟨fun _ => fin 0, fun _ => fin 0, n, n, fin 0, fin 0, fin 0, fin 0, fin 0, fun _ => fin 0, fun _ => fin 0⟩

/-- `motionTrajectory::set` — motiontrajectory.cpp:58-84; the loop covers all axes. -/
noncomputable def ofReq (r : ReqTrajectory) : Trajectory where
  arcAxis0 := r.arcAxis0
  arcAxis1 := r.arcAxis1
  arcCenter0 := r.arcCenter0
  arcCenter1 := r.arcCenter1
  startAngle := r.startAngle
  radius := r.radius
  length := r.length
  deltaRealTime i := if i = r.arcAxis0 ∨ i = r.arcAxis1 then r.deltaAngle / r.length else r.delta i / r.length
  directionUnitVector i := if i = r.arcAxis0 ∨ i = r.arcAxis1 then fin 1 else r.delta i / r.length
  startPosition := r.startPosition
  delta := r.delta

/-- `motion::isMoving` — motionitem.cpp:265-267 (`!=`: true for NaN). -/
noncomputable def isMoving (t : Trajectory) (axis : Nat) : Bool := !(t.deltaRealTime axis).eq (fin 0)

/-- `motion::positionInMmFromDistanceTravelled` — motionitem.cpp:298-306. -/
noncomputable def position (t : Trajectory) (axis : Nat) (distanceTravelled : Num) : Num :=
  if axis = t.arcAxis0 then t.arcCenter0 + t.radius * (t.startAngle + t.deltaRealTime axis * distanceTravelled).cos
  else if axis = t.arcAxis1 then t.arcCenter1 + t.radius * (t.startAngle + t.deltaRealTime axis * distanceTravelled).sin
  else t.startPosition axis + t.deltaRealTime axis * distanceTravelled

end Trajectory

/-! ## Speed profile -/

/-- Data members of `motionSpeedProfile` — motionspeedprofile.h:23-36, `speedProfilePassed` — speedprofilepassed.h:14-15. -/
structure Profile where
  doneLength : Num
  doneDuration : Num
  left : AccDec Num
  mid : Cruise Num
  right : AccDec Num
  vFeed : Num
  vMax : Num
  aMax : Num
  dMax : Num
  jMax : Num
  duration : Num
  tStop : Num

namespace Profile

/-- Default member values — motionspeedprofile.h:23-36. -/
noncomputable def zero : Profile :=
  ⟨fin 0, fin 0, .zero, .zero, .zero, fin 0, fin 0, fin 0, fin 0, fin 0, fin 0, fin 0⟩

/-- `motionSpeedProfile::setSpeed` — motionspeedprofile.cpp:4-12. -/
noncomputable def setSpeed (p : Profile) (vFeed : Num) : Profile :=
  { p with
    vFeed := vFeed
    doneDuration := fin 0
    doneLength := fin 0
    left := (p.left.setMax p.aMax p.dMax p.jMax).setvStart (fin 0)
    right := (p.right.setMax p.aMax p.dMax p.jMax).setvEnd (fin 0) }

/-- `motionSpeedProfile::setDuration` — motionspeedprofile.cpp:14-17. -/
def setDuration (p : Profile) (duration : Num) : Profile := { p with duration := duration }

/-- `vTri` — motionitem.cpp:57-69. -/
noncomputable def vTri (vStart vEnd aMax dMax length : Num) : Strategy → Num
  | .maximizeSpeed =>
    (((vEnd * vEnd * aMax) - (vStart * vStart * dMax) - (fin 2 * length * aMax * dMax)) / (aMax - dMax)).sqrt
  | .minimizeSpeed =>
    let r := (fin 2 * length * aMax * dMax) - (vEnd * vEnd * dMax) + (vStart * vStart * aMax)
    if (fin 0).le r then (r / (aMax - dMax)).sqrt else fin 0

/-- `s` — motionitem.cpp:71-86. -/
noncomputable def s (p : Profile) (time : Num) : Num :=
  if time.le p.doneDuration then p.doneLength
  else
    let time := time - p.doneDuration
    if time.le p.left.duration then p.doneLength + p.left.s time
    else
      let time := time - p.left.duration
      if time.le p.mid.duration then p.doneLength + p.left.length + p.mid.s time
      else
        let time := time - p.mid.duration
        p.doneLength + p.left.length + p.mid.length + p.right.s time

/-- `v` — motionitem.cpp:88-103. -/
noncomputable def v (p : Profile) (time : Num) : Num :=
  if time.le p.doneDuration then p.left.v (fin 0)
  else
    let time := time - p.doneDuration
    if time.le p.left.duration then p.left.v time
    else
      let time := time - p.left.duration
      if time.le p.mid.duration then p.mid.v time
      else
        let time := time - p.mid.duration
        p.right.v time

/-- `a` — motionitem.cpp:105-120. -/
noncomputable def a (p : Profile) (time : Num) : Num :=
  if time.le p.doneDuration then p.left.a (fin 0)
  else
    let time := time - p.doneDuration
    if time.le p.left.duration then p.left.a time
    else
      let time := time - p.left.duration
      if time.le p.mid.duration then p.mid.a time
      else
        let time := time - p.mid.duration
        p.right.a time

/-- The cruise speed and order chosen by `optimize` — motionitem.cpp:139-168. -/
noncomputable def chooseSpeed (p : Profile) (length feedOverride : Num) (minLengthSProfile : ℝ) (strategy : Strategy) :
    Num × Order :=
  let order := if length.lt (fin minLengthSProfile) then Order.firstOrder else .secondOrder
  let (vMid, order) :=
    match strategy with
    | .maximizeSpeed =>
      let vMid := p.vFeed * feedOverride
      let vMid := if p.vMax.lt vMid then p.vMax else vMid
      let vMax := vTri p.left.vStart p.right.vEnd p.aMax p.dMax (length - p.doneLength) .maximizeSpeed
      if vMax.lt vMid then (vMax, Order.firstOrder) else (vMid, order)
    | .minimizeSpeed => (fin 0, order)
  let vMin := vTri p.left.vStart p.right.vEnd p.aMax p.dMax (length - p.doneLength) .minimizeSpeed
  if vMid.lt vMin then (vMin, .firstOrder) else (vMid, order)

/-- Setting the phases — motionitem.cpp:169-175 and again :179-185. -/
noncomputable def setPhases (p : Profile) (vMid : Num) (order : Order) : Profile :=
  { p with
    left := ((p.left.setMax p.aMax p.dMax p.jMax).setvEnd vMid).calculate order
    right := ((p.right.setMax p.aMax p.dMax p.jMax).setvStart vMid).calculate order
    mid := p.mid.set vMid }

/-- Length and duration of the cruise, total duration and stop time — motionitem.cpp:188-196. -/
noncomputable def finish (p : Profile) (length vMid : Num) : Profile :=
  let midLength := (length - p.doneLength) - (p.left.length + p.right.length)
  let midDuration := midLength / vMid
  { p with
    mid := { p.mid with length := midLength, duration := midDuration }
    duration := p.doneDuration + p.left.duration + midDuration + p.right.duration
    tStop := if vMid.eq (fin 0) then p.doneDuration + p.left.duration else posInf }

/-- `optimize(overrides, strategy)` for a motion along a trajectory of the given length — motionitem.cpp:135-197. -/
noncomputable def plan (p : Profile) (length feedOverride : Num) (minLengthSProfile : ℝ) (strategy : Strategy) :
    Profile :=
  let c := p.chooseSpeed length feedOverride minLengthSProfile strategy
  let p := p.setPhases c.1 c.2
  let p := if (length - p.doneLength).lt (p.left.length + p.right.length) then p.setPhases c.1 .firstOrder else p
  p.finish length c.1

/-- `motion::limit` — motionitem.cpp:236-263, body of the loop for axis `i`. -/
noncomputable def limitAxis (M : Machine) (t : Trajectory) (p : Profile) (i : Nat) : Profile :=
  let p :=
    if i = t.arcAxis0 ∨ i = t.arcAxis1 then
      let w := (fin (M.aMax i) * t.radius).sqrt
      if w.lt p.vMax then { p with vMax := w } else p
    else p
  let p :=
    let w := (fin (M.vMax i) / t.directionUnitVector i).abs
    if w.lt p.vMax then { p with vMax := w } else p
  let p :=
    let w := (fin (M.aMax i) / t.directionUnitVector i).abs
    if w.lt p.aMax then { p with aMax := w } else p
  let w := (fin (M.dMax i) / t.directionUnitVector i).abs
  if w.lt p.dMax.abs then { p with dMax := -w } else p

/-- `motion::limit` — motionitem.cpp:236-263. -/
noncomputable def limit (M : Machine) (t : Trajectory) (p : Profile) : Profile :=
  { (List.range M.n).foldl (limitAxis M t) { p with vMax := posInf, aMax := posInf, dMax := negInf } with
    jMax := fin M.jMax }

end Profile

/-! ## `motion` -/

/-- The members of `motion` other than the speed profile — motionitem.h:48-51. -/
structure Path where
  type : MotionType
  trajectory : Trajectory
  peripherals : Peripherals

/-- Default member values — motionitem.h:48-51, motionperipherals.h:24-27. -/
noncomputable def Path.zero (n : Nat) : Path := ⟨.none, .zero n, ⟨false, false, fin 0, .clockwise⟩⟩

/-- `overrides` — lib/motion/overrides.h:3-7. -/
structure Overrides where
  feedOverride : Num
  spindleOverride : Num

namespace MotionItem

/-- `motion::optimize(overrides, strategy)` — motionitem.cpp:129-200. -/
noncomputable def optimize (M : Machine) (o : Overrides) (st : Strategy) (x : Path) (p : Profile) : Profile :=
  if x.type.moves then p.plan x.trajectory.length o.feedOverride M.minLengthSProfile st else p

/-- `motion::optimize(overrides, strategy, tNow)` — motionitem.cpp:122-127. The start speed is overwritten before the
distance travelled is computed. -/
noncomputable def optimizeAt (M : Machine) (o : Overrides) (st : Strategy) (tNow : Num) (x : Path) (p : Profile) :
    Profile :=
  let p := { p with left := p.left.setvStart (p.v tNow) }
  let p := { p with doneLength := p.s tNow }
  let p := { p with doneDuration := tNow }
  optimize M o st x p

/-- `motion::set`, all members but the profile — motionitem.cpp:11-38, `motionPeripherals::set` —
motionperipherals.cpp:10-15. -/
noncomputable def setPath (x : Path) (r : SimplifiedMotion) : Path where
  type := r.type
  trajectory := match r.type with
    | .none => x.trajectory
    | _ => .ofReq r.trajectory
  peripherals := r.peripherals

/-- `motion::set`, the profile — motionitem.cpp:11-38. -/
noncomputable def setProfile (M : Machine) (x : Path) (p : Profile) (r : SimplifiedMotion) (o : Overrides)
    (st : Strategy) : Profile :=
  match r.type with
  | .traverse | .feedLinear | .feedHelicalCW | .feedHelicalCCW =>
    optimize M o st (setPath x r) ((p.limit M (setPath x r).trajectory).setSpeed r.vFeed)
  | .pauseAndResume | .pause => p.setDuration r.duration
  | .none => p

end MotionItem

/-! ## Step decision -/

/-- `roundf`. -/
noncomputable def Num.round : Num → Num
  | fin x => fin (roundf x)
  | x => x

open Classical in
/-- Conversion to `int32_t`. -/
noncomputable def Machine.toInt32 (M : Machine) : Num → Int
  | fin x => if -2 ^ 31 - 1 < x ∧ x < 2 ^ 31 then (if 0 ≤ x then ⌊x⌋ else ⌈x⌉) else M.unspecified (fin x)
  | x => M.unspecified x

/-- `motionCtrl::needStepForward` — motionctrl.cpp:231-235. -/
noncomputable def Machine.needStepForward (M : Machine) (axis : Nat) (positionInMm : Num) (machinePosition : Int) : Bool :=
  decide (machinePosition < M.toInt32 (positionInMm * fin (M.stepsPerMm axis) - fin M.hysteresis).round)

/-- `motionCtrl::needStepBackward` — motionctrl.cpp:237-240. -/
noncomputable def Machine.needStepBackward (M : Machine) (axis : Nat) (positionInMm : Num) (machinePosition : Int) : Bool :=
  (positionInMm * fin (M.stepsPerMm axis) + fin M.hysteresis).round.lt (fin machinePosition)

/-- The motions and times of the real controller. `minStepPulseWidth` defaults to 1 (sampletime.h:28). -/
noncomputable def Machine.kit (M : Machine) : MotionKit where
  n := M.n
  Time := Num
  Req := SimplifiedMotion
  Traj := Path
  Prof := Profile
  Ovr := Overrides
  Dist := Num
  Pos := Num
  zero := fin 0
  one := fin 1
  sample i w o := fin i * w + o
  later a b := b.lt a
  diff a b := a - b
  traj₀ := .zero M.n
  prof₀ := .zero
  ovr₀ := ⟨fin 1, fin 1⟩
  setTraj x _ r := MotionItem.setPath x r
  setProf := MotionItem.setProfile M
  optimize := MotionItem.optimize M
  optimizeAt := MotionItem.optimizeAt M
  endAtRest p := { p with right := { p.right with vEnd := fin 0 } }
  startAtRest p := { p with left := { p.left with vStart := fin 0 } }
  duration := Profile.duration
  tStop := Profile.tStop
  s _ p t := p.s t
  isMoving x := x.trajectory.isMoving
  position x := x.trajectory.position
  needStepForward := M.needStepForward
  needStepBackward := M.needStepBackward

end Moovr
