import Verif.Model.Float32
import Verif.Model.MotionItem
/-!
# The motion code in single precision

The functions of `Verif.Model.MotionItem` again, with every operation rounded to single precision as in the code. The phases
of the speed profile (`AccDec`, `Cruise`) are the same definitions, used with another number type.

The numbers of a request are `double`; they are taken as exact here and rounded when they are copied
(motiontrajectory.cpp:58-84), so that the quotients there are rounded once instead of twice.

Two things depend on the compiler and its library (`Fpu`): whether `a * b + c` is contracted into one operation with one
rounding (GCC's default where the hardware has it, as on the Cortex-M4F), and the results of `cosf` and `sinf`. Contraction is
taken into account in the clock, the position on a path and the step decision, not in the speed profile.
-/
namespace Moovr
open Num Float32

/-- A value of type `float`. -/
structure Single where
  val : Num

/-- What depends on the compiler and its library: contraction of `a * b + c`; `cosf` and `sinf`, whose results are single precision
numbers, not exact, but with an error of at most `2⁻²³` (the libraries in use are better) for angles of a few turns. -/
structure Fpu where
  contract : Bool
  cos : ℝ → ℝ
  sin : ℝ → ℝ
  cos_float : ∀ x, rnd (cos x) = cos x
  sin_float : ∀ x, rnd (sin x) = sin x
  cos_near : ∀ x, |x| ≤ 16 → |cos x - Real.cos x| ≤ 1 / 2 ^ 23
  sin_near : ∀ x, |x| ≤ 16 → |sin x - Real.sin x| ≤ 1 / 2 ^ 23

namespace Single

noncomputable instance : Add Single := ⟨fun a b => ⟨round32 (a.val + b.val)⟩⟩
noncomputable instance : Sub Single := ⟨fun a b => ⟨round32 (a.val - b.val)⟩⟩
noncomputable instance : Mul Single := ⟨fun a b => ⟨round32 (a.val * b.val)⟩⟩
noncomputable instance : Div Single := ⟨fun a b => ⟨round32 (a.val / b.val)⟩⟩
noncomputable instance : Neg Single := ⟨fun a => ⟨-a.val⟩⟩

noncomputable instance : Arith Single where
  lit q := ⟨fin (rnd q)⟩
  sqrt a := ⟨round32 a.val.sqrt⟩
  lt a b := a.val.lt b.val

/-- `a * b + c` -/
noncomputable def mulAdd (fpu : Fpu) (a b c : Single) : Single :=
  if fpu.contract then ⟨round32 (a.val * b.val + c.val)⟩ else a * b + c

/-- `a * b - c` -/
noncomputable def mulSub (fpu : Fpu) (a b c : Single) : Single :=
  if fpu.contract then ⟨round32 (a.val * b.val - c.val)⟩ else a * b - c

/-- Conversion of an integer. -/
noncomputable def ofNat (n : Nat) : Single := ⟨fin (rnd n)⟩

/-- Conversion of a `double`. -/
noncomputable def ofNum (x : Num) : Single := ⟨round32 x⟩

/-- `a <= b` -/
noncomputable def le (a b : Single) : Bool := a.val.le b.val

/-- `a < b` -/
noncomputable def lt (a b : Single) : Bool := a.val.lt b.val

/-- `a == b` -/
noncomputable def eq (a b : Single) : Bool := a.val.eq b.val

/-- A finite constant. -/
noncomputable def num (x : ℝ) : Single := ⟨fin x⟩

/-- `cosf` -/
noncomputable def cosf (fpu : Fpu) (a : Single) : Single :=
  match a.val with
  | fin x => num (fpu.cos x)
  | _ => ⟨.nan⟩

/-- `sinf` -/
noncomputable def sinf (fpu : Fpu) (a : Single) : Single :=
  match a.val with
  | fin x => num (fpu.sin x)
  | _ => ⟨.nan⟩

end Single

open Single

/-- `motionTrajectory` — motiontrajectory.h:20-38. -/
structure Trajectory32 where
  startPosition : Nat → Single
  arcAxis0 : Nat
  arcAxis1 : Nat
  arcCenter0 : Single
  arcCenter1 : Single
  startAngle : Single
  radius : Single
  length : Single
  deltaRealTime : Nat → Single
  directionUnitVector : Nat → Single

namespace Trajectory32

/-- Default member values — motiontrajectory.h:20-38. -/
noncomputable def zero (n : Nat) : Trajectory32 :=
  ⟨fun _ => num 0, n, n, num 0, num 0, num 0, num 0, num 0, fun _ => num 0, fun _ => num 0⟩

/-- `motionTrajectory::set` — motiontrajectory.cpp:58-84. -/
noncomputable def ofReq (r : ReqTrajectory) : Trajectory32 where
  arcAxis0 := r.arcAxis0
  arcAxis1 := r.arcAxis1
  arcCenter0 := ofNum r.arcCenter0
  arcCenter1 := ofNum r.arcCenter1
  startAngle := ofNum r.startAngle
  radius := ofNum r.radius
  length := ofNum r.length
  deltaRealTime i :=
    if i = r.arcAxis0 ∨ i = r.arcAxis1 then ofNum (r.deltaAngle / r.length) else ofNum (r.delta i / r.length)
  directionUnitVector i := if i = r.arcAxis0 ∨ i = r.arcAxis1 then num 1 else ofNum (r.delta i / r.length)
  startPosition i := ofNum (r.startPosition i)

/-- `motion::isMoving` — motionitem.cpp:265-267. -/
noncomputable def isMoving (t : Trajectory32) (axis : Nat) : Bool := !(t.deltaRealTime axis).eq (num 0)

/-- `motion::positionInMmFromDistanceTravelled` — motionitem.cpp:298-306. -/
noncomputable def position (fpu : Fpu) (t : Trajectory32) (axis : Nat) (distanceTravelled : Single) : Single :=
  if axis = t.arcAxis0 then
    mulAdd fpu t.radius (cosf fpu (mulAdd fpu (t.deltaRealTime axis) distanceTravelled t.startAngle)) t.arcCenter0
  else if axis = t.arcAxis1 then
    mulAdd fpu t.radius (sinf fpu (mulAdd fpu (t.deltaRealTime axis) distanceTravelled t.startAngle)) t.arcCenter1
  else mulAdd fpu (t.deltaRealTime axis) distanceTravelled (t.startPosition axis)

end Trajectory32

/-- `motionSpeedProfile` — motionspeedprofile.h:23-36, `speedProfilePassed` — speedprofilepassed.h:14-15. -/
structure Profile32 where
  doneLength : Single
  doneDuration : Single
  left : AccDec Single
  mid : Cruise Single
  right : AccDec Single
  vFeed : Single
  vMax : Single
  aMax : Single
  dMax : Single
  jMax : Single
  duration : Single
  tStop : Single

namespace Profile32

/-- Default member values — motionspeedprofile.h:23-36. -/
noncomputable def zero : Profile32 :=
  ⟨num 0, num 0, .zero, .zero, .zero, num 0, num 0, num 0, num 0, num 0, num 0, num 0⟩

/-- `motionSpeedProfile::setSpeed` — motionspeedprofile.cpp:4-12. -/
noncomputable def setSpeed (p : Profile32) (vFeed : Single) : Profile32 :=
  { p with
    vFeed := vFeed
    doneDuration := num 0
    doneLength := num 0
    left := (p.left.setMax p.aMax p.dMax p.jMax).setvStart (num 0)
    right := (p.right.setMax p.aMax p.dMax p.jMax).setvEnd (num 0) }

/-- `motionSpeedProfile::setDuration` — motionspeedprofile.cpp:14-17. -/
def setDuration (p : Profile32) (duration : Single) : Profile32 := { p with duration := duration }

/-- `vTri` — motionitem.cpp:57-69. -/
noncomputable def vTri (vStart vEnd aMax dMax length : Single) : Strategy → Single
  | .maximizeSpeed =>
    Arith.sqrt (((vEnd * vEnd * aMax) - (vStart * vStart * dMax) - (num 2 * length * aMax * dMax)) / (aMax - dMax))
  | .minimizeSpeed =>
    let r := (num 2 * length * aMax * dMax) - (vEnd * vEnd * dMax) + (vStart * vStart * aMax)
    if (num 0).le r then Arith.sqrt (r / (aMax - dMax)) else num 0

/-- `s` — motionitem.cpp:71-86. -/
noncomputable def s (p : Profile32) (time : Single) : Single :=
  if time.le p.doneDuration then p.doneLength
  else
    let time := time - p.doneDuration
    if time.le p.left.duration then p.doneLength + p.left.s time
    else
      let time := time - p.left.duration
      if time.le p.mid.duration then p.doneLength + p.left.length + p.mid.s time
      else
        let time := time - p.mid.duration
        p.doneLength + p.left.length + p.mid.length + p.right.s time

/-- `v` — motionitem.cpp:88-103. -/
noncomputable def v (p : Profile32) (time : Single) : Single :=
  if time.le p.doneDuration then p.left.v (num 0)
  else
    let time := time - p.doneDuration
    if time.le p.left.duration then p.left.v time
    else
      let time := time - p.left.duration
      if time.le p.mid.duration then p.mid.v time
      else
        let time := time - p.mid.duration
        p.right.v time

/-- The cruise speed and order chosen by `optimize` — motionitem.cpp:139-168. -/
noncomputable def chooseSpeed (p : Profile32) (length feedOverride minLengthSProfile : Single) (strategy : Strategy) :
    Single × Order :=
  let order := if length.lt minLengthSProfile then Order.firstOrder else .secondOrder
  let (vMid, order) :=
    match strategy with
    | .maximizeSpeed =>
      let vMid := p.vFeed * feedOverride
      let vMid := if p.vMax.lt vMid then p.vMax else vMid
      let vMax := vTri p.left.vStart p.right.vEnd p.aMax p.dMax (length - p.doneLength) .maximizeSpeed
      if vMax.lt vMid then (vMax, Order.firstOrder) else (vMid, order)
    | .minimizeSpeed => (num 0, order)
  let vMin := vTri p.left.vStart p.right.vEnd p.aMax p.dMax (length - p.doneLength) .minimizeSpeed
  if vMid.lt vMin then (vMin, .firstOrder) else (vMid, order)

/-- Setting the phases — motionitem.cpp:169-175 and again :179-185. -/
noncomputable def setPhases (p : Profile32) (vMid : Single) (order : Order) : Profile32 :=
  { p with
    left := ((p.left.setMax p.aMax p.dMax p.jMax).setvEnd vMid).calculate order
    right := ((p.right.setMax p.aMax p.dMax p.jMax).setvStart vMid).calculate order
    mid := p.mid.set vMid }

/-- Length and duration of the cruise, total duration and stop time — motionitem.cpp:188-196. -/
noncomputable def finish (p : Profile32) (length vMid : Single) : Profile32 :=
  let midLength := (length - p.doneLength) - (p.left.length + p.right.length)
  let midDuration := midLength / vMid
  { p with
    mid := { p.mid with length := midLength, duration := midDuration }
    duration := p.doneDuration + p.left.duration + midDuration + p.right.duration
    tStop := if vMid.eq (num 0) then p.doneDuration + p.left.duration else ⟨posInf⟩ }

/-- `optimize(overrides, strategy)` for a motion along a trajectory of the given length — motionitem.cpp:135-197. -/
noncomputable def plan (p : Profile32) (length feedOverride minLengthSProfile : Single) (strategy : Strategy) : Profile32 :=
  let c := p.chooseSpeed length feedOverride minLengthSProfile strategy
  let p := p.setPhases c.1 c.2
  let p := if (length - p.doneLength).lt (p.left.length + p.right.length) then p.setPhases c.1 .firstOrder else p
  p.finish length c.1

/-- `motion::limit` — motionitem.cpp:236-263, body of the loop for axis `i`. -/
noncomputable def limitAxis (M : Machine) (t : Trajectory32) (p : Profile32) (i : Nat) : Profile32 :=
  let p :=
    if i = t.arcAxis0 ∨ i = t.arcAxis1 then
      let w : Single := Arith.sqrt (num (M.aMax i) * t.radius)
      if w.lt p.vMax then { p with vMax := w } else p
    else p
  let p :=
    let w : Single := ⟨(num (M.vMax i) / t.directionUnitVector i).val.abs⟩
    if w.lt p.vMax then { p with vMax := w } else p
  let p :=
    let w : Single := ⟨(num (M.aMax i) / t.directionUnitVector i).val.abs⟩
    if w.lt p.aMax then { p with aMax := w } else p
  let w : Single := ⟨(num (M.dMax i) / t.directionUnitVector i).val.abs⟩
  if w.lt ⟨p.dMax.val.abs⟩ then { p with dMax := -w } else p

/-- `motion::limit` — motionitem.cpp:236-263. -/
noncomputable def limit (M : Machine) (t : Trajectory32) (p : Profile32) : Profile32 :=
  { (List.range M.n).foldl (limitAxis M t) { p with vMax := ⟨posInf⟩, aMax := ⟨posInf⟩, dMax := ⟨negInf⟩ } with
    jMax := num M.jMax }

end Profile32

/-- The members of `motion` other than the speed profile — motionitem.h:48-51. -/
structure Path32 where
  type : MotionType
  trajectory : Trajectory32
  peripherals : Peripherals

/-- Default member values — motionitem.h:48-51, motionperipherals.h:24-27. -/
noncomputable def Path32.zero (n : Nat) : Path32 := ⟨.none, .zero n, ⟨false, false, fin 0, .clockwise⟩⟩

namespace MotionItem32

/-- `motion::optimize(overrides, strategy)` — motionitem.cpp:129-200. -/
noncomputable def optimize (M : Machine) (o : Overrides) (st : Strategy) (x : Path32) (p : Profile32) : Profile32 :=
  if x.type.moves then p.plan x.trajectory.length ⟨o.feedOverride⟩ (num M.minLengthSProfile) st else p

/-- `motion::optimize(overrides, strategy, tNow)` — motionitem.cpp:122-127. -/
noncomputable def optimizeAt (M : Machine) (o : Overrides) (st : Strategy) (tNow : Single) (x : Path32) (p : Profile32) :
    Profile32 :=
  let p := { p with left := p.left.setvStart (p.v tNow) }
  let p := { p with doneLength := p.s tNow }
  let p := { p with doneDuration := tNow }
  optimize M o st x p

/-- `motion::set`, all members but the profile — motionitem.cpp:11-38, `motionPeripherals::set` —
motionperipherals.cpp:10-15. -/
noncomputable def setPath (x : Path32) (r : SimplifiedMotion) : Path32 where
  type := r.type
  trajectory := match r.type with
    | .none => x.trajectory
    | _ => .ofReq r.trajectory
  peripherals := r.peripherals

/-- `motion::set`, the profile — motionitem.cpp:11-38. -/
noncomputable def setProfile (M : Machine) (x : Path32) (p : Profile32) (r : SimplifiedMotion) (o : Overrides)
    (st : Strategy) : Profile32 :=
  match r.type with
  | .traverse | .feedLinear | .feedHelicalCW | .feedHelicalCCW =>
    optimize M o st (setPath x r) ((p.limit M (setPath x r).trajectory).setSpeed (ofNum r.vFeed))
  | .pauseAndResume | .pause => p.setDuration (ofNum r.duration)
  | .none => p

end MotionItem32

/-- `motionCtrl::needStepForward` — motionctrl.cpp:231-235. -/
noncomputable def Machine.needStepForward32 (M : Machine) (fpu : Fpu) (axis : Nat) (positionInMm : Single)
    (machinePosition : Int) : Bool :=
  decide (machinePosition <
    M.toInt32 (mulSub fpu positionInMm (num (M.stepsPerMm axis)) (num M.hysteresis)).val.round)

/-- `motionCtrl::needStepBackward` — motionctrl.cpp:237-240. The machine position is converted to `float` for the
comparison. -/
noncomputable def Machine.needStepBackward32 (M : Machine) (fpu : Fpu) (axis : Nat) (positionInMm : Single)
    (machinePosition : Int) : Bool :=
  (mulAdd fpu positionInMm (num (M.stepsPerMm axis)) (num M.hysteresis)).val.round.lt (fin (rnd machinePosition))

/-- The motions and times of the controller in single precision. -/
noncomputable def Machine.kit32 (M : Machine) (fpu : Fpu) : MotionKit where
  n := M.n
  Time := Single
  Req := SimplifiedMotion
  Traj := Path32
  Prof := Profile32
  Ovr := Overrides
  Dist := Single
  Pos := Single
  zero := num 0
  one := num 1
  sample i w o := mulAdd fpu (ofNat i) w o
  later a b := b.lt a
  diff a b := a - b
  traj₀ := .zero M.n
  prof₀ := .zero
  ovr₀ := ⟨fin 1, fin 1⟩
  setTraj x _ r := MotionItem32.setPath x r
  setProf := MotionItem32.setProfile M
  optimize := MotionItem32.optimize M
  optimizeAt := MotionItem32.optimizeAt M
  endAtRest p := { p with right := { p.right with vEnd := num 0 } }
  startAtRest p := { p with left := { p.left with vStart := num 0 } }
  duration := Profile32.duration
  tStop := Profile32.tStop
  s _ p t := p.s t
  isMoving x := x.trajectory.isMoving
  position x := x.trajectory.position fpu
  needStepForward := M.needStepForward32 fpu
  needStepBackward := M.needStepBackward32 fpu

end Moovr
