import Mathlib.Analysis.SpecialFunctions.Complex.Arg
import Verif.Model.GCodeBlock
import Verif.Model.MotionItem
/-!
# Model of `gCode`

`lib/gcode/gcode.{h,cpp}` and `lib/gcode/gcodestate.{h,cpp}` for the three-axis machine (`nmbrAxis` is 3,
lib_target/cnc3axis/general/axis.h).

The interpreter state consists of rational numbers: coordinates, offsets, feed rate and positions are sums and products of
numbers in the text and of 25.4 (rounding and overflow are not modelled). The resulting motion has `Num`s, as in
`Verif.Model.MotionItem`. `pi` is the exact number. `saveState` and `restoreState` are empty.
-/
namespace Moovr
open Num

/-- `atan2`, with one zero. -/
noncomputable def Num.atan2 : Num → Num → Num
  | fin y, fin x => fin (Complex.arg ⟨x, y⟩)
  | nan, _ => nan
  | _, nan => nan
  | fin _, posInf => fin 0
  | fin y, negInf => fin (if y < 0 then -Real.pi else Real.pi)
  | posInf, fin _ => fin (Real.pi / 2)
  | negInf, fin _ => fin (-(Real.pi / 2))
  | posInf, posInf => fin (Real.pi / 4)
  | negInf, posInf => fin (-(Real.pi / 4))
  | posInf, negInf => fin (3 * Real.pi / 4)
  | negInf, negInf => fin (-(3 * Real.pi / 4))

namespace GCode

/-! ## State -/

/-- `modalGroupMotion` and the following enumerations — gcodemodalgroup.h:42-98. -/
inductive MotionMode where | G0 | G1 | G2 | G3
  deriving DecidableEq, Repr
inductive FeedMode where | G94 | G93
  deriving DecidableEq, Repr
inductive SpindleMode where | M5 | M3 | M4
  deriving DecidableEq, Repr
inductive UnitMode where | G21 | G20
  deriving DecidableEq, Repr
inductive PlaneMode where | G17 | G18 | G19
  deriving DecidableEq, Repr
inductive DistanceMode where | G90 | G91
  deriving DecidableEq, Repr
inductive CoordSet where | G53 | G54 | G55 | G56 | G57 | G58 | G59 | G59_1 | G59_2 | G59_3
  deriving DecidableEq, Repr
inductive OverrideMode where | M48 | M49
  deriving DecidableEq, Repr
inductive FloodMode where | M9 | M7
  deriving DecidableEq, Repr
inductive MistMode where | M9 | M8
  deriving DecidableEq, Repr

/-- `modalGroupsState` — gcodestate.h:24; each element only ever holds values of its own enumeration. -/
structure Modal where
  motion : MotionMode
  plane : PlaneMode
  distance : DistanceMode
  spindle : SpindleMode
  unit : UnitMode
  feedRate : FeedMode
  coordinateSet : CoordSet
  coolantFlood : FloodMode
  coolantMist : MistMode
  manualOverride : OverrideMode
  deriving DecidableEq, Repr

/-- `gCodeState` — gcodestate.h:14-28. -/
structure State where
  wcsOrigin : CoordSet → Nat → ℚ
  modal : Modal
  letterValue : Letter → ℚ
  currentPosition : Nat → ℚ
  nextPosition : Nat → ℚ

/-- `gCodeParseResultType` — gcodeparseresulttype.h:11-18. -/
inductive Result where
  | emptyBlock | okContextUpdateOnly | okContextUpdateAndMotion | warningContextUpdateOnly | warningContextUpdateAndMotion
  | error
  deriving DecidableEq, Repr

/-- `gCodeParseError` — gcodeparseerror.h:11-39. -/
inductive ParseError where
  | none | tooManyWordsInBlock | modalGroupCollision | valueWordCollision | invalidLineNumber | invalidFeedrate
  | missingFeedrate | invalidSpindleSpeed | missingPForG4 | invalidDwellTime | missingLForG10 | missingPForG10
  | invalidPForG10 | missingAxisWord | missingOffsetWord | invalidArcParameters | unsupportedgCodeWord | softLimits
  | configFileError
  deriving DecidableEq, Repr

/-- Data members of `gCode` — gcode.h:36-39. -/
structure Parser where
  block : Block
  state : State
  result : Result
  error : ParseError

/-- `gCodeState::initialize` — gcodestate.cpp:11-41 (`nextPosition` is not initialised: 0 stands for an unspecified value). -/
def State.initial : State where
  wcsOrigin _ _ := 0
  modal := ⟨.G0, .G17, .G90, .M5, .G21, .G94, .G54, .M9, .M9, .M48⟩
  letterValue _ := 0
  currentPosition _ := 0
  nextPosition _ := 0

/-- `reset`, called by the constructor — gcode.cpp:13-30. -/
def Parser.reset : Parser := ⟨.empty, .initial, .emptyBlock, .none⟩

namespace Parser

/-- `nmbrAxis` — axis.h:19. -/
def nAxis : Nat := 3

/-- `inches2mm` — gcode.h:34. -/
def inches2mm : ℚ := 254 / 10

/-- `letterValueState[letter] = value` -/
def setLetter (p : Parser) (l : Letter) (x : ℚ) : Parser :=
  { p with state := { p.state with letterValue := fun k => if k = l then x else p.state.letterValue k } }

/-- An assignment to `modalGroupsState`. -/
def setModal (p : Parser) (m : Modal) : Parser := { p with state := { p.state with modal := m } }

def removeWord (p : Parser) (i : Nat) : Parser := { p with block := p.block.removeWord i }

/-- `theResult = Error; theError = e` -/
def fail (p : Parser) (e : ParseError) : Parser := { p with result := .error, error := e }

/-- If the word is there, changes the modal state and removes it: the body of `if ((i = searchWord(l, k)) >= 0)`. -/
def apply2 (p : Parser) (l : Char) (k : Nat) (f : Modal → Modal) : Option Parser :=
  (p.block.search2 l k).map fun i => (p.setModal (f p.state.modal)).removeWord i

/-- `setdistanceMode` — gcode.cpp:264-276. -/
def setDistanceMode (p : Parser) : Parser :=
  if p.block.hasWords then
    match p.apply2 'G' 900 fun m => { m with distance := .G90 } with
    | some p => p
    | none =>
    match p.apply2 'G' 910 fun m => { m with distance := .G91 } with
    | some p => p
    | none => p
  else p

/-- `setWCSMode` — gcode.cpp:278-317. -/
def setWCSMode (p : Parser) : Parser :=
  if p.block.hasWords then
    match p.apply2 'G' 540 fun m => { m with coordinateSet := .G54 } with
    | some p => p
    | none =>
    match p.apply2 'G' 550 fun m => { m with coordinateSet := .G55 } with
    | some p => p
    | none =>
    match p.apply2 'G' 560 fun m => { m with coordinateSet := .G56 } with
    | some p => p
    | none =>
    match p.apply2 'G' 570 fun m => { m with coordinateSet := .G57 } with
    | some p => p
    | none =>
    match p.apply2 'G' 580 fun m => { m with coordinateSet := .G58 } with
    | some p => p
    | none =>
    match p.apply2 'G' 590 fun m => { m with coordinateSet := .G59 } with
    | some p => p
    | none =>
    match p.apply2 'G' 591 fun m => { m with coordinateSet := .G59_1 } with
    | some p => p
    | none =>
    match p.apply2 'G' 592 fun m => { m with coordinateSet := .G59_2 } with
    | some p => p
    | none =>
    match p.apply2 'G' 593 fun m => { m with coordinateSet := .G59_3 } with
    | some p => p
    | none => p
  else p

/-- `setUnitsMode` — gcode.cpp:319-331. -/
def setUnitsMode (p : Parser) : Parser :=
  if p.block.hasWords then
    match p.apply2 'G' 200 fun m => { m with unit := .G20 } with
    | some p => p
    | none =>
    match p.apply2 'G' 210 fun m => { m with unit := .G21 } with
    | some p => p
    | none => p
  else p

/-- `setArcPlane` — gcode.cpp:333-349 (there are three axes). -/
def setArcPlane (p : Parser) : Parser :=
  if p.block.hasWords then
    match p.apply2 'G' 170 fun m => { m with plane := .G17 } with
    | some p => p
    | none =>
    match p.apply2 'G' 180 fun m => { m with plane := .G18 } with
    | some p => p
    | none =>
    match p.apply2 'G' 190 fun m => { m with plane := .G19 } with
    | some p => p
    | none => p
  else p

/-- `setOverrideMode` — gcode.cpp:351-363. -/
def setOverrideMode (p : Parser) : Parser :=
  if p.block.hasWords then
    match p.apply2 'M' 480 fun m => { m with manualOverride := .M48 } with
    | some p => p
    | none =>
    match p.apply2 'M' 490 fun m => { m with manualOverride := .M49 } with
    | some p => p
    | none => p
  else p

/-- `setCoolantMode` — gcode.cpp:365-383. -/
def setCoolantMode (p : Parser) : Parser :=
  if p.block.hasWords then
    let p := (p.apply2 'M' 70 fun m => { m with coolantFlood := .M7 }).getD p
    let p := (p.apply2 'M' 80 fun m => { m with coolantMist := .M8 }).getD p
    (p.apply2 'M' 90 fun m => { m with coolantFlood := .M9, coolantMist := .M9 }).getD p
  else p

/-- `setSpindleMode` — gcode.cpp:385-400. -/
def setSpindleMode (p : Parser) : Parser :=
  if p.block.hasWords then
    match p.apply2 'M' 30 fun m => { m with spindle := .M3 } with
    | some p => p
    | none =>
    match p.apply2 'M' 40 fun m => { m with spindle := .M4 } with
    | some p => p
    | none =>
    match p.apply2 'M' 50 fun m => { m with spindle := .M5 } with
    | some p => p
    | none => p
  else p

/-- `setSpindleSpeed` — gcode.cpp:402-416. -/
def setSpindleSpeed (p : Parser) : Parser :=
  if p.block.hasWords then
    match p.block.search 'S' with
    | some i => if 0 ≤ p.block.number i then (p.setLetter .S (p.block.number i)).removeWord i else p.fail .invalidSpindleSpeed
    | none => p
  else p

/-- `setFeedrateValue` — gcode.cpp:418-441. -/
def setFeedrateValue (p : Parser) : Parser :=
  if p.block.hasWords then
    match p.block.search 'F' with
    | some i => if 0 < p.block.number i then (p.setLetter .F (p.block.number i)).removeWord i else p.fail .invalidFeedrate
    | none => if p.state.modal.feedRate = .G93 then p.fail .missingFeedrate else p
  else p

/-- `setFeedrateMode` — gcode.cpp:443-455. The words are not removed. -/
def setFeedrateMode (p : Parser) : Parser :=
  if p.block.hasWords then
    match p.block.search2 'G' 930 with
    | some _ => (p.setModal { p.state.modal with feedRate := .G93 }).setLetter .F 0
    | none =>
    match p.block.search2 'G' 940 with
    | some _ => (p.setModal { p.state.modal with feedRate := .G94 }).setLetter .F 0
    | none => p
  else p

/-- If there is a word with the letter, stores its value and removes it. -/
def getWord (p : Parser) (c : Char) (l : Letter) : Parser :=
  match p.block.search c with
  | some i => (p.setLetter l (p.block.number i)).removeWord i
  | none => p

/-- `getAxisOffsetRadiusWords` — gcode.cpp:457-496. -/
def getAxisOffsetRadiusWords (p : Parser) : Parser :=
  let p := if p.block.hasAxis then ((p.getWord 'X' .X).getWord 'Y' .Y).getWord 'Z' .Z else p
  let p := if p.block.hasOffset then ((p.getWord 'I' .I).getWord 'J' .J).getWord 'K' .K else p
  if p.block.hasRadius then p.getWord 'R' .R else p

/-- `getLineNumberWord` — gcode.cpp:498-515. -/
def getLineNumberWord (p : Parser) : Parser :=
  match p.block.search 'N' with
  | some (_ + 1) => p.fail .invalidLineNumber
  | some 0 => if 0 ≤ p.block.number 0 then (p.setLetter .N (p.block.number 0)).removeWord 0 else p.fail .invalidLineNumber
  | none => p

/-! ## `calcMotion` -/

/-- The letter of an axis, and of its arc offset: `letterValueState` is indexed with the number of the axis (plus that of `I`). -/
def axisLetter : Nat → Letter
  | 0 => .X
  | 1 => .Y
  | _ => .Z

def offsetLetter : Nat → Letter
  | 0 => .I
  | 1 => .J
  | _ => .K

/-- A coordinate in mm — gcode.cpp:531-534, :580-583, :601-604. -/
def inMm (p : Parser) (x : ℚ) : ℚ := if p.state.modal.unit = .G20 then x * inches2mm else x

/-- A number of the state in a `Num` expression. -/
noncomputable def num (x : ℚ) : Num := fin (x : ℝ)

/-- `calcNextPosition`: the position — gcode.cpp:529-540. -/
def nextOf (p : Parser) (axis : Nat) : ℚ :=
  let tmpValue := p.inMm (p.state.letterValue (axisLetter axis))
  let tmpValue := if p.state.modal.distance = .G91 then p.state.currentPosition axis + tmpValue else tmpValue
  p.state.wcsOrigin p.state.modal.coordinateSet axis + tmpValue

/-- `calcNextPosition` — gcode.cpp:528-544. -/
def setNext (p : Parser) : Parser :=
  { p with state := { p.state with nextPosition := fun i => if i < nAxis then p.nextOf i else p.state.nextPosition i } }

/-- `calcNextPosition`: the motion — gcode.cpp:541-542. -/
noncomputable def setDelta (p : Parser) (m : SimplifiedMotion) : SimplifiedMotion :=
  { m with trajectory := { m.trajectory with
      delta := fun i =>
        if i < nAxis then num (p.state.nextPosition i - p.state.currentPosition i) else m.trajectory.delta i
      startPosition := fun i =>
        if i < nAxis then num (p.state.currentPosition i) else m.trajectory.startPosition i } }

/-- Arc motions. -/
def isArc (m : SimplifiedMotion) : Bool := m.type = .feedHelicalCW || m.type = .feedHelicalCCW

/-- `setArcAxisFromPlane` — gcode.cpp:546-569. -/
noncomputable def setArcAxis (p : Parser) (m : SimplifiedMotion) : SimplifiedMotion :=
  if isArc m then
    match p.state.modal.plane with
    | .G17 => { m with trajectory := { m.trajectory with arcAxis0 := 0, arcAxis1 := 1 } }
    | .G18 => { m with trajectory := { m.trajectory with arcAxis0 := 1, arcAxis1 := 2 } }
    | .G19 => { m with trajectory := { m.trajectory with arcAxis0 := 2, arcAxis1 := 0 } }
  else { m with trajectory := { m.trajectory with arcAxis0 := nAxis, arcAxis1 := nAxis } }

/-- `calcArcCenterAndRadius` with offsets — gcode.cpp:576-596. -/
noncomputable def centerFromOffsets (p : Parser) (m : SimplifiedMotion) : SimplifiedMotion :=
  let a0 := m.trajectory.arcAxis0
  let a1 := m.trajectory.arcAxis1
  let c0 := num (p.state.currentPosition a0) + num (p.inMm (p.state.letterValue (offsetLetter a0)))
  let c1 := num (p.state.currentPosition a1) + num (p.inMm (p.state.letterValue (offsetLetter a1)))
  let x0 := num (p.state.currentPosition a0)
  let x1 := num (p.state.currentPosition a1)
  { m with trajectory := { m.trajectory with
      arcCenter0 := c0
      arcCenter1 := c1
      radius := (fin 0 + (x0 - c0) * (x0 - c0) + (x1 - c1) * (x1 - c1)).sqrt } }

/-- `calcArcCenterAndRadius` with a radius — gcode.cpp:597-651. -/
noncomputable def centerFromRadius (p : Parser) (m : SimplifiedMotion) : SimplifiedMotion :=
  let a0 := m.trajectory.arcAxis0
  let a1 := m.trajectory.arcAxis1
  let d0 := m.trajectory.delta a0
  let d1 := m.trajectory.delta a1
  let r := num (p.inMm (p.state.letterValue .R))
  let tmpD := (d0 * d0 + d1 * d1).sqrt
  let tmpH := ((fin 4 * r * r) - (d0 * d0) - (d1 * d1)).sqrt * fin (1 / 2)
  let tmpValue := tmpH / tmpD
  let tmpValue := if m.type = .feedHelicalCW then -tmpValue else tmpValue
  let tmpValue := if r.lt (fin 0) then -tmpValue else tmpValue
  let radius := if r.lt (fin 0) then -r else r
  { m with trajectory := { m.trajectory with
      arcCenter0 := num (p.state.currentPosition a0) + ((d0 * fin (1 / 2)) - (d1 * tmpValue))
      arcCenter1 := num (p.state.currentPosition a1) + ((d1 * fin (1 / 2)) + (d0 * tmpValue))
      radius := radius } }

/-- `calcArcCenterAndRadius` — gcode.cpp:571-656. Without an arc the axis numbers are out of range. -/
noncomputable def calcArcCenter (p : Parser) (m : SimplifiedMotion) : Except Fault SimplifiedMotion :=
  if p.block.hasOffset then
    if m.trajectory.arcAxis0 < nAxis ∧ m.trajectory.arcAxis1 < nAxis then .ok (p.centerFromOffsets m)
    else .error .axisOutOfBounds
  else if p.block.hasRadius then
    if m.trajectory.arcAxis0 < nAxis ∧ m.trajectory.arcAxis1 < nAxis then .ok (p.centerFromRadius m)
    else .error .axisOutOfBounds
  else .ok m

/-- `calcArcAngles` — gcode.cpp:658-676. -/
noncomputable def calcArcAngles (p : Parser) (m : SimplifiedMotion) : SimplifiedMotion :=
  if isArc m then
    let a0 := m.trajectory.arcAxis0
    let a1 := m.trajectory.arcAxis1
    let c0 := m.trajectory.arcCenter0
    let c1 := m.trajectory.arcCenter1
    let startAngle := Num.atan2 (num (p.state.currentPosition a1) - c1) (num (p.state.currentPosition a0) - c0)
    let endAngle := Num.atan2 (num (p.state.nextPosition a1) - c1) (num (p.state.nextPosition a0) - c0)
    let delta := endAngle - startAngle
    let delta :=
      if m.type = .feedHelicalCW then if (fin 0).le delta then delta - fin (2 * Real.pi) else delta
      else if delta.le (fin 0) then delta + fin (2 * Real.pi) else delta
    { m with trajectory := { m.trajectory with startAngle := startAngle, deltaAngle := delta } }
  else { m with trajectory := { m.trajectory with startAngle := fin 0, deltaAngle := fin 0 } }

/-- `calcTrajectoryLength` — gcode.cpp:678-688. -/
noncomputable def calcLength (m : SimplifiedMotion) : SimplifiedMotion :=
  let arcLength := m.trajectory.radius * m.trajectory.deltaAngle.abs
  let sum := (List.range nAxis).foldl (fun acc i =>
    if i ≠ m.trajectory.arcAxis0 ∧ i ≠ m.trajectory.arcAxis1 then acc + m.trajectory.delta i * m.trajectory.delta i else acc)
    (arcLength * arcLength)
  { m with trajectory := { m.trajectory with length := sum.sqrt } }

/-- `calcSpeedAndOrDuration` — gcode.cpp:690-727. -/
noncomputable def calcSpeed (p : Parser) (m : SimplifiedMotion) : SimplifiedMotion :=
  match m.type with
  | .traverse => { m with vFeed := posInf, duration := m.trajectory.length / posInf }
  | .feedLinear | .feedHelicalCW | .feedHelicalCCW =>
    let f := p.state.letterValue .F
    let vFeed :=
      if p.state.modal.feedRate = .G93 then (m.trajectory.length * num f) / fin 60 else num (p.inMm f) / fin 60
    { m with vFeed := vFeed, duration := m.trajectory.length / vFeed }
  | _ => { m with vFeed := fin 0, duration := num (p.state.letterValue .P) }

/-- `calcPeripherals` — gcode.cpp:729-747. -/
noncomputable def calcPeripherals (p : Parser) (m : SimplifiedMotion) : SimplifiedMotion :=
  { m with peripherals :=
    { spindleSpeed := if p.state.modal.spindle ≠ .M5 then num (p.state.letterValue .S) else fin 0
      spindleDirection :=
        if p.state.modal.spindle ≠ .M5 then if p.state.modal.spindle ≠ .M4 then .clockwise else .counterClockwise
        else .clockwise
      coolantFlood := decide (p.state.modal.coolantFlood = .M7)
      coolantMist := decide (p.state.modal.coolantMist = .M8) } }

/-- `updatePosition` — gcode.cpp:749-753. -/
def updatePosition (p : Parser) : Parser :=
  { p with state := { p.state with
      currentPosition := fun i => if i < nAxis then p.state.nextPosition i else p.state.currentPosition i } }

/-- `calcMotion` — gcode.cpp:517-526. -/
noncomputable def calcMotion (p : Parser) (m : SimplifiedMotion) : Except Fault (Parser × SimplifiedMotion) :=
  let p := p.setNext
  let m := p.setDelta m
  let m := p.setArcAxis m
  match p.calcArcCenter m with
  | .error e => .error e
  | .ok m =>
    let m := p.calcArcAngles m
    let m := calcLength m
    let m := p.calcSpeed m
    let m := p.calcPeripherals m
    .ok (p.updatePosition, m)

/-- `calcMotion` for a motion of the given type, followed by something else. -/
noncomputable def moveThen (p : Parser) (m : SimplifiedMotion) (type : MotionType) (f : Parser → Parser) :
    Except Fault (Parser × SimplifiedMotion) :=
  (p.calcMotion { m with type := type }).map fun r => (f r.1, r.2)

/-! ## `parseBlock` -/

/-- The settings before the dwell — gcode.cpp:49-56. -/
def settings1 (p : Parser) : Parser :=
  p.getAxisOffsetRadiusWords.getLineNumberWord.setFeedrateMode.setFeedrateValue.setSpindleSpeed.setSpindleMode.setCoolantMode
    |>.setOverrideMode

/-- The settings after the dwell — gcode.cpp:85-88. -/
def settings2 (p : Parser) : Parser := p.setArcPlane.setUnitsMode.setWCSMode.setDistanceMode

/-- The dwell — gcode.cpp:58-83. Either returns from `parseBlock` (`inl`) or goes on. -/
noncomputable def dwell (p : Parser) (m : SimplifiedMotion) : Except Fault (Parser × SimplifiedMotion) ⊕ Parser :=
  if p.block.hasWords then
    match p.block.search2 'G' 40 with
    | some i =>
      match p.block.search 'P' with
      | some j =>
        if 0 ≤ p.block.number j then
          let p := p.setLetter .P (p.block.number j)
          let p := { p with result := .okContextUpdateAndMotion }
          .inl (p.moveThen m .pauseAndResume fun p => (p.removeWord i).removeWord j)
        else .inr (p.fail .invalidDwellTime)
      | none => .inr (p.fail .missingPForG4)
    | none => .inr p
  else .inr p

/-- G10 — gcode.cpp:90-116: only sets the error. -/
def changeData (p : Parser) : Parser :=
  if p.block.hasWords then
    match p.block.search2 'G' 100 with
    | some _ =>
      if (p.block.search2 'L' 20).isSome then
        if (p.block.search 'P').isSome then p else p.fail .missingPForG10
      else if (p.block.search2 'L' 200).isSome then
        if (p.block.search 'P').isSome then p else p.fail .missingPForG10
      else p.fail .missingLForG10
    | none => p
  else p

/-- Non-modal motion — gcode.cpp:119-157; `i` is the position of the G53. The last `switch` is on the constant
`modalGroup::Motion`, which is 1, that is `G1`; `j` is -1 there, so nothing is removed. -/
noncomputable def machineMove (p : Parser) (m : SimplifiedMotion) (i : Nat) : Except Fault (Parser × SimplifiedMotion) :=
  let currentCoordinateSet := p.state.modal.coordinateSet
  let p := p.setModal { p.state.modal with coordinateSet := .G53 }
  let restore := fun p : Parser =>
    (p.removeWord i).setModal { p.state.modal with coordinateSet := currentCoordinateSet }
  match p.block.search2 'G' 0 with
  | some j => p.moveThen m .traverse fun p => restore (p.removeWord j)
  | none =>
  match p.block.search2 'G' 10 with
  | some j => p.moveThen m .feedLinear fun p => restore (p.removeWord j)
  | none => p.moveThen m .feedLinear restore

/-- `theError = None; theResult = OkContextUpdateAndMotion` -/
def okMotion (p : Parser) : Parser := { p with error := .none, result := .okContextUpdateAndMotion }

/-- The type of motion of a motion mode — gcode.cpp:209-225. -/
def typeOf : MotionMode → MotionType
  | .G0 => .traverse
  | .G1 => .feedLinear
  | .G2 => .feedHelicalCW
  | .G3 => .feedHelicalCCW

/-- Modal motion — gcode.cpp:160-232: returns from `parseBlock` or goes on. -/
noncomputable def modalMove (p : Parser) (m : SimplifiedMotion) : Option (Except Fault (Parser × SimplifiedMotion)) :=
  match p.block.search2 'G' 0 with
  | some i =>
    some ((p.setModal { p.state.modal with motion := .G0 }).moveThen m .traverse fun p => (p.okMotion).removeWord i)
  | none =>
  match p.block.search2 'G' 10 with
  | some i =>
    let p := p.setModal { p.state.modal with motion := .G1 }
    if 0 < p.state.letterValue .F then
      some (p.moveThen m .feedLinear fun p =>
        let p := p.removeWord i
        let p := if p.state.modal.feedRate = .G93 then p.setLetter .F 0 else p
        p.okMotion)
    else
      let p := p.fail .invalidFeedrate
      some (.ok ({ p with block := { p.block with words := [] } }, { m with type := .feedLinear }))
  | none =>
  match p.block.search2 'G' 20 with
  | some i =>
    some ((p.setModal { p.state.modal with motion := .G2 }).moveThen m .feedHelicalCW fun p => (p.removeWord i).okMotion)
  | none =>
  match p.block.search2 'G' 30 with
  | some i =>
    some ((p.setModal { p.state.modal with motion := .G3 }).moveThen m .feedHelicalCCW fun p => (p.removeWord i).okMotion)
  | none =>
    if p.block.hasAxis then some (p.moveThen m (typeOf p.state.modal.motion) okMotion) else none

/-- The end of `parseBlock` — gcode.cpp:236-260: the words M0, M1, M2, M30, M60 have no effect, remaining words are dropped, the
error is overwritten. -/
def leftOver (p : Parser) : Parser :=
  { p with block := { p.block with words := [] }, error := .none, result := .okContextUpdateOnly }

/-- `parseBlock` — gcode.cpp:32-262. -/
noncomputable def parseBlock (p : Parser) (m : SimplifiedMotion) : Except Fault (Parser × SimplifiedMotion) :=
  let p := { p with result := .emptyBlock, error := .none }
  let m := { m with type := .none }
  if p.block.hasModalGroupViolation then .ok (p.fail .modalGroupCollision, m)
  else if p.block.hasLetterWordViolation then .ok (p.fail .valueWordCollision, m)
  else
    match p.settings1.dwell m with
    | .inl r => r
    | .inr p =>
      let p := p.settings2.changeData
      match p.block.search2 'G' 530 with
      | some i => (p.machineMove m i).map fun r => (r.1.leftOver, r.2)
      | none =>
        match p.modalMove m with
        | some r => r
        | none => .ok (p.leftOver, m)

/-- `getBlockFromString` — gcode.cpp:762-769. -/
def getBlock (p : Parser) (text : List Nat) : Except Fault Parser :=
  (Block.ofString text).map fun b => { p with block := b }

end Parser
end GCode
end Moovr
