import Verif.Model.MotionItem
import Verif.Model.Names
import Verif.Model.U32
/-!
# Model of the `toString` functions of motions

`motion::toString` and what it calls, and `simplifiedMotion::toString`: they print with `sprintf` into memory and return the number of
characters. Memory is a function from addresses to characters; `n` is `nmbrAxis`. Numbers are reals with infinities and NaN.
-/
namespace Moovr.MotionText
open Num Version

/-- Memory. -/
abbrev Mem := Nat → Char

/-- The nearest natural number, ties to even (for a number that is not negative). -/
noncomputable def nearest (y : ℝ) : Nat :=
  if y - ⌊y⌋₊ < 1 / 2 then ⌊y⌋₊ else if 1 / 2 < y - ⌊y⌋₊ then ⌊y⌋₊ + 1 else if ⌊y⌋₊ % 2 = 0 then ⌊y⌋₊ else ⌊y⌋₊ + 1

/-- The last six decimal digits. -/
def sixDigits (n : Nat) : List Char :=
  [digit (n / 100000 % 10), digit (n / 10000 % 10), digit (n / 1000 % 10), digit (n / 100 % 10), digit (n / 10 % 10), digit (n % 10)]

/-- The text of a number by `%f` (C standard, 7.21.6.1: six digits after the decimal point). The signs of zero and of NaN, which
may also be printed, are not modelled. -/
noncomputable def percentF : Num → List Char
  | fin x =>
    let k := nearest (|x| * 10 ^ 6)
    (if x < 0 then ['-'] else []) ++ (decimal (k / 10 ^ 6) ++ '.' :: sixDigits k)
  | posInf => "inf".toList
  | negInf => "-inf".toList
  | nan => "nan".toList

/-- Something that prints to an address and returns the number of characters. -/
abbrev Printer := Mem → Nat → Mem × Nat

/-- `sprintf` of a text: its characters and a NUL behind them. -/
def sprintf (s : List Char) : Printer := fun m out =>
  (fun i => if out ≤ i ∧ i < out + s.length then s.getD (i - out) '\x00' else if i = out + s.length then '\x00' else m i, s.length)

/-- `sprintf(…, "…")` without arguments. -/
def say (s : String) : Printer := sprintf s.toList

/-- `sprintf(…, "pre%fpost", x)`. -/
noncomputable def line (pre : String) (x : Num) (post : String) : Printer := sprintf (pre.toList ++ percentF x ++ post.toList)

/-- The pattern of all these functions: `outputLenght` is 0 at first, and each statement is `outputLenght += f(output + outputLenght, …)`. -/
def inTurn (ps : List Printer) : Printer := fun m out =>
  ps.foldl (fun st p => let r := p st.1 (out + st.2); (r.1, u32add st.2 r.2)) (m, 0)

/-- `speedProfileAccDec::toString` — speedprofileaccdec.cpp:193-211. -/
noncomputable def accDec (a : AccDec Num) : Printer := inTurn [
  line "vStart   = " a.vStart " mm/s\n",
  line "vEnd     = " a.vEnd " mm/s\n",
  line "aMax     = " a.aMax " mm/s^2\n",
  line "dMax     = " a.dMax " mm/s^2\n",
  line "jMax     = " a.jMax " mm/s^3\n",
  line "dV1      = " a.dV1 " mm/s\n",
  line "s1       = " a.s1 " mm\n",
  line "s2       = " a.s2 " mm\n",
  line "s3       = " a.s3 " mm\n",
  line "length   = " a.length " mm\n",
  line "d1d3     = " a.d1d3 " s\n",
  line "d2       = " a.d2 " s\n",
  line "duration = " a.duration " s\n"]

/-- `speedProfileCruise::toString` — speedprofilecruise.cpp:30-38. -/
noncomputable def cruise (c : Cruise Num) : Printer := inTurn [
  line "vMid     = " c.vMid " mm/s\n",
  line "length   = " c.length " mm\n",
  line "duration = " c.duration " s\n"]

/-- `motionSpeedProfile::toString` — motionspeedprofile.cpp:19-33. -/
noncomputable def profile (p : Profile) : Printer := inTurn [
  line "feedrate =  " p.vFeed "  mm/s\n",
  line "duration =  " p.duration "  s\n",
  say "left part :\n",
  accDec p.left,
  say "mid part :\n",
  cruise p.mid,
  say "right part :\n",
  accDec p.right]

/-- The member `deltaAngle` of `motionTrajectory` — motiontrajectory.h:34: it is initialised with 0, and no statement of the code
assigns to it (`motionTrajectory::set` — motiontrajectory.cpp:58-84 — does not). -/
noncomputable def deltaAngle : Num := fin 0

/-- `motionTrajectory::toString` — motiontrajectory.cpp:13-56. -/
noncomputable def trajectory (n : Nat) (t : Trajectory) : MotionType → Printer
  | .traverse | .feedLinear => inTurn (
      [say " Linear Trajectory : \n", say "  startPosition = "] ++
      (List.range n).map (fun i => line "" (t.startPosition i) " ") ++
      [say "mm\n", say "  positionChange = "] ++
      (List.range n).map (fun i => line "" (t.delta i) " ") ++
      [say "mm\n", line "  length =  " t.length "  mm\n"])
  | .feedHelicalCW | .feedHelicalCCW => inTurn (
      [say " Helical Trajectory : \n", say "  startPosition = "] ++
      (List.range n).map (fun i => line "" (t.startPosition i) " ") ++
      [say "mm\n",
       sprintf ("  arcCenter = ".toList ++ percentF t.arcCenter0 ++ " ".toList ++ percentF t.arcCenter1 ++ " mm\n".toList),
       sprintf ("  radius = ".toList ++ percentF t.radius ++ " mm, startAngle =  ".toList ++ percentF t.startAngle ++
         " rad, endAngle =  ".toList ++ percentF (t.startAngle + deltaAngle) ++ " rad\n".toList),
       line "  length =  " t.length "  mm\n"])
  | .pauseAndResume | .pause => inTurn [say " Empty Trajectory : \n"]
  | .none => inTurn [say " Unknown Trajectory : \n"]

/-- `motionPeripherals::toString` — motionperipherals.cpp:4-8. -/
def peripherals : Printer := inTurn [say "Peripheral  : \n"]

/-- `motion::toString` — motionitem.cpp:269-278. -/
noncomputable def motion (n : Nat) (x : Path) (p : Profile) : Printer := inTurn [
  say "motionType : ", trajectory n x.trajectory x.type, profile p, peripherals]

/-- `simplifiedMotion::toString` — simplifiedmotion.cpp:15-45. -/
noncomputable def request (r : SimplifiedMotion) : Printer := inTurn [
  sprintf ("motionType = ".toList ++ r.type.name.toList ++ "\n".toList),
  line "length = " r.trajectory.length " s\n"]

end Moovr.MotionText
