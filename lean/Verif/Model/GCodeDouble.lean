import Verif.Model.Float64
import Verif.Model.GCode
/-!
# The G-code interpreter in double precision

Reading the words of a line, the calculation of the next position, and the calculation of the angles of an arc.

Neither target contracts `a * b + c` in double precision (the Cortex-M4F has no instructions for doubles).

`Block.readWords` again, with the numbers as in the code: `strtod` gives the `double` nearest to the number that is written (as IEEE 754
and the C standard recommend, and newlib and glibc do), and the product with 10 is rounded.
-/
namespace Moovr

/-- `gCodeWord` — gcodeword.h:11-22. -/
structure Word64 where
  letter : Nat
  number : ℝ
  intNumber : Nat

/-- Conversion of a `double` to `uint32_t`: truncation, undefined if the result does not fit. -/
noncomputable def doubleToUInt32 (x : ℝ) : Except Fault Nat :=
  if -1 < x ∧ x < 2 ^ 32 then .ok ⌊x⌋.toNat else .error .conversion

namespace Block64

/-- `strtod` — gcodeblock.cpp:93 -/
noncomputable def strtod64 (t : List Nat) : ℝ := Float64.rnd (strtod t)

/-- `intNumber` of a word — gcodeblock.cpp:95-99. -/
noncomputable def intNumberOf (letter : Nat) (number : ℝ) : Except Fault Nat :=
  if letter = 'G'.toNat ∨ letter = 'M'.toNat then doubleToUInt32 (Float64.rnd (number * 10)) else .ok 0

/-- Reading the words of a line — gcodeblock.cpp:73-104 (without the counters). -/
noncomputable def readWords : Nat → List Nat → List Word64 → Except Fault (List Word64)
  | 0, _, ws => .ok ws
  | _ + 1, [], ws => .ok ws
  | fuel + 1, c :: line, ws =>
    if ws.length < maxWords then
      if ¬ isLetter c then readWords fuel line ws
      else
        if ws.length < 16 then
          match Block.readNumber [] line with
          | .error e => .error e
          | .ok (text, rest) =>
            match intNumberOf c (strtod64 text) with
            | .error e => .error e
            | .ok k => readWords fuel rest (ws ++ [⟨c, strtod64 text, k⟩])
        else .error .wordsOverrun
    else .ok ws

/-- `getBlockFromString` — gcodeblock.cpp:27-105. -/
noncomputable def ofString (text : List Nat) : Except Fault (List Word64) :=
  match Block.strip false [] text with
  | .error e => .error e
  | .ok line => readWords line.length line []

end Block64
namespace GCode64
open GCode Float64

/-- A coordinate in mm — gcode.cpp:531-534, :580-583; `inches2mm` is the `double` nearest to 25.4 (gcode.h:32). -/
noncomputable def inMm (unit : UnitMode) (x : ℝ) : ℝ := if unit = .G20 then rnd (x * rnd (254 / 10)) else x

/-- `calcNextPosition`, for one axis, without the motion — gcode.cpp:528-540. -/
noncomputable def next (unit : UnitMode) (distance : DistanceMode) (origin current value : ℝ) : ℝ :=
  let tmpValue := inMm unit value
  let tmpValue := if distance = .G91 then rnd (current + tmpValue) else tmpValue
  rnd (origin + tmpValue)

/-- `calcArcCenterAndRadius` with offsets: one coordinate of the centre — gcode.cpp:578-584. -/
noncomputable def center (unit : UnitMode) (current offset : ℝ) : ℝ := rnd (current + inMm unit offset)

/-- `pi` — gcode.h:31. -/
noncomputable def pi : ℝ := rnd (3141592653589793238463 / 10 ^ 21)

/-- `calcArcAngles` for an arc: the start angle and the swept angle — gcode.cpp:660-671. A subtraction of doubles never gives the
negative zero here, as positions are never negative zeros (they are sums with the origin). -/
noncomputable def angles (atan2 : ℝ → ℝ → ℝ) (clockwise : Bool) (current0 current1 next0 next1 center0 center1 : ℝ) : ℝ × ℝ :=
  let startAngle := atan2 (rnd (current1 - center1)) (rnd (current0 - center0))
  let endAngle := atan2 (rnd (next1 - center1)) (rnd (next0 - center0))
  let deltaAngle := rnd (endAngle - startAngle)
  (startAngle,
    if clockwise then if 0 ≤ deltaAngle then rnd (deltaAngle - rnd (2 * pi)) else deltaAngle
    else if deltaAngle ≤ 0 then rnd (deltaAngle + rnd (2 * pi)) else deltaAngle)

end GCode64
end Moovr
