import Mathlib.Data.Int.Log
import Mathlib.Algebra.Order.Round
import Verif.Model.Num
/-!
# Single precision

`float` on the target (Cortex-M4F) and on the host is IEEE 754 binary32. Every operation gives the exact result rounded to
the nearest number with a 24-bit significand and an exponent of at least -149; in the middle between two such numbers the
even one is taken. Numbers are represented by their values in `ℝ`, so the two zeros are the same. Overflow (results of 2^128
or more, which become infinities) is not modelled. The rounding mode is the default one (nothing in /repo changes it).
-/
namespace Moovr.Float32

/-- The integer nearest to `y`; in the middle between two integers the even one. -/
noncomputable def nearestEven (y : ℝ) : ℤ :=
  if y - ⌊y⌋ < 1 / 2 then ⌊y⌋ else if 1 / 2 < y - ⌊y⌋ then ⌊y⌋ + 1 else if Even ⌊y⌋ then ⌊y⌋ else ⌊y⌋ + 1

/-- The exponent of the last bit of the significand of a result. -/
noncomputable def expo (x : ℝ) : ℤ := max (Int.log 2 |x| - 23) (-149)

/-- Rounding to 24 bits of significand. -/
noncomputable def rnd (x : ℝ) : ℝ := nearestEven (x / 2 ^ expo x) * 2 ^ expo x

/-- The result of an operation in single precision, from the exact result; infinities and NaN stay. -/
noncomputable def round32 : Num → Num
  | .fin x => .fin (rnd x)
  | x => x

end Moovr.Float32
