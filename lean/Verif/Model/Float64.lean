import Verif.Model.Float32
/-!
# Double precision

`double` is IEEE 754 binary64: 53 bits of significand, exponent of the last bit at least -1074, rounding to the nearest number, in the
middle between two numbers to the even one. As in `Verif.Model.Float32`, numbers are represented by their values, and overflow is not
modelled.
-/
namespace Moovr.Float64
open Float32 (nearestEven)

/-- The exponent of the last bit of the significand of a result. -/
noncomputable def expo (x : ℝ) : ℤ := max (Int.log 2 |x| - 52) (-1074)

/-- Rounding to 53 bits of significand. -/
noncomputable def rnd (x : ℝ) : ℝ := nearestEven (x / 2 ^ expo x) * 2 ^ expo x

end Moovr.Float64
