import Mathlib.Analysis.Real.Sqrt
import Mathlib.Analysis.SpecialFunctions.Trigonometric.Basic
/-!
# Numbers

The kinematic code computes with `float`. The model uses `Num`: real numbers together with the special values of IEEE 754,
with IEEE's rules for them. Simplifications: no rounding, no overflow to infinity, one zero instead of two (dividing a
non-zero number by zero gives the infinity with the sign of the numerator).

Code that is proved correct on ordinary numbers first is written once for any number type with the operations of
`Arith`, and used for `ℝ` and for `Num`.
-/
namespace Moovr

/-- Literals, square root and comparison of the number type. -/
class Arith (F : Type) where
  lit : ℚ → F
  sqrt : F → F
  lt : F → F → Bool

open Classical in
noncomputable instance : Arith ℝ where
  lit q := (q : ℝ)
  sqrt := Real.sqrt
  lt a b := decide (a < b)

/-- Real numbers, infinities and "not a number". -/
inductive Num where
  | fin (x : ℝ)
  | posInf
  | negInf
  | nan

namespace Num

/-- Negation. -/
protected noncomputable def neg : Num → Num
  | fin x => fin (-x)
  | posInf => negInf
  | negInf => posInf
  | nan => nan

/-- Addition: opposite infinities give NaN. -/
protected noncomputable def add : Num → Num → Num
  | fin x, fin y => fin (x + y)
  | nan, _ => nan
  | _, nan => nan
  | posInf, negInf => nan
  | negInf, posInf => nan
  | posInf, _ => posInf
  | _, posInf => posInf
  | negInf, _ => negInf
  | _, negInf => negInf

/-- The infinity with a sign; NaN for 0. -/
noncomputable def infOfSign (x : ℝ) : Num := if 0 < x then posInf else if x < 0 then negInf else nan

/-- Multiplication: zero times infinity is NaN. -/
protected noncomputable def mul : Num → Num → Num
  | fin x, fin y => fin (x * y)
  | nan, _ => nan
  | _, nan => nan
  | posInf, posInf => posInf
  | posInf, negInf => negInf
  | negInf, posInf => negInf
  | negInf, negInf => posInf
  | posInf, fin y => infOfSign y
  | fin x, posInf => infOfSign x
  | negInf, fin y => infOfSign (-y)
  | fin x, negInf => infOfSign (-x)

/-- Division: `x / 0` is the infinity with the sign of `x`, `0 / 0` and `∞ / ∞` are NaN. -/
protected noncomputable def div : Num → Num → Num
  | fin x, fin y => if y = 0 then infOfSign x else fin (x / y)
  | nan, _ => nan
  | _, nan => nan
  | fin _, posInf => fin 0
  | fin _, negInf => fin 0
  | posInf, fin y => if y < 0 then negInf else posInf
  | negInf, fin y => if y < 0 then posInf else negInf
  | _, _ => nan

noncomputable instance : Add Num := ⟨Num.add⟩
noncomputable instance : Neg Num := ⟨Num.neg⟩
noncomputable instance : Sub Num := ⟨fun a b => a + -b⟩
noncomputable instance : Mul Num := ⟨Num.mul⟩
noncomputable instance : Div Num := ⟨Num.div⟩

/-- `sqrtf` -/
noncomputable def sqrt : Num → Num
  | fin x => if x < 0 then nan else fin (Real.sqrt x)
  | posInf => posInf
  | _ => nan

open Classical in
/-- `<`; false if a NaN is involved. -/
noncomputable def lt : Num → Num → Bool
  | fin x, fin y => decide (x < y)
  | fin _, posInf => true
  | negInf, fin _ => true
  | negInf, posInf => true
  | _, _ => false

open Classical in
/-- `<=`; false if a NaN is involved. -/
noncomputable def le : Num → Num → Bool
  | fin x, fin y => decide (x ≤ y)
  | nan, _ => false
  | _, nan => false
  | negInf, _ => true
  | _, posInf => true
  | _, _ => false

open Classical in
/-- `==`; false if a NaN is involved. -/
noncomputable def eq : Num → Num → Bool
  | fin x, fin y => decide (x = y)
  | posInf, posInf => true
  | negInf, negInf => true
  | _, _ => false

/-- `fabs` -/
noncomputable def abs : Num → Num
  | fin x => fin |x|
  | nan => nan
  | _ => posInf

/-- `cosf` -/
noncomputable def cos : Num → Num
  | fin x => fin (Real.cos x)
  | _ => nan

/-- `sinf` -/
noncomputable def sin : Num → Num
  | fin x => fin (Real.sin x)
  | _ => nan

noncomputable instance : Arith Num where
  lit q := fin (q : ℝ)
  sqrt := sqrt
  lt := lt

end Num

/-- `roundf` on a finite number: to the nearest integer, halves away from zero. -/
noncomputable def roundf (x : ℝ) : ℤ := if 0 ≤ x then ⌊x + 1 / 2⌋ else -⌊-x + 1 / 2⌋

end Moovr
