import Mathlib.Data.Rat.Defs
import Mathlib.Algebra.Order.Ring.Rat
import Mathlib.Algebra.Order.Ring.Unbundled.Rat
/-!
# Specification of G-code text

Written without reference to the model: what may be changed in a line without changing its meaning, and how words and decimal
numbers are written. Characters are their codes.
-/
namespace Moovr.GCodeText

/-- Whether a comment is open at the end of a text: there is an opening parenthesis without a closing one after it. -/
def CommentOpen (t : List Nat) : Prop := ∃ u v, t = u ++ '('.toNat :: v ∧ ')'.toNat ∉ v

/-- Changes of a line that do not change its meaning. -/
inductive Edit : List Nat → List Nat → Prop
  /-- adding a blank anywhere -/
  | space (u v : List Nat) : Edit (u ++ v) (u ++ ' '.toNat :: v)
  | tab (u v : List Nat) : Edit (u ++ v) (u ++ '\t'.toNat :: v)
  /-- writing a letter in lower case -/
  | lower (u v : List Nat) (c : Nat) (h : 'A'.toNat ≤ c ∧ c ≤ 'Z'.toNat) : Edit (u ++ c :: v) (u ++ (c + 32) :: v)
  /-- adding a comment where no comment is open -/
  | comment (u v t : List Nat) (h : ¬ CommentOpen u) (ht : ∀ c ∈ t, c ≠ ')'.toNat ∧ c ≠ '\n'.toNat ∧ c ≠ 0) :
      Edit (u ++ v) (u ++ '('.toNat :: t ++ ')'.toNat :: v)
  /-- changing anything after the end of the line -/
  | tail (u v w : List Nat) (e : Nat) (h : e = '\n'.toNat ∨ e = 0) : Edit (u ++ e :: v) (u ++ e :: w)

/-- Lines with the same meaning: related by any number of such changes in either direction. -/
inductive Same : List Nat → List Nat → Prop
  | edit {a b} : Edit a b → Same a b
  | refl (a) : Same a a
  | symm {a b} : Same a b → Same b a
  | trans {a b c} : Same a b → Same b c → Same a c

/-- A decimal number: sign, digits before the point, and, if there is a point, digits after it. -/
structure Numeral where
  neg : Bool
  int : List (Fin 10)
  frac : Option (List (Fin 10))

def digit (d : Fin 10) : Nat := '0'.toNat + d

/-- How it is written. -/
def Numeral.text (x : Numeral) : List Nat :=
  (if x.neg then ['-'.toNat] else []) ++ x.int.map digit ++
    match x.frac with
    | some f => '.'.toNat :: f.map digit
    | none => []

/-- The value of the digits before the point. -/
def intValue : List (Fin 10) → ℚ
  | [] => 0
  | d :: ds => d * 10 ^ ds.length + intValue ds

/-- The value of the digits after the point. -/
def fracValue : List (Fin 10) → ℚ
  | [] => 0
  | d :: ds => (d + fracValue ds) / 10

/-- Its value. -/
def Numeral.value (x : Numeral) : ℚ :=
  (if x.neg then -1 else 1) * (intValue x.int + fracValue (x.frac.getD []))

end Moovr.GCodeText
