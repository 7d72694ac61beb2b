import Verif.Model.MotionItem
/-!
# Specification: the text of a motion

What a text in memory is, what it should say about a requested motion, and when a text shows a number.
-/
namespace Moovr.TextSpec
open Num

/-- Memory `m'` is as `m`, but with the text `s` at address `out`, ended by a NUL; there is no other NUL in the text. -/
structure Wrote (m m' : Nat → Char) (out : Nat) (s : List Char) : Prop where
  chars : ∀ i (h : i < s.length), m' (out + i) = s[i]
  noNul : '\x00' ∉ s
  nul : m' (out + s.length) = '\x00'
  others : ∀ i, i < out ∨ out + s.length < i → m' i = m i

/-- The number written by some digits. -/
def number (l : List Char) : Nat := l.foldl (fun n c => n * 10 + (c.toNat - '0'.toNat)) 0

/-- The text `s` is a decimal number with six digits after the point, with the value `v`. -/
def Reads (s : List Char) (v : ℝ) : Prop :=
  ∃ sign whole frac, s = sign ++ (whole ++ '.' :: frac) ∧ whole ≠ [] ∧ frac.length = 6 ∧ (∀ c ∈ whole ++ frac, c.isDigit = true) ∧
    (sign = [] ∧ v = number whole + number frac / 10 ^ 6 ∨ sign = ['-'] ∧ v = -(number whole + number frac / 10 ^ 6))

/-- A part of a text: words, or a number. -/
inductive Part where
  | words (s : String)
  | number (x : Num)

/-- The text made of some parts, when numbers are written by `f`. -/
def render (f : Num → List Char) (ps : List Part) : List Char :=
  ps.flatMap fun
    | .words s => s.toList
    | .number x => f x

/-- A named quantity with its unit. -/
def quantity (name : String) (x : Num) (unit : String) : List Part := [.words name, .number x, .words unit]

/-- Some coordinates. -/
def coordinates (n : Nat) (x : Nat → Num) : List Part := (List.range n).flatMap fun i => [.number (x i), .words " "]

/-- A part of the speed profile in which the speed changes. -/
def ramp (a : AccDec Num) : List Part :=
  quantity "vStart   = " a.vStart " mm/s\n" ++ quantity "vEnd     = " a.vEnd " mm/s\n" ++
  quantity "aMax     = " a.aMax " mm/s^2\n" ++ quantity "dMax     = " a.dMax " mm/s^2\n" ++ quantity "jMax     = " a.jMax " mm/s^3\n" ++
  quantity "dV1      = " a.dV1 " mm/s\n" ++
  quantity "s1       = " a.s1 " mm\n" ++ quantity "s2       = " a.s2 " mm\n" ++ quantity "s3       = " a.s3 " mm\n" ++
  quantity "length   = " a.length " mm\n" ++
  quantity "d1d3     = " a.d1d3 " s\n" ++ quantity "d2       = " a.d2 " s\n" ++ quantity "duration = " a.duration " s\n"

/-- The speed profile. -/
def speeds (p : Profile) : List Part :=
  quantity "feedrate =  " p.vFeed "  mm/s\n" ++ quantity "duration =  " p.duration "  s\n" ++
  [.words "left part :\n"] ++ ramp p.left ++
  [.words "mid part :\n"] ++ quantity "vMid     = " p.mid.vMid " mm/s\n" ++ quantity "length   = " p.mid.length " mm\n" ++
  quantity "duration = " p.mid.duration " s\n" ++
  [.words "right part :\n"] ++ ramp p.right

/-- The path: of an arc, the end angle is the start angle and the angle travelled, `turn`. -/
noncomputable def pathOf (n : Nat) (r : SimplifiedMotion) (turn : Num) : List Part :=
  let t := r.trajectory
  match r.type with
  | .traverse | .feedLinear =>
    [.words " Linear Trajectory : \n", .words "  startPosition = "] ++ coordinates n t.startPosition ++
    [.words "mm\n", .words "  positionChange = "] ++ coordinates n t.delta ++
    [.words "mm\n"] ++ quantity "  length =  " t.length "  mm\n"
  | .feedHelicalCW | .feedHelicalCCW =>
    [.words " Helical Trajectory : \n", .words "  startPosition = "] ++ coordinates n t.startPosition ++
    [.words "mm\n"] ++ quantity "  arcCenter = " t.arcCenter0 " " ++ [.number t.arcCenter1, .words " mm\n"] ++
    quantity "  radius = " t.radius " mm, startAngle =  " ++ [.number t.startAngle] ++
    quantity " rad, endAngle =  " (t.startAngle + turn) " rad\n" ++ quantity "  length =  " t.length "  mm\n"
  | .pauseAndResume | .pause => [.words " Empty Trajectory : \n"]
  | .none => [.words " Unknown Trajectory : \n"]

/-- What the text of a motion should say, for the request `r` and the speed profile `p`. -/
noncomputable def describes (n : Nat) (r : SimplifiedMotion) (p : Profile) (turn : Num) : List Part :=
  [.words "motionType : "] ++ pathOf n r turn ++ speeds p ++ [.words "Peripheral  : \n"]

/-- A number that a `float` can have. -/
def IsFloat : Num → Prop
  | fin x => |x| < 2 ^ 128
  | _ => True

/-- All numbers in a text are such numbers. -/
def Floats (ps : List Part) : Prop := ∀ x, Part.number x ∈ ps → IsFloat x

end Moovr.TextSpec
