import Mathlib.Data.Rat.Defs
import Mathlib.Algebra.Order.Ring.Rat
import Mathlib.Algebra.Order.Ring.Unbundled.Rat
/-!
# Model of `gCodeBlock`

`lib/gcode/gcodeblock.{h,cpp}`, `lib/gcode/gcodeword.h`, `lib/gcode/gcodeletter.h` and `lib/gcode/gcodemodalgroup.h`.

Bytes are numbers below 256; a string is the list of its bytes before the terminating NUL. Every write to an array is checked
against the size of the array; a write outside is the outcome `Fault`. The value of a number is exact (`strtod` rounds to a
`double`; the rounding is not modelled), and so is its product with 10.
-/
namespace Moovr

/-- Undefined behaviour of the G-code interpreter. -/
inductive Fault where
  /-- write outside `gCodeLine[256]` -/
  | lineOverrun
  /-- write outside `number[16]` -/
  | numberOverrun
  /-- write outside `gCodeWords[16]` -/
  | wordsOverrun
  /-- conversion of a value outside the range of `uint32_t` -/
  | conversion
  /-- read outside an array with `nmbrAxis` elements -/
  | axisOutOfBounds
  deriving DecidableEq, Repr

/-- `gCodeWord` — gcodeword.h:11-22. -/
structure Word where
  letter : Nat
  number : ℚ
  intNumber : Nat
  deriving DecidableEq, Repr

instance : Inhabited Word := ⟨⟨0, 0, 0⟩⟩

/-- `enum class modalGroup` — gcodemodalgroup.h:11-30. -/
inductive ModalGroup where
  | group0 | motion | plane | distance | spindle | unit | feedRate | coordinateSet | coolantFlood | coolantMist
  | manualOverride
  deriving DecidableEq, Repr

/-- All modal groups, in the order of the `enum`. -/
def ModalGroup.all : List ModalGroup :=
  [.group0, .motion, .plane, .distance, .spindle, .unit, .feedRate, .coordinateSet, .coolantFlood, .coolantMist,
    .manualOverride]

/-- `enum class gCodeLetter` — gcodeletter.h:11-35. -/
inductive Letter where
  | X | Y | Z | I | J | K | L | F | N | P | R | S | T
  deriving DecidableEq, Repr

/-- All letters, in the order of the `enum`. -/
def Letter.all : List Letter := [.X, .Y, .Z, .I, .J, .K, .L, .F, .N, .P, .R, .S, .T]

/-- The letters for which words are counted — the `case` labels of gcodeblock.cpp:222-272 (`T` is not among them). -/
def Letter.ofChar (c : Nat) : Option Letter :=
  if c = 'F'.toNat then some .F
  else if c = 'L'.toNat then some .L
  else if c = 'N'.toNat then some .N
  else if c = 'P'.toNat then some .P
  else if c = 'R'.toNat then some .R
  else if c = 'S'.toNat then some .S
  else if c = 'X'.toNat then some .X
  else if c = 'Y'.toNat then some .Y
  else if c = 'Z'.toNat then some .Z
  else if c = 'I'.toNat then some .I
  else if c = 'J'.toNat then some .J
  else if c = 'K'.toNat then some .K
  else none

/-- `gCodeBlock` — gcodeblock.h:14-52, without `gCodeLine`, which is only used while reading a line. `words` are the first
`nmbrWords` elements of `gCodeWords`; the others are never read. -/
structure Block where
  words : List Word
  modalGroupCount : ModalGroup → Nat
  valueWordCount : Letter → Nat
  nmbrAxis : Nat
  nmbrOffsets : Nat
  nmbrRadius : Nat

/-- Sizes of the arrays — gcodeblock.h:18, :47, gcodeblock.cpp:32. -/
def maxWords : Nat := 16
def lineSize : Nat := 256
def numberSize : Nat := 16

/-- `'A' <= c && 'Z' >= c` — gcodeblock.cpp:77, :86. -/
def isLetter (c : Nat) : Bool := decide ('A'.toNat ≤ c) && decide (c ≤ 'Z'.toNat)

/-! ## `strtod`

The number text contains no letters, so there are no exponents, hexadecimal numbers, infinities or NaNs. -/

def isDigit (c : Nat) : Bool := decide ('0'.toNat ≤ c) && decide (c ≤ '9'.toNat)

/-- `isspace` -/
def isSpace (c : Nat) : Bool := decide (c = 32) || (decide (9 ≤ c) && decide (c ≤ 13))

/-- The value of a sequence of decimal digits. -/
def digitsValue (t : List Nat) : Nat := t.foldl (fun a c => 10 * a + (c - '0'.toNat)) 0

/-- The unsigned number at the start of a text: digits, optionally a point and more digits; 0 if there are no digits. -/
def unsignedValue (t : List Nat) : ℚ :=
  let int := t.takeWhile isDigit
  match t.dropWhile isDigit with
  | c :: rest =>
    if c = '.'.toNat then
      let frac := rest.takeWhile isDigit
      (digitsValue (int ++ frac) : ℚ) / 10 ^ frac.length
    else digitsValue int
  | [] => digitsValue int

/-- `strtod` (C standard library) for a text without letters. -/
def strtod (t : List Nat) : ℚ :=
  match t.dropWhile isSpace with
  | c :: rest =>
    if c = '-'.toNat then -unsignedValue rest
    else if c = '+'.toNat then unsignedValue rest
    else unsignedValue (c :: rest)
  | [] => 0

/-- Conversion of a `double` to `uint32_t`: truncation, undefined if the result does not fit. -/
def toUInt32 (x : ℚ) : Except Fault Nat :=
  if -1 < x ∧ x < 2 ^ 32 then .ok x.floor.toNat else .error .conversion

namespace Block

/-- `initialize` — gcodeblock.cpp:12-25. -/
def empty : Block := ⟨[], fun _ => 0, fun _ => 0, 0, 0, 0⟩

/-- The modal groups counted for a word — the `case` labels of gcodeblock.cpp:151-219. -/
def groupsOf (w : Word) : List ModalGroup :=
  if w.letter = 'G'.toNat then
    if w.intNumber ∈ [0, 10, 20, 30] then [.motion]
    else if w.intNumber ∈ [170, 180, 190] then [.plane]
    else if w.intNumber ∈ [900, 910] then [.distance]
    else if w.intNumber ∈ [200, 210] then [.unit]
    else if w.intNumber ∈ [930, 940] then [.feedRate]
    else if w.intNumber ∈ [540, 550, 560, 570, 580, 590] then [.coordinateSet]
    else if w.intNumber = 40 then [.motion, .group0]
    else if w.intNumber ∈ [100, 280, 300] then [.group0]
    else if w.intNumber = 530 then [.coordinateSet, .group0]
    else []
  else if w.letter = 'M'.toNat then
    if w.intNumber ∈ [30, 40, 50] then [.spindle]
    else if w.intNumber = 70 then [.coolantMist]
    else if w.intNumber = 80 then [.coolantFlood]
    else if w.intNumber = 90 then [.coolantFlood, .coolantMist]
    else []
  else []

/-- `countModalGroupAndOthers` — gcodeblock.cpp:150-275. The counters have 8 bits; there are at most 16 words. -/
def countWord (b : Block) (w : Word) : Block :=
  let l := if w.letter = 'G'.toNat ∨ w.letter = 'M'.toNat then none else Letter.ofChar w.letter
  { b with
    modalGroupCount := fun g => b.modalGroupCount g + (groupsOf w).count g
    valueWordCount := fun x => b.valueWordCount x + if l = some x then 1 else 0
    nmbrAxis := b.nmbrAxis + if l = some .X ∨ l = some .Y ∨ l = some .Z then 1 else 0
    nmbrOffsets := b.nmbrOffsets + if l = some .I ∨ l = some .J ∨ l = some .K then 1 else 0
    nmbrRadius := b.nmbrRadius + if l = some .R then 1 else 0 }

/-- Stripping blanks and comments — gcodeblock.cpp:38-71. `line` is what has been written to `gCodeLine`. -/
def strip (inComment : Bool) (line : List Nat) : List Nat → Except Fault (List Nat)
  | [] => if line.length < lineSize then .ok line else .error .lineOverrun
  | c :: text =>
    if c = 0 then if line.length < lineSize then .ok line else .error .lineOverrun
    else if c = '\n'.toNat then if line.length < lineSize then .ok line else .error .lineOverrun
    else if c = '('.toNat then strip true line text
    else if c = ')'.toNat then strip false line text
    else if c = ' '.toNat ∨ c = '\t'.toNat then strip inComment line text
    else if inComment then strip inComment line text
    else
      let c := if 'a'.toNat ≤ c ∧ c ≤ 'z'.toNat then c - ('a'.toNat - 'A'.toNat) else c
      if line.length < lineSize then strip inComment (line ++ [c]) text else .error .lineOverrun

/-- Isolating the number text after a letter — gcodeblock.cpp:86-91. Returns the text and the rest of the line. -/
def readNumber (number : List Nat) : List Nat → Except Fault (List Nat × List Nat)
  | [] => if number.length < numberSize then .ok (number, []) else .error .numberOverrun
  | c :: line =>
    if number.length < 15 ∧ ¬ isLetter c then
      if number.length < numberSize then readNumber (number ++ [c]) line else .error .numberOverrun
    else if number.length < numberSize then .ok (number, c :: line) else .error .numberOverrun

/-- `intNumber` of a word — gcodeblock.cpp:95-99. -/
def intNumberOf (letter : Nat) (number : ℚ) : Except Fault Nat :=
  if letter = 'G'.toNat ∨ letter = 'M'.toNat then toUInt32 (number * 10) else .ok 0

/-- Reading the words of a line — gcodeblock.cpp:73-104. Each round consumes at least one character, so the length of the line
is enough fuel. -/
def readWords : Nat → List Nat → Block → Except Fault Block
  | 0, _, b => .ok b
  | _ + 1, [], b => .ok b
  | fuel + 1, c :: line, b =>
    if b.words.length < maxWords then
      if ¬ isLetter c then readWords fuel line b
      else
        if b.words.length < 16 then
          match readNumber [] line with
          | .error e => .error e
          | .ok (text, rest) =>
            match intNumberOf c (strtod text) with
            | .error e => .error e
            | .ok k =>
              let w : Word := ⟨c, strtod text, k⟩
              readWords fuel rest { b.countWord w with words := b.words ++ [w] }
        else .error .wordsOverrun
    else .ok b

/-- `getBlockFromString` — gcodeblock.cpp:27-105. -/
def ofString (text : List Nat) : Except Fault Block :=
  match strip false [] text with
  | .error e => .error e
  | .ok line => readWords line.length line empty

/-- `hasWords` — gcodeblock.cpp:115-117. -/
def hasWords (b : Block) : Bool := decide (0 < b.words.length)

/-- `searchWord(letter, intNumber)` — gcodeblock.cpp:119-126; `none` is -1. -/
def search2 (b : Block) (letter : Char) (intNumber : Nat) : Option Nat :=
  b.words.findIdx? fun w => decide (w.letter = letter.toNat) && decide (w.intNumber = intNumber)

/-- `searchWord(letter)` — gcodeblock.cpp:128-135. -/
def search (b : Block) (letter : Char) : Option Nat := b.words.findIdx? fun w => decide (w.letter = letter.toNat)

/-- `gCodeWords[i].number` -/
def number (b : Block) (i : Nat) : ℚ := (b.words.getD i default).number

/-- `removeWord` — gcodeblock.cpp:137-148: the last word takes the place of the removed one. -/
def removeWord (b : Block) (i : Nat) : Block :=
  if i < b.words.length then
    { b with
      words := if 1 < b.words.length then (b.words.set i (b.words.getLastD default)).dropLast else b.words.dropLast }
  else b

/-- `hasModalGroupViolation` — gcodeblock.cpp:277-284. -/
def hasModalGroupViolation (b : Block) : Bool := ModalGroup.all.any fun g => decide (1 < b.modalGroupCount g)

/-- `hasLetterWordViolation` — gcodeblock.cpp:286-293. -/
def hasLetterWordViolation (b : Block) : Bool := Letter.all.any fun l => decide (1 < b.valueWordCount l)

/-- `hasAxis`, `hasOffset`, `hasRadius` — gcodeblock.cpp:295-305. -/
def hasAxis (b : Block) : Bool := decide (0 < b.nmbrAxis)
def hasOffset (b : Block) : Bool := decide (0 < b.nmbrOffsets)
def hasRadius (b : Block) : Bool := decide (0 < b.nmbrRadius)

end Block
end Moovr
