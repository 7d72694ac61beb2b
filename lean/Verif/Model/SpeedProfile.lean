import Verif.Model.Num
/-!
# Model of `speedProfileAccDec` and `speedProfileCruise`

`lib/motion/speedprofileaccdec.{h,cpp}`, `lib/motion/speedprofilecruise.{h,cpp}`, for any number type with the operations
of `Arith`. For `toString` see `MotionText`, for `calcSpeed` see `Junction`.
-/
namespace Moovr

/-- `enum class speedProfileOrder` — lib/motion/speedprofileorder.h. -/
inductive Order where
  | firstOrder
  | secondOrder
  deriving DecidableEq, Repr

/-- Data members — speedprofileaccdec.h:29-47. -/
structure AccDec (F : Type) where
  vStart : F
  vEnd : F
  aMax : F
  dMax : F
  jMax : F
  dV1 : F
  s1 : F
  s2 : F
  s3 : F
  length : F
  d1d3 : F
  d2 : F
  duration : F

namespace AccDec
open Arith
variable {F : Type} [Add F] [Sub F] [Mul F] [Div F] [Neg F] [Arith F]

/-- Default constructor — speedprofileaccdec.cpp:15-16. -/
def zero : AccDec F :=
  ⟨lit 0, lit 0, lit 0, lit 0, lit 0, lit 0, lit 0, lit 0, lit 0, lit 0, lit 0, lit 0, lit 0⟩

/-- `setMax` — speedprofileaccdec.cpp:33-37. -/
def setMax (p : AccDec F) (a d j : F) : AccDec F := { p with aMax := a, dMax := d, jMax := j }

/-- `setvStart` — speedprofileaccdec.cpp:39-41. -/
def setvStart (p : AccDec F) (v : F) : AccDec F := { p with vStart := v }

/-- `setvEnd` — speedprofileaccdec.cpp:43-45. -/
def setvEnd (p : AccDec F) (v : F) : AccDec F := { p with vEnd := v }

/-- `calculate(firstOrder)` — speedprofileaccdec.cpp:50-65. -/
def calculateFirst (p : AccDec F) : AccDec F :=
  let d2 := if lt p.vStart p.vEnd then (p.vEnd - p.vStart) / p.aMax else (p.vEnd - p.vStart) / p.dMax
  let s2 := (p.vStart + p.vEnd) * d2 * lit (1 / 2)
  { p with d1d3 := lit 0, s1 := lit 0, s3 := lit 0, dV1 := lit 0, d2 := d2, s2 := s2, length := s2, duration := d2 }

/-- Final part of `calculate(secondOrder)` — speedprofileaccdec.cpp:103-104. -/
def finishSecond (p : AccDec F) : AccDec F :=
  { p with
    length := (p.vStart + p.vEnd) * (p.d1d3 + p.d2 + p.d1d3) * lit (1 / 2)
    duration := p.d1d3 + p.d2 + p.d1d3 }

/-- Accelerating branch of `calculate(secondOrder)` — speedprofileaccdec.cpp:69-85. -/
def calculateAcc (p : AccDec F) : AccDec F :=
  let d := p.aMax / p.jMax
  let p :=
    if lt (p.vEnd - p.vStart) (p.jMax * d * d) then
      let d := sqrt ((p.vEnd - p.vStart) / p.jMax)
      { p with d1d3 := d, aMax := p.jMax * d, d2 := lit 0 }
    else
      { p with d1d3 := d, d2 := ((p.vEnd - p.vStart) - (p.jMax * d * d)) / p.aMax }
  finishSecond { p with
    dV1 := p.jMax * p.d1d3 * p.d1d3 * lit (1 / 2)
    s1 := (p.vStart * p.d1d3) + p.jMax * p.d1d3 * p.d1d3 * p.d1d3 * lit (1 / 6)
    s2 := (p.vStart + p.vEnd) * p.d2 * lit (1 / 2)
    s3 := (p.vEnd * p.d1d3) - p.jMax * p.d1d3 * p.d1d3 * p.d1d3 * lit (1 / 6) }

/-- Decelerating branch of `calculate(secondOrder)` — speedprofileaccdec.cpp:86-102. -/
def calculateDec (p : AccDec F) : AccDec F :=
  let d := -p.dMax / p.jMax
  let p :=
    if lt (p.vStart - p.vEnd) (p.jMax * d * d) then
      let d := sqrt ((p.vStart - p.vEnd) / p.jMax)
      { p with d1d3 := d, dMax := -p.jMax * d, d2 := lit 0 }
    else
      { p with d1d3 := d, d2 := ((p.vEnd - p.vStart) + (p.jMax * d * d)) / p.dMax }
  finishSecond { p with
    dV1 := -p.jMax * p.d1d3 * p.d1d3 * lit (1 / 2)
    s1 := (p.vStart * p.d1d3) - p.jMax * p.d1d3 * p.d1d3 * p.d1d3 * lit (1 / 6)
    s2 := (p.vStart + p.vEnd) * p.d2 * lit (1 / 2)
    s3 := (p.vEnd * p.d1d3) + p.jMax * p.d1d3 * p.d1d3 * p.d1d3 * lit (1 / 6) }

/-- `calculate` — speedprofileaccdec.cpp:47-107. -/
def calculate (p : AccDec F) : Order → AccDec F
  | .firstOrder => p.calculateFirst
  | .secondOrder => if lt p.vStart p.vEnd then p.calculateAcc else p.calculateDec

/-- `a` — speedprofileaccdec.cpp:117-139. -/
def a (p : AccDec F) (t : F) : F :=
  if lt p.vStart p.vEnd then
    if lt t p.d1d3 then p.jMax * t
    else if lt (p.d1d3 + p.d2) t then p.jMax * ((p.d1d3 + p.d2 + p.d1d3) - t)
    else p.aMax
  else
    if lt t p.d1d3 then lit (-1) * (p.jMax * t)
    else if lt (p.d1d3 + p.d2) t then lit (-1) * (p.jMax * ((p.d1d3 + p.d2 + p.d1d3) - t))
    else p.dMax

/-- `v` — speedprofileaccdec.cpp:141-165. -/
def v (p : AccDec F) (t : F) : F :=
  if lt p.vStart p.vEnd then
    if lt t p.d1d3 then p.vStart + (p.jMax * t * t * lit (1 / 2))
    else if lt (p.d1d3 + p.d2) t then
      let tDelta := p.duration - t
      p.vEnd - (p.jMax * tDelta * tDelta * lit (1 / 2))
    else
      let tDelta := t - p.d1d3
      p.vStart + p.dV1 + (p.aMax * tDelta)
  else
    if lt t p.d1d3 then p.vStart - (p.jMax * t * t * lit (1 / 2))
    else if lt (p.d1d3 + p.d2) t then
      let tDelta := p.duration - t
      p.vEnd + (p.jMax * tDelta * tDelta * lit (1 / 2))
    else
      let tDelta := t - p.d1d3
      p.vStart + p.dV1 + (p.dMax * tDelta)

/-- `s` — speedprofileaccdec.cpp:167-191. -/
def s (p : AccDec F) (t : F) : F :=
  if lt p.vStart p.vEnd then
    if lt t p.d1d3 then (p.vStart * t) + (p.jMax * t * t * t * lit (1 / 6))
    else if lt (p.d1d3 + p.d2) t then
      let tDelta := p.duration - t
      p.length - ((p.vEnd * tDelta) - (p.jMax * tDelta * tDelta * tDelta * lit (1 / 6)))
    else
      let tDelta := t - p.d1d3
      p.s1 + ((p.vStart + p.dV1) * tDelta) + (p.aMax * tDelta * tDelta * lit (1 / 2))
  else
    if lt t p.d1d3 then (p.vStart * t) - (p.jMax * t * t * t * lit (1 / 6))
    else if lt (p.d1d3 + p.d2) t then
      let tDelta := p.duration - t
      p.length - ((p.vEnd * tDelta) + (p.jMax * tDelta * tDelta * tDelta * lit (1 / 6)))
    else
      let tDelta := t - p.d1d3
      p.s1 + ((p.vStart + p.dV1) * tDelta) + (p.dMax * tDelta * tDelta * lit (1 / 2))

end AccDec

/-- Data members — speedprofilecruise.h:18-20. -/
structure Cruise (F : Type) where
  vMid : F
  length : F
  duration : F

namespace Cruise
variable {F : Type} [Mul F] [Arith F]

/-- Constructor — speedprofilecruise.cpp:11-12. -/
def zero : Cruise F := ⟨Arith.lit 0, Arith.lit 0, Arith.lit 0⟩

/-- `set` — speedprofilecruise.cpp:14-16. -/
def set (c : Cruise F) (v : F) : Cruise F := { c with vMid := v }

/-- `a` — speedprofilecruise.cpp:18-20. -/
def a (_ : Cruise F) (_ : F) : F := Arith.lit 0

/-- `v` — speedprofilecruise.cpp:22-24. -/
def v (c : Cruise F) (_ : F) : F := c.vMid

/-- `s` — speedprofilecruise.cpp:26-28. -/
def s (c : Cruise F) (t : F) : F := c.vMid * t

end Cruise
end Moovr
