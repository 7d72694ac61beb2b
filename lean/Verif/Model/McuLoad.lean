import Verif.Model.U32
import Mathlib.Order.Defs.LinearOrder
/-!
# Model of `mcuLoad`

`lib_target/cnc3axis/general/mcuload.{h,cpp}`. The quotient `10000.0f / (float)loopCounter` is left open: `share n` in an arbitrary
linear order (it is never NaN: for `n = 0` it is infinite). Whether the timer has expired is an input.
-/
namespace Moovr

/-- Data members — mcuload.h:22-24. -/
structure McuLoad (α : Type) where
  loopCounter : Nat
  load : α
  maxLoad : α

namespace McuLoad
variable {α : Type} [LinearOrder α]

/-- A call, with what the timer says. -/
inductive Call where
  | run (expired : Bool)
  | getLoad
  | getMaxLoad
  deriving DecidableEq, Repr

/-- Initial values — mcuload.h:22-24; `zero` is 0.0F. `start` — mcuload.cpp:4-6 — only starts the timer. -/
def fresh (zero : α) : McuLoad α := ⟨0, zero, zero⟩

/-- `run` — mcuload.cpp:8-18. -/
def run (share : Nat → α) (m : McuLoad α) (expired : Bool) : McuLoad α :=
  if expired then
    let load := share m.loopCounter
    { loopCounter := 0, load := load, maxLoad := if load > m.maxLoad then load else m.maxLoad }
  else { m with loopCounter := u32add m.loopCounter 1 }

/-- `getLoad` — mcuload.cpp:20-22. -/
def getLoad (m : McuLoad α) : α := m.load

/-- `getMaxLoad` — mcuload.cpp:24-28. -/
def getMaxLoad (zero : α) (m : McuLoad α) : McuLoad α × α := ({ m with maxLoad := zero }, m.maxLoad)

/-- One call; what it returns. -/
def call (share : Nat → α) (zero : α) (m : McuLoad α) : Call → McuLoad α × Option α
  | .run expired => (m.run share expired, none)
  | .getLoad => (m, some m.getLoad)
  | .getMaxLoad => let r := m.getMaxLoad zero; (r.1, some r.2)

/-- A sequence of calls; what they return. -/
def calls (share : Nat → α) (zero : α) (m : McuLoad α) : List Call → List (Option α)
  | [] => []
  | c :: cs => let r := m.call share zero c; r.2 :: calls share zero r.1 cs

end McuLoad
end Moovr
