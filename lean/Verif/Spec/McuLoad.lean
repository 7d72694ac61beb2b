import Verif.Model.McuLoad
/-!
# Specification of the load meter

Functions of the calls made so far (oldest first).
-/
namespace Moovr.LoadSpec
open McuLoad

/-- What the timer said at each call of `run`. -/
def runs (h : List Call) : List Bool := h.filterMap fun | .run e => some e | _ => none

/-- The numbers of passes of the main loop in the completed intervals of the timer: the lengths of the stretches between expiries
(`n` passes have been made before). -/
def intervals : Nat → List Bool → List Nat
  | _, [] => []
  | n, true :: l => n :: intervals 0 l
  | n, false :: l => intervals (n + 1) l

/-- The calls up to the last reading of the high-water mark. -/
def upToRead (h : List Call) : List Call := (h.reverse.dropWhile (· ≠ .getMaxLoad)).reverse

/-- The intervals that were completed since the high-water mark was last read. -/
def recent (h : List Call) : List Nat := (intervals 0 (runs h)).drop (intervals 0 (runs (upToRead h))).length

/-- The value read by a call after the calls `h`: the share of the last completed interval; or the highest one since the mark was read. -/
def Answers {α : Type} [LinearOrder α] (share : Nat → α) (zero : α) (h : List Call) : Call → Option α → Prop
  | .run _, r => r = none
  | .getLoad, r => r = some (((intervals 0 (runs h)).getLast?.map share).getD zero)
  | .getMaxLoad, r => ∃ v, r = some v ∧ (v = zero ∨ ∃ n ∈ recent h, v = share n) ∧ zero ≤ v ∧ ∀ n ∈ recent h, share n ≤ v

end Moovr.LoadSpec
