/-!
# Specification of step pulses

What the pins of one axis must show, tick by tick, given the step commands on that axis, tick by tick.
Independent of the register model.
-/
namespace Moovr.PulseSpec

/-- Direction of a step. -/
inductive Dir where
  | forward
  | backward
  deriving DecidableEq, Repr

/-- Level of the direction line: 0 = forward, 1 = backward. -/
def Dir.line : Dir → Bool
  | .forward => false
  | .backward => true

/-- A step command on an axis on a tick, if any. -/
abbrev Cmd := Option Dir

/-- The ticks at which a line rises, given its level before the first tick and on each tick. -/
def risingEdges (before : Bool) : List Bool → List Nat
  | [] => []
  | x :: xs => (if !before && x then [0] else []) ++ (risingEdges x xs).map (· + 1)

/-- The ticks with a command. -/
def commandTicks : List Cmd → List Nat
  | [] => []
  | c :: cs => (if c.isSome then [0] else []) ++ (commandTicks cs).map (· + 1)

/-- No two commands on consecutive ticks. -/
def Spaced : List Cmd → Prop
  | [] => True
  | [_] => True
  | c :: d :: cs => ¬ (c.isSome ∧ d.isSome) ∧ Spaced (d :: cs)

instance decidableSpaced : (cs : List Cmd) → Decidable (Spaced cs)
  | [] => isTrue trivial
  | [_] => isTrue trivial
  | _ :: d :: cs => @instDecidableAnd _ _ _ (decidableSpaced (d :: cs))

/-- The step line on each tick: high iff the axis was commanded on the previous tick (`prev` before the first one)
and is not commanded on this tick. -/
def stepLine (prev : Bool) : List Cmd → List Bool
  | [] => []
  | c :: cs => (prev && c.isNone) :: stepLine c.isSome cs

/-- The direction line on each tick: the direction of the latest command (`cur` before the first one). -/
def dirLine (cur : Bool) : List Cmd → List Bool
  | [] => []
  | c :: cs => let d := (c.map Dir.line).getD cur; d :: dirLine d cs

/-- Every entry lasts between one tick and `max 1 limit` ticks, and either changes the value or lasts `limit` ticks
or more. -/
def Justified {α : Type _} (limit : Nat) (last : α) : List (Nat × α) → Prop
  | [] => True
  | (t, x) :: rest => 1 ≤ t ∧ t ≤ max 1 limit ∧ (x ≠ last ∨ limit ≤ t) ∧ Justified limit x rest

/-- Expand run-length encoded entries `(time, value)`: hold the previous value for `time - 1` ticks, then switch.
`last` is the value before the first entry. -/
def expand {α : Type _} (last : α) : List (Nat × α) → List α
  | [] => []
  | (t, x) :: rest => List.replicate (t - 1) last ++ [x] ++ expand x rest

end Moovr.PulseSpec
