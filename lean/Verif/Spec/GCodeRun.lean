import Verif.Spec.GCodeWords
/-!
# Executions of the G-code interpreter and connected motions
-/
namespace Moovr.GCode
open Num

/-- An execution: lines are read and `parseBlock` is called, in any order. The log has for every call the parser before and after
it and the motion. -/
inductive Run (p₀ : Parser) (m₀ : SimplifiedMotion) : List (Parser × Parser × SimplifiedMotion) → Parser → SimplifiedMotion → Prop
  | start : Run p₀ m₀ [] p₀ m₀
  | line {log p m p'} (text : List Nat) : Run p₀ m₀ log p m → p.getBlock text = .ok p' → Run p₀ m₀ log p' m
  | parse {log p m p' m'} : Run p₀ m₀ log p m → p.parseBlock m = .ok (p', m') → Run p₀ m₀ (log ++ [(p, p', m')]) p' m'

/-- "Motion available". -/
def Reported (r : Result) : Prop := r = .okContextUpdateAndMotion ∨ r = .warningContextUpdateAndMotion

instance (r : Result) : Decidable (Reported r) := by unfold Reported; infer_instance

/-- The motions that are handed to the motion controller. -/
def handed (log : List (Parser × Parser × SimplifiedMotion)) : List SimplifiedMotion :=
  (log.filter fun e => decide (Reported e.2.1.result)).map fun e => e.2.2

/-- The end of a motion: only some types move. -/
noncomputable def endOf (m : SimplifiedMotion) (i : Nat) : Num :=
  if m.type.moves then m.trajectory.startPosition i + m.trajectory.delta i else m.trajectory.startPosition i

/-- The motions lead from `x` to `y`, each beginning where the one before ended. -/
def Connected : (Nat → Num) → List SimplifiedMotion → (Nat → Num) → Prop
  | x, [], y => ∀ i, i < 3 → x i = y i
  | x, m :: ms, y => (∀ i, i < 3 → m.trajectory.startPosition i = x i) ∧ Connected (endOf m) ms y

/-- A length in mm. -/
def mm (u : UnitMode) (x : ℚ) : ℚ := if u = .G20 then x * (254 / 10) else x

/-- The letter of an axis. -/
def axisChar : Nat → Char
  | 0 => 'X'
  | 1 => 'Y'
  | _ => 'Z'

/-- A call of `parseBlock` that made a movement (or prepared one): neither an error nor a dwell. -/
def Moved (p' : Parser) (m' : SimplifiedMotion) : Prop := p'.result ≠ .error ∧ m'.type.moves = true

end Moovr.GCode
