import Verif.Spec.GCodeRun
/-!
# Calling `parseBlock` while the block has words
-/
namespace Moovr.GCode

/-- Calls of `parseBlock` as long as there are words in the block. The log has the parser and motion after every call. -/
inductive Calls (p : Parser) (m : SimplifiedMotion) : List (Parser × SimplifiedMotion) → Parser → SimplifiedMotion → Prop
  | start : Calls p m [] p m
  | call {log q n q' n'} : Calls p m log q n → q.block.words ≠ [] → q.parseBlock n = .ok (q', n') →
      Calls p m (log ++ [(q', n')]) q' n'

/-- The number of motions made available. -/
def motions (log : List (Parser × SimplifiedMotion)) : Nat := log.countP fun e => decide (Reported e.1.result)

/-- A word that makes a setting or gives a value, in its range. -/
def Setting (w : Word) : Prop :=
  (∃ c ∈ ['X', 'Y', 'Z', 'I', 'J', 'K', 'R'], WithLetter c w) ∨ (WithLetter 'F' w ∧ 0 < w.number) ∨
  (WithLetter 'S' w ∧ 0 ≤ w.number) ∨ (WithLetter 'N' w ∧ 0 ≤ w.number) ∨ InGroup planeGroup w ∨ InGroup unitGroup w ∨
  InGroup coordGroup w ∨ InGroup distanceGroup w ∨ InGroup spindleGroup w ∨ InGroup floodGroup w ∨ InGroup mistGroup w ∨
  InGroup overrideGroup w

instance : DecidablePred Setting := fun w => by unfold Setting; infer_instance

/-- A block of settings and a motion: a line number only at the beginning, at most one override and one coordinate system. -/
structure Plain (ws : List Word) : Prop where
  words : ∀ w ∈ ws, Setting w ∨ InGroup motionGroup w
  line : ∀ w ∈ ws.tail, ¬ WithLetter 'N' w
  override : ¬ Twice (InGroup overrideGroup) ws
  coords : ¬ Twice (InGroup coordGroup) ws

end Moovr.GCode
