import Verif.Spec.GCodeRun
import Verif.Lemmas.GCodeSettings
/-!
# A program in inches written in millimetres
-/
namespace Moovr.GCode

/-- Millimetres per inch. -/
def inch : ℚ := 254 / 10

/-- Letters whose values are lengths. -/
def lengthLetters : List Char := ['X', 'Y', 'Z', 'I', 'J', 'K', 'R']

/-- The word with the value in millimetres: lengths are multiplied, and so is the feed rate if it is a speed (G94) and not an
inverse time (G93). G20 is replaced by G21. -/
def metricWord (feed : FeedMode) (w : Word) : Word :=
  if (∃ c ∈ lengthLetters, WithLetter c w) ∨ (WithLetter 'F' w ∧ feed = .G94) then { w with number := w.number * inch }
  else if Code 'G' 200 w then { w with number := 21, intNumber := 210 } else w

/-- The value kept for a letter, in millimetres. -/
def metricValue (feed : FeedMode) (l : Letter) (x : ℚ) : ℚ :=
  match l with
  | .X | .Y | .Z | .I | .J | .K | .R => x * inch
  | .F => if feed = .G94 then x * inch else x
  | _ => x

/-- The state in millimetres. -/
def metricState (s : State) : State :=
  { s with
    modal := { s.modal with unit := .G21 }
    letterValue := fun l => metricValue s.modal.feedRate l (s.letterValue l) }

/-- The parser with state and block in millimetres; `feed` is the feed mode of the block. -/
def metric (feed : FeedMode) (p : Parser) : Parser :=
  { p with block := { p.block with words := p.block.words.map (metricWord feed) }, state := metricState p.state }

/-- The feed mode after a block with the given words. -/
def feedAfter (ws : List Word) (old : FeedMode) : FeedMode :=
  if HasCode ws 'G' 930 then .G93 else if HasCode ws 'G' 940 then .G94 else old

/-- A program in inches rewritten in millimetres. -/
def metricProgram : FeedMode → List (List Word) → List (List Word)
  | _, [] => []
  | old, ws :: bs => ws.map (metricWord (feedAfter ws old)) :: metricProgram (feedAfter ws old) bs

/-- Executing a program, a call for every block. The log has the parser and motion after every call. -/
inductive Program : State → SimplifiedMotion → List (List Word) → List (Parser × SimplifiedMotion) → Prop
  | done {s m} : Program s m [] []
  | block {s m ws bs m' log} {p p' : Parser} : p.block = ofWords ws → p.state = s → p.parseBlock m = .ok (p', m') →
      Program p'.state m' bs log → Program s m (ws :: bs) ((p', m') :: log)

end Moovr.GCode
