import Verif.Props.GCodeText
import Verif.Model.GCode
import Verif.Lemmas.Num
/-!
# The project's unit tests, run on the model: the G-code interpreter

The assertions of `/repo/test/native/test_gcode_parser`, checked on the model. They are tests of the model, not proofs about the code.
Feed, length and angles of these lines are real numbers; `Tests/Kinematics` and the examples of C50 and C51 - C53 look at them.
-/
namespace Moovr.Tests
open GCode GCode.Parser
open Props (codes)

/-- Reads a line into a fresh interpreter and interprets it. -/
noncomputable def parsed (t : String) : Except Fault (Parser × SimplifiedMotion) :=
  match Parser.reset.getBlock (codes t) with
  | .ok p => p.parseBlock (.fresh 3)
  | .error e => .error e

/-- What the tests look at, as far as it is decided without real numbers. -/
noncomputable def report (t : String) : Option (Result × ParseError × MotionType) :=
  (parsed t).toOption.map fun r => (r.1.result, r.1.error, r.2.type)

/-- The position after the line. -/
noncomputable def reached (t : String) : Option (ℚ × ℚ × ℚ) :=
  (parsed t).toOption.map fun r => (r.1.state.currentPosition 0, r.1.state.currentPosition 1, r.1.state.currentPosition 2)

/-- `reset` -/
example : Parser.reset.result = .emptyBlock ∧ Parser.reset.error = .none ∧ Parser.reset.state.currentPosition 0 = 0 ∧
    Parser.reset.block.words.length = 0 := by decide +kernel
example : report "G0 X10" = some (.okContextUpdateAndMotion, .none, .traverse) ∧
    (parsed "G0 X10").toOption.map (·.1.state.currentPosition 0) = some 10 := by decide +kernel

/-- `parseBlock`: the reports and the positions reached. -/
example : report "G0 X1" = some (.okContextUpdateAndMotion, .none, .traverse) ∧ reached "G0 X1" = some (1, 0, 0) := by
  decide +kernel
example : report "G1 X1 F60" = some (.okContextUpdateAndMotion, .none, .feedLinear) ∧ reached "G1 X1 F60" = some (1, 0, 0) := by
  decide +kernel
example : report "G2 X1 Y1 I1 J0 F120" = some (.okContextUpdateAndMotion, .none, .feedHelicalCW) ∧
    reached "G2 X1 Y1 I1 J0 F120" = some (1, 1, 0) := by decide +kernel
example : report "G3 X1 Y1 I0 J1 F240" = some (.okContextUpdateAndMotion, .none, .feedHelicalCCW) ∧
    reached "G3 X1 Y1 I0 J1 F240" = some (1, 1, 0) := by decide +kernel

/-- `detectModalGroupCollisions` -/
example : report "G0 G1" = some (.error, .modalGroupCollision, .none) ∧
    report "G2 G3" = some (.error, .modalGroupCollision, .none) := by decide +kernel

/-- `detectLetterValueCollisions` -/
example : report "G0 X0 X1 X2" = some (.error, .valueWordCollision, .none) := by decide +kernel

end Moovr.Tests
