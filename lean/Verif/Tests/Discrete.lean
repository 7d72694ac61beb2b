import Verif.Model.EventBuffer
import Verif.Model.StepBuffer
import Verif.Model.StepSignals
import Verif.Model.MotionCtrl
import Verif.Model.GCodeBlock
import Verif.Props.GCodeText
/-!
# The project's unit tests, run on the model: buffers, step signals, G-code blocks

The assertions of `/repo/test/native/test_eventbuffer`, `test_step_buffer`, `test_step_signals`, `test_sampletime`,
`test_motion_buffer` and `test_gcode_block`, evaluated on the model by Lean's kernel. They are tests of the model, not proofs about the
code: they show that the model computes what the authors of the code say it computes. The names of the examples are those of
the test functions.
-/
namespace Moovr.Tests

/-! ## test_eventbuffer -/
section
open EventBuffer

/-- `initialization` -/
example : init.head = 0 ∧ init.level = 0 ∧ init.levelMax = 0 ∧ init.getLevelMax.2 = 0 ∧ init.hasEvents = false := by decide

/-- `ignoreEventNone` -/
example : (init.pushEvent .none).hasEvents = false := by decide

/-- `pushPop` -/
example :
    let b := init.pushEvent .allMotionsCompleted
    let c := b.popEvent.1
    b.head = 0 ∧ b.level = 1 ∧ b.levelMax = 1 ∧ b.hasEvents = true ∧ c.head = 1 ∧ c.level = 0 ∧ c.levelMax = 1 := by decide

/-- `boundariesUnderflow` -/
example :
    let r := init.popEvent
    r.1.head = 0 ∧ r.1.level = 0 ∧ r.1.levelMax = 0 ∧ r.2 = .none ∧ r.1.getLastError.2 = .eventBufferUnderflow := by decide

/-- `boundariesOverflow` -/
example :
    let b := (List.range EventBuffer.length).foldl (fun b _ => b.pushEvent .allMotionsCompleted) init
    let c := b.pushEvent .allMotionsCompleted
    b.head = 0 ∧ b.level = EventBuffer.length ∧ b.levelMax = EventBuffer.length ∧
      c.head = 0 ∧ c.level = EventBuffer.length ∧ c.levelMax = EventBuffer.length ∧
      c.getLastError.2 = .eventBufferOverflow := by decide +kernel

/-- `test_initialize` -/
example :
    let b := (init.pushEvent .allMotionsCompleted).popEvent.1.doInitialize
    b.head = 0 ∧ b.level = 0 ∧ b.levelMax = 0 ∧ b.getLevelMax.2 = 0 ∧ b.hasEvents = false := by decide
end

/-! ## test_step_buffer -/
section
open StepBuffer

/-- `stepBuffer(100U, 4U)` before the loop of the constructor; the cells hold anything. -/
def raw (times : Nat → Nat) (sigs : Nat → BitVec 32) : StepBuffer := ⟨times, sigs, 0, 0, 0, 100, 4, .none⟩

/-- `stepBuffer(100U, 4U)` after the constructor: four writes. -/
def built (times : Nat → Nat) (sigs : Nat → BitVec 32) : StepBuffer :=
  ((((raw times sigs).write ⟨25, 0⟩).write ⟨25, 0⟩).write ⟨25, 0⟩).write ⟨25, 0⟩

theorem built_returns (times sigs) : InitReturns (raw times sigs) (built times sigs) :=
  ⟨4, by simp [initLoop, raw, built, reset, needsFilling, write, u32add, StepBuffer.length]⟩

/-- `initialization` -/
example (times sigs) :
    let b := built times sigs
    b.head = 0 ∧ 4 ≤ b.level ∧ 100 ≤ b.totalTime ∧ b.needsFilling = false := by
  simp [raw, built, needsFilling, write, u32add, StepBuffer.length]

/-- `read_write` -/
example (times sigs) :
    let b := built times sigs
    let c := b.write ⟨500, 0⟩
    let r := c.read
    c.head = 0 ∧ c.totalTime = b.totalTime + 500 ∧ c.level = b.level + 1 ∧
      r.1.head = 1 ∧ r.1.totalTime = b.totalTime + 500 - r.2.timeBefore ∧ r.1.level = b.level := by
  simp [raw, built, StepBuffer.read, write, u32add, u32sub, StepBuffer.length]

/-- `indexWrapping` (the cells hold 0) -/
example :
    let b := built (fun _ => 0) (fun _ => 0)
    let c := (List.range StepBuffer.length).foldl (fun b _ => (b.write ⟨1, 0⟩).read.1) b
    c.level = b.level ∧ c.head = b.head := by decide +kernel

/-- `needsFilling` -/
example :
    let drain := fun b : StepBuffer => (List.range b.level).foldl (fun b _ => b.read.1) b
    let b := drain (built (fun _ => 0) (fun _ => 0))
    let c := fun n : Nat => (List.range n).foldl (fun b _ => b.write ⟨0, 0⟩) b
    let d := drain (c 5)
    let e := fun n : Nat => (List.range n).foldl (fun b _ => b.write ⟨100, 0⟩) d
    b.level = 0 ∧ (c 1).needsFilling ∧ (c 2).needsFilling ∧ (c 3).needsFilling ∧ (c 4).needsFilling ∧ (c 5).needsFilling ∧
      (c 5).level = 5 ∧ d.level = 0 ∧ (e 1).needsFilling ∧ (e 2).needsFilling ∧ (e 3).needsFilling ∧
      (e 4).needsFilling = false := by decide +kernel

/-- `underflow` -/
example :
    let b := (List.range 4).foldl (fun b _ => b.read.1) (built (fun _ => 0) (fun _ => 0))
    let c := b.read.1
    b.level = 0 ∧ b.getLastError.2 = .none ∧ c.getLastError.2 = .stepBufferUnderflow ∧
      c.getLastError.1.getLastError.2 = .none := by decide +kernel

/-- `overflow` -/
example :
    let b := (List.range 252).foldl (fun b _ => b.write ⟨10, 10⟩) (built (fun _ => 0) (fun _ => 0))
    let c := b.write ⟨10, 10⟩
    b.level = StepBuffer.length ∧ b.getLastError.2 = .none ∧ c.getLastError.2 = .stepBufferOverflow ∧
      c.getLastError.1.getLastError.2 = .none := by decide +kernel
end

/-! ## test_step_signals (`nmbrAxis` of the test target is 3) -/
section
open StepSignals

/-- `initialization` -/
example :
    let s := init.setMaxTicksSinceLastOutput 10
    s.dirSetup = 0 ∧ s.stepRise = 0 ∧ s.stepFall = 0 ∧ s.lastOutput = 0 ∧ s.ticksSinceLastOutput = 0 ∧
      s.isModified = false ∧ s.isTimedOut = false := by decide

/-- `stepForward` -/
example :
    let s := init.stepForward 3 0
    s.dirSetup = 0b00 ∧ s.stepRise = 0b01 ∧ s.stepFall = 0b00 := by decide

/-- `stepForwardMultipleAxis` -/
example :
    let s := ((init.stepForward 3 0).stepForward 3 1).stepForward 3 2
    s.dirSetup = 0 ∧ s.stepRise = 0b00010101 ∧ s.stepFall = 0 := by decide

/-- `stepBackward` -/
example :
    let s := init.stepBackward 3 0
    s.dirSetup = 0b10 ∧ s.stepRise = 0b11 ∧ s.stepFall = 0b10 := by decide

/-- `stepBackwardMultipleAxis` -/
example :
    let s := ((init.stepBackward 3 0).stepBackward 3 1).stepBackward 3 2
    s.dirSetup = 0b00101010 ∧ s.stepRise = 0b00111111 ∧ s.stepFall = 0b00101010 := by decide

/-- `shifting` -/
example :
    let s := { init with dirSetup := 1, stepRise := 2, stepFall := 3 }
    let a := s.next
    let b := a.next
    a.dirSetup = 2 ∧ a.stepRise = 3 ∧ a.stepFall = 3 ∧ b.dirSetup = 3 ∧ b.stepRise = 3 ∧ b.stepFall = 3 := by decide

/-- `isModified` -/
example :
    let a := { init with stepRise := 2, stepFall := 3 }
    let b := { a with dirSetup := 1 }
    init.isModified = false ∧ a.isModified = false ∧ b.isModified = true ∧ b.output.1.isModified = false := by decide

/-- `isTimedOut` -/
example :
    let a := (init.setMaxTicksSinceLastOutput 4).next.next.next
    a.isTimedOut = false ∧ a.next.isTimedOut = true := by decide

/-- `boundsCheck` -/
example :
    let a := init.stepForward 3 4
    let b := init.stepBackward 3 4
    a.dirSetup = 0 ∧ a.stepRise = 0 ∧ a.stepFall = 0 ∧ b.dirSetup = 0 ∧ b.stepRise = 0 ∧ b.stepFall = 0 := by decide
end

/-! ## test_sampletime, test_motion_buffer (for every kit) -/
section
variable (K : MotionKit)

/-- `initialization` -/
example (w : K.Time) :
    let t := (SampleTime.fresh K).setMinStepPulseWidth w
    t.sampleIndex = 0 ∧ t.sampleZeroOffset = K.zero ∧ t.minStepPulseWidth = w := ⟨rfl, rfl, rfl⟩

/-- `next` -/
example :
    let t := SampleTime.fresh K
    t.next.sampleIndex = 1 ∧ t.next.next.sampleIndex = 2 ∧ t.next.next.next.sampleIndex = 3 ∧
      t.next.next.next.reinit.sampleIndex = 0 := ⟨rfl, rfl, rfl, rfl⟩

/-- `initialization` -/
example :
    let b := MotionBuffer.fresh K
    b.head = 0 ∧ b.level = 0 ∧ b.isEmpty = true ∧ b.isFull = false := ⟨rfl, rfl, rfl, rfl⟩

/-- Pushing `i` times. -/
def pushed (K : MotionKit) : Nat → MotionBuffer K
  | 0 => .fresh K
  | i + 1 => (pushed K i).push.1

/-- Popping `i` times. -/
def popped {K : MotionKit} (b : MotionBuffer K) : Nat → MotionBuffer K
  | 0 => b
  | i + 1 => (popped b i).pop

theorem pushed_eq (i : Nat) (h : i ≤ 32) :
    (pushed K i).head = 0 ∧ (pushed K i).level = i := by
  induction i with
  | zero => exact ⟨rfl, rfl⟩
  | succ i ih =>
    obtain ⟨a, b⟩ := ih (by omega)
    refine ⟨a, ?_⟩
    show u32add (pushed K i).level 1 = i + 1
    rw [b]; unfold u32add; omega

theorem popped_eq (i : Nat) (h : i ≤ 32) :
    (popped (pushed K 32) i).head = i % 32 ∧ (popped (pushed K 32) i).level = 32 - i := by
  induction i with
  | zero => exact pushed_eq K 32 (by omega)
  | succ i ih =>
    obtain ⟨a, b⟩ := ih (by omega)
    refine ⟨?_, ?_⟩
    · show ((popped (pushed K 32) i).head + 1) % 32 = _
      rw [a]; omega
    · show u32sub (popped (pushed K 32) i).level 1 = _
      rw [b]; unfold u32sub; omega

/-- `pushAndPop`: pushing -/
example (i : Nat) (h : i < 32) :
    (pushed K i).push.2 = i ∧ (pushed K (i + 1)).level = i + 1 ∧ (pushed K (i + 1)).isEmpty = false ∧
      (pushed K (i + 1)).head = 0 ∧ (pushed K 32).isFull = true := by
  have a := pushed_eq K i (by omega)
  have b := pushed_eq K (i + 1) (by omega)
  have c := pushed_eq K 32 (by omega)
  refine ⟨?_, b.2, ?_, b.1, ?_⟩
  · show ((pushed K i).head + (pushed K i).level) % 32 = i
    rw [a.1, a.2]; omega
  · simp [MotionBuffer.isEmpty, b.2]
  · simp [MotionBuffer.isFull, c.2, MotionBuffer.length]

/-- `pushAndPop`: popping -/
example (i : Nat) (h : i < 31) :
    let b := popped (pushed K 32) (i + 1)
    b.level = 32 - (i + 1) ∧ b.isEmpty = false ∧ b.isFull = false ∧ b.head = i + 1 := by
  have a := popped_eq K (i + 1) (by omega)
  refine ⟨a.2, ?_, ?_, ?_⟩
  · simp [MotionBuffer.isEmpty, a.2]; omega
  · simp [MotionBuffer.isFull, a.2, MotionBuffer.length]; omega
  · rw [a.1]; omega

/-- `pushAndPop`: the last pop -/
example :
    let b := popped (pushed K 32) 32
    b.level = 0 ∧ b.isEmpty = true ∧ b.isFull = false ∧ b.head = 0 := by
  have a := popped_eq K 32 (by omega)
  refine ⟨a.2, ?_, ?_, a.1⟩
  · simp [MotionBuffer.isEmpty, a.2]
  · simp [MotionBuffer.isFull, a.2, MotionBuffer.length]
end

/-! ## test_gcode_block -/
section
open Props (codes)

/-- A property of the block read from a text. -/
def on (text : String) (f : Block → Bool) : Bool :=
  match Block.ofString (codes text) with
  | .ok b => f b
  | .error _ => false

/-- `initialization` -/
example : Block.empty.words.length = 0 := rfl

/-- `wordCount` -/
example : on "X100 G1" (·.words.length = 2) ∧ on "L9 X100 Y200 Z300 G1 I4 J5 K6 F700" (·.words.length = 9) := by decide +kernel

/-- `hasAxis` -/
example : on "S100" (!·.hasAxis) ∧ on "X100" (·.hasAxis) ∧ on "Y100" (·.hasAxis) ∧ on "Z100" (·.hasAxis) ∧
    on "X100 Y200 Z300" (·.hasAxis) := by decide +kernel

/-- `hasOffsets` -/
example : on "S100" (!·.hasOffset) ∧ on "I100" (·.hasOffset) ∧ on "J100" (·.hasOffset) ∧ on "K100" (·.hasOffset) ∧
    on "I100 J200 K300" (·.hasOffset) := by decide +kernel

/-- `hasRadius` -/
example : on "S100" (!·.hasRadius) ∧ on "R10" (·.hasRadius) := by decide +kernel

/-- `aBlock.removeWord(aBlock.searchWord(c))`; `removeWord(-1)` does nothing. -/
def drop (b : Block) (c : Char) : Block :=
  match b.search c with
  | some i => b.removeWord i
  | none => b

/-- `wordSearchAndRemove` -/
example : Block.empty.search2 'G' 10 = none ∧
    on "L9 X100 Y200 Z300 G1 I4 J5 K6 F700" (fun b =>
      b.search2 'G' 10 = some 4 && b.search2 'M' 10 = none && (drop (drop (drop (drop b 'L') 'Y') 'F') 'M').words.length = 6) := by
  decide +kernel

/-- `modalGroupViolation` -/
example : Block.empty.hasModalGroupViolation = false ∧
    on "L9 X100 Y200 Z300 G1 I4 J5 K6 F700" (!·.hasModalGroupViolation) ∧ on "G0 G1" (·.hasModalGroupViolation) := by
  decide +kernel

/-- `letterWordViolation` -/
example : Block.empty.hasLetterWordViolation = false ∧
    on "L9 X100 Y200 Z300 G1 I4 J5 K6 F700" (!·.hasLetterWordViolation) ∧ on "X0 X1" (·.hasLetterWordViolation) := by
  decide +kernel
end
end Moovr.Tests
