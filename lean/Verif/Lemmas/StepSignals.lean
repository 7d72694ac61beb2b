import Verif.Model.StepSignals
import Verif.Lemmas.ListInd
/-! Helper lemmas for step signals: the registers bit by bit. -/
namespace Moovr.StepSignals
open PulseSpec

/-- Step bit of an axis. -/
def stepBit (v : BitVec 32) (a : Nat) : Bool := v.getLsbD (2 * a)

/-- Direction bit of an axis. -/
def dirBit (v : BitVec 32) (a : Nat) : Bool := v.getLsbD (2 * a + 1)

theorem getLsbD_stepMask (a i : Nat) (ha : a ≤ 15) : (stepMask a).getLsbD i = decide (i = 2 * a) := by
  simp only [stepMask, BitVec.getLsbD_shiftLeft, BitVec.getLsbD_one]
  rw [Bool.eq_iff_iff]
  simp
  omega

theorem getLsbD_dirMask (a i : Nat) (ha : a ≤ 15) : (stepMask a <<< 1).getLsbD i = decide (i = 2 * a + 1) := by
  simp only [BitVec.getLsbD_shiftLeft, getLsbD_stepMask _ _ ha]
  rw [Bool.eq_iff_iff]
  simp
  omega

theorem backward_bits (n : Nat) (s : StepSignals) (a i : Nat) (han : a ≤ n) (ha : a ≤ 15) (hi : i < 32) :
    (s.stepBackward n a).dirSetup.getLsbD i
      = (if i = 2 * a then false else if i = 2 * a + 1 then true else s.dirSetup.getLsbD i) ∧
    (s.stepBackward n a).stepRise.getLsbD i
      = (if i = 2 * a then true else if i = 2 * a + 1 then true else s.stepRise.getLsbD i) ∧
    (s.stepBackward n a).stepFall.getLsbD i
      = (if i = 2 * a then false else if i = 2 * a + 1 then true else s.stepFall.getLsbD i) := by
  simp only [stepBackward, han, if_true, BitVec.getLsbD_or, BitVec.getLsbD_and, BitVec.getLsbD_not,
    getLsbD_dirMask _ _ ha, getLsbD_stepMask _ _ ha, hi, decide_true, Bool.true_and]
  by_cases h1 : i = 2 * a
  · have h2 : ¬ i = 2 * a + 1 := by omega
    simp [h1]
  · by_cases h2 : i = 2 * a + 1 <;> simp [h1, h2]

theorem forward_bits (n : Nat) (s : StepSignals) (a i : Nat) (han : a ≤ n) (ha : a ≤ 15) (hi : i < 32) :
    (s.stepForward n a).dirSetup.getLsbD i
      = (if i = 2 * a then false else if i = 2 * a + 1 then false else s.dirSetup.getLsbD i) ∧
    (s.stepForward n a).stepRise.getLsbD i
      = (if i = 2 * a then true else if i = 2 * a + 1 then false else s.stepRise.getLsbD i) ∧
    (s.stepForward n a).stepFall.getLsbD i
      = (if i = 2 * a then false else if i = 2 * a + 1 then false else s.stepFall.getLsbD i) := by
  simp only [stepForward, han, if_true, BitVec.getLsbD_or, BitVec.getLsbD_and, BitVec.getLsbD_not,
    getLsbD_dirMask _ _ ha, getLsbD_stepMask _ _ ha, hi, decide_true, Bool.true_and]
  by_cases h1 : i = 2 * a
  · have h2 : ¬ i = 2 * a + 1 := by omega
    simp [h1]
  · by_cases h2 : i = 2 * a + 1 <;> simp [h1, h2]

/-- What one axis' bits in the three registers look like. -/
structure AxisBits where
  setupStep : Bool
  setupDir : Bool
  riseStep : Bool
  riseDir : Bool
  fallStep : Bool
  fallDir : Bool
  deriving DecidableEq

def bits (s : StepSignals) (a : Nat) : AxisBits :=
  ⟨stepBit s.dirSetup a, dirBit s.dirSetup a, stepBit s.stepRise a, dirBit s.stepRise a,
    stepBit s.stepFall a, dirBit s.stepFall a⟩

/-- Effect of a command on its own axis. -/
def AxisBits.cmd (b : AxisBits) : Cmd → AxisBits
  | none => b
  | some d => ⟨false, d.line, true, d.line, false, d.line⟩

def AxisBits.next (b : AxisBits) : AxisBits :=
  { b with setupStep := b.riseStep, setupDir := b.riseDir, riseStep := b.fallStep, riseDir := b.fallDir }

theorem bits_next (s : StepSignals) (a : Nat) : s.next.bits a = (s.bits a).next := rfl

theorem bits_command (n : Nat) (s : StepSignals) (x a : Nat) (hx : x ≤ n) (hn : n ≤ 15) (ha : a ≤ 15) (c : Cmd) :
    (s.command n x c).bits a = if x = a then (s.bits a).cmd c else s.bits a := by
  cases c with
  | none => simp [command, AxisBits.cmd]
  | some d =>
    cases d with
    | forward =>
      have h1 := forward_bits n s x (2 * a) hx (by omega) (by omega)
      have h2 := forward_bits n s x (2 * a + 1) hx (by omega) (by omega)
      simp only [command, bits, stepBit, dirBit, h1, h2, AxisBits.cmd]
      by_cases hxa : x = a
      · subst hxa; simp [Dir.line]
      · have e1 : ¬ 2 * a = 2 * x := by omega
        have e2 : ¬ 2 * a = 2 * x + 1 := by omega
        have e3 : ¬ 2 * a + 1 = 2 * x := by omega
        have e4 : ¬ 2 * a + 1 = 2 * x + 1 := by omega
        simp [hxa, e1, e2, e3]
    | backward =>
      have h1 := backward_bits n s x (2 * a) hx (by omega) (by omega)
      have h2 := backward_bits n s x (2 * a + 1) hx (by omega) (by omega)
      simp only [command, bits, stepBit, dirBit, h1, h2, AxisBits.cmd]
      by_cases hxa : x = a
      · subst hxa; simp [Dir.line]
      · have e1 : ¬ 2 * a = 2 * x := by omega
        have e2 : ¬ 2 * a = 2 * x + 1 := by omega
        have e3 : ¬ 2 * a + 1 = 2 * x := by omega
        have e4 : ¬ 2 * a + 1 = 2 * x + 1 := by omega
        simp [hxa, e1, e2, e3]

theorem bits_foldl (n : Nat) (hn : n ≤ 15) (a : Nat) (ha : a ≤ 15) (cmd : Nat → Cmd) :
    ∀ (l : List Nat) (s : StepSignals), (∀ x ∈ l, x < n) → l.Nodup →
      (l.foldl (fun s axis => s.command n axis (cmd axis)) s).bits a
        = if a ∈ l then (s.bits a).cmd (cmd a) else s.bits a := by
  intro l
  induction l with
  | nil => intro s _ _; simp
  | cons x l ih =>
    intro s hl hnd
    have hx := hl x (by simp)
    rw [List.nodup_cons] at hnd
    rw [List.foldl_cons, ih _ (fun y hy => hl y (by simp [hy])) hnd.2,
      bits_command n s x a (by omega) hn ha]
    by_cases hxa : x = a
    · subst hxa
      simp [hnd.1]
    · have : ¬ a = x := fun h => hxa h.symm
      simp [hxa, this]

/-- Effect of one tick on the bits of an axis. -/
theorem bits_tick (n : Nat) (hn : n ≤ 15) (s : StepSignals) (cmd : Nat → Cmd) (a : Nat) (ha : a < n) :
    (s.tick n cmd).bits a = ((s.bits a).next).cmd (cmd a) := by
  unfold tick commands
  rw [bits_foldl n hn a (by omega) cmd _ _ (fun x hx => List.mem_range.1 hx) List.nodup_range]
  simp [ha, bits_next]

theorem command_counters (n : Nat) (s : StepSignals) (x : Nat) (c : Cmd) :
    (s.command n x c).ticksSinceLastOutput = s.ticksSinceLastOutput ∧
    (s.command n x c).maxTicksSinceLastOutput = s.maxTicksSinceLastOutput ∧
    (s.command n x c).lastOutput = s.lastOutput := by
  cases c with
  | none => simp [command]
  | some d =>
    cases d <;> simp only [command, stepForward, stepBackward] <;> split <;> simp

theorem commands_counters (n : Nat) (s : StepSignals) (cmd : Nat → Cmd) :
    (s.commands n cmd).ticksSinceLastOutput = s.ticksSinceLastOutput ∧
    (s.commands n cmd).maxTicksSinceLastOutput = s.maxTicksSinceLastOutput ∧
    (s.commands n cmd).lastOutput = s.lastOutput := by
  unfold commands
  generalize List.range n = l
  induction l generalizing s with
  | nil => simp
  | cons x l ih =>
    have h := command_counters n s x (cmd x)
    have h' := ih (s.command n x (cmd x))
    rw [List.foldl_cons, h'.1, h'.2.1, h'.2.2]
    exact h

theorem tick_counters (n : Nat) (s : StepSignals) (cmd : Nat → Cmd) :
    (s.tick n cmd).ticksSinceLastOutput = u32add s.ticksSinceLastOutput 1 ∧
    (s.tick n cmd).maxTicksSinceLastOutput = s.maxTicksSinceLastOutput ∧
    (s.tick n cmd).lastOutput = s.lastOutput := commands_counters n s.next cmd

end Moovr.StepSignals
