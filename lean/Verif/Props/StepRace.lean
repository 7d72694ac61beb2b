import Verif.Model.StepRace
import Verif.Props.StepBuffer
/-!
# The step buffer and its interrupt (C92)

Whatever the interleaving of the single accesses of the main program with the interrupt, the step buffer behaves as if `needsFilling`,
`write` and `read` were executed one after the other (`FillLoop`, for which C12–C17 are proved). Without the two lines that disable
and enable the interrupt this is false.
-/
namespace Moovr.Props
open StepRace

/-- The entries that the interrupt reads in a sequence of whole operations. -/
def readings (f : FillLoop) : List FillLoop.Op → List Step
  | [] => []
  | .interrupt :: ops => f.buffer.read.2 :: readings (f.step .interrupt) ops
  | op :: ops => readings (f.step op) ops

/-- The entries that a sequence of whole operations writes. -/
def puts (f : FillLoop) : List FillLoop.Op → List Step
  | [] => []
  | .put x :: ops => (if f.committed then [x] else []) ++ puts (f.step (.put x)) ops
  | op :: ops => puts (f.step op) ops

/-! ## Proof -/

private theorem readings_append (ops ops' : List FillLoop.Op) : ∀ f : FillLoop,
    readings f (ops ++ ops') = readings f ops ++ readings (f.run ops) ops' := by
  induction ops with
  | nil => intro f; rfl
  | cons op ops ih => intro f; cases op <;> simp [readings, ih, FillLoop.run]

private theorem puts_append (ops ops' : List FillLoop.Op) : ∀ f : FillLoop,
    puts f (ops ++ ops') = puts f ops ++ puts (f.run ops) ops' := by
  induction ops with
  | nil => intro f; rfl
  | cons op ops ih => intro f; cases op <;> simp [puts, ih, FillLoop.run]

/-- How the state of the accesses corresponds to the state of the whole operations. -/
private structure Sim (s : State) (f : FillLoop) : Prop where
  masked : s.masked = true ↔ s.pc ≠ .check ∧ s.pc ≠ .checkTime ∧ s.pc ≠ .calculate ∧ s.pc ≠ .mask
  committed : f.committed = true ↔ s.pc ≠ .check ∧ s.pc ≠ .checkTime ∧ s.pc ≠ .unmask
  room : (s.pc = .putTime ∨ s.pc = .putSignals ∨ s.pc = .loadLevel ∨ s.pc = .storeLevel ∨ s.pc = .loadTotal ∨ s.pc = .storeTotal) →
    f.buffer.level < StepBuffer.length
  full : s.pc = .putError → ¬ f.buffer.level < StepBuffer.length
  buffer : s.buffer =
    match s.pc with
    | .putSignals => { f.buffer with times := (f.buffer.write s.step).times }
    | .loadLevel | .storeLevel => { f.buffer with times := (f.buffer.write s.step).times, sigs := (f.buffer.write s.step).sigs }
    | .loadTotal | .storeTotal =>
      { f.buffer with times := (f.buffer.write s.step).times, sigs := (f.buffer.write s.step).sigs, level := f.buffer.level + 1 }
    | _ => f.buffer
  tmpLevel : s.pc = .storeLevel → s.tmp = f.buffer.level
  tmpTotal : s.pc = .storeTotal → s.tmp = f.buffer.totalTime

private theorem sim_move {s : State} {f : FillLoop} (h : Sim s f) (m : Move) :
    ∃ ops, Sim (move true s m) (f.run ops) ∧ (move true s m).outs = s.outs ++ readings f ops ∧
      (move true s m).written = s.written ++ puts f ops := by
  obtain ⟨b, pc, st, tmp, mk, wr, ou⟩ := s
  obtain ⟨fb, fc, fl⟩ := f
  obtain ⟨h1, h2, h3, h4, h5, h6, h7⟩ := h
  cases m with
  | irq =>
    by_cases hm : mk = true
    · subst hm
      exact ⟨[], by simpa [move, interrupt, FillLoop.run] using ⟨h1, h2, h3, h4, h5, h6, h7⟩, by simp [move, interrupt, readings],
        by simp [move, interrupt, puts]⟩
    · have hm' : mk = false := by simpa using hm
      subst hm'
      refine ⟨[.interrupt], ?_⟩
      cases pc <;> simp at h1 h2 h3 h4 h5 h6 h7 <;> subst h5 <;> subst h2 <;>
        exact ⟨⟨by simp [move, interrupt], by simp [move, interrupt, FillLoop.run, FillLoop.step], by simp [move, interrupt], by simp [move, interrupt],
          by simp [move, interrupt, FillLoop.run, FillLoop.step], by simp [move, interrupt], by simp [move, interrupt]⟩,
          by simp [move, interrupt, readings], by simp [move, interrupt, puts]⟩
  | main x =>
    cases pc <;> simp at h1 h2 h3 h4 h5 h6 h7 <;> subst h1 <;> subst h2 <;> subst h5
    case check =>
      by_cases hl : b.level < b.minimumLevel
      · refine ⟨[.check], ⟨?_, ?_, ?_, ?_, ?_, ?_, ?_⟩, ?_, ?_⟩ <;>
          simp [move, mainStep, hl, FillLoop.run, FillLoop.step, StepBuffer.needsFilling, readings, puts]
      · refine ⟨[], ⟨?_, ?_, ?_, ?_, ?_, ?_, ?_⟩, ?_, ?_⟩ <;>
          simp [move, mainStep, hl, FillLoop.run, readings, puts]
    case checkTime =>
      by_cases hl : b.totalTime < b.minimumTotalTime
      · refine ⟨[.check], ⟨?_, ?_, ?_, ?_, ?_, ?_, ?_⟩, ?_, ?_⟩ <;>
          simp [move, mainStep, hl, FillLoop.run, FillLoop.step, StepBuffer.needsFilling, readings, puts]
      · refine ⟨[], ⟨?_, ?_, ?_, ?_, ?_, ?_, ?_⟩, ?_, ?_⟩ <;>
          simp [move, mainStep, hl, FillLoop.run, readings, puts]
    case test =>
      by_cases hl : b.level < StepBuffer.length
      · refine ⟨[], ⟨?_, ?_, ?_, ?_, ?_, ?_, ?_⟩, ?_, ?_⟩ <;>
          simp [move, mainStep, hl, FillLoop.run, readings, puts]
      · refine ⟨[], ⟨?_, ?_, ?_, ?_, ?_, ?_, ?_⟩, ?_, ?_⟩ <;>
          simp [move, mainStep, hl, FillLoop.run, readings, puts, Nat.not_lt.1 hl]
    case storeTotal =>
      refine ⟨[.put st], ⟨?_, ?_, ?_, ?_, ?_, ?_, ?_⟩, ?_, ?_⟩ <;>
        simp [move, mainStep, FillLoop.run, FillLoop.step, StepBuffer.write, readings, puts, h3, h7]
    case putError =>
      refine ⟨[.put st], ⟨?_, ?_, ?_, ?_, ?_, ?_, ?_⟩, ?_, ?_⟩ <;>
        simp [move, mainStep, FillLoop.run, FillLoop.step, StepBuffer.write, readings, puts, Nat.not_lt.2 h4]
    all_goals
      refine ⟨[], ⟨?_, ?_, ?_, ?_, ?_, ?_, ?_⟩, ?_, ?_⟩ <;>
        simp [move, mainStep, FillLoop.run, readings, puts, StepBuffer.write, h3, h6]

private theorem sim_run (ms : List Move) : ∀ {s : State} {f : FillLoop}, Sim s f →
    ∃ ops, Sim (run true s ms) (f.run ops) ∧ (run true s ms).outs = s.outs ++ readings f ops ∧
      (run true s ms).written = s.written ++ puts f ops := by
  induction ms with
  | nil => intro s f h; exact ⟨[], h, by simp [run, readings], by simp [run, puts]⟩
  | cons m ms ih =>
    intro s f h
    obtain ⟨ops, h1, h2, h3⟩ := sim_move h m
    obtain ⟨ops', k1, k2, k3⟩ := ih h1
    refine ⟨ops ++ ops', ?_, ?_, ?_⟩
    · rw [FillLoop.run, List.foldl_append]; exact k1
    · rw [readings_append, ← List.append_assoc, ← h2]; exact k2
    · rw [puts_append, ← List.append_assoc, ← h3]; exact k3

private theorem level_run (ops : List FillLoop.Op) : ∀ f : FillLoop, (readings f ops).length ≤ f.buffer.level →
    (f.run ops).buffer.level + (readings f ops).length ≤ f.buffer.level + (puts f ops).length := by
  induction ops with
  | nil => intro f _; exact Nat.le_refl _
  | cons op ops ih =>
    intro f h
    have e : ∀ op, f.run (op :: ops) = (f.step op).run ops := fun _ => rfl
    rw [e]
    cases op with
    | check =>
      have : (f.step .check).buffer = f.buffer := by unfold FillLoop.step; simp only; split <;> rfl
      have := ih (f.step .check) (by rw [this]; exact h)
      simp only [readings, puts] at *
      have e : (f.step .check).buffer = f.buffer := by unfold FillLoop.step; simp only; split <;> rfl
      rw [e] at this
      exact this
    | put x =>
      simp only [readings, puts, List.length_append] at *
      by_cases hc : f.committed
      · have hb : (f.step (.put x)).buffer = f.buffer.write x := by simp [FillLoop.step, hc]
        have hl : f.buffer.level ≤ (f.buffer.write x).level ∧ (f.buffer.write x).level ≤ f.buffer.level + 1 := by
          unfold StepBuffer.write; split <;> simp
        have := ih (f.step (.put x)) (by rw [hb]; omega)
        rw [hb] at this
        simp only [hc, if_true, List.length_singleton]
        omega
      · have hb : f.step (.put x) = f := by simp [FillLoop.step, hc]
        rw [hb] at h ⊢
        have := ih f h
        simp only [hc]
        simpa using this
    | interrupt =>
      simp only [readings, puts, List.length_cons] at *
      have hb : (f.step .interrupt).buffer.level = f.buffer.level - 1 := by
        simp only [FillLoop.step, StepBuffer.read]
        rw [if_pos (by omega)]
      have := ih (f.step .interrupt) (by omega)
      omega

/-! ## Theorems -/

/-- **C92**: with the interrupt disabled during `write`, every schedule of single accesses has the effect of a sequence of whole
operations: the interrupt reads the same entries, the same entries are written, and the buffer is the same. -/
theorem step_buffer_interrupt_safe (b : StepBuffer) (ms : List Move) :
    ∃ ops : List FillLoop.Op,
      (run true (start b) ms).outs = readings ⟨b, false, []⟩ ops ∧
      (run true (start b) ms).written = puts ⟨b, false, []⟩ ops ∧
      ((run true (start b) ms).masked = false → (run true (start b) ms).buffer = (FillLoop.run ⟨b, false, []⟩ ops).buffer) := by
  have h0 : Sim (start b) ⟨b, false, []⟩ := ⟨by simp [start], by simp [start], by simp [start], by simp [start], rfl, by simp [start],
    by simp [start]⟩
  obtain ⟨ops, h1, h2, h3⟩ := sim_run ms h0
  refine ⟨ops, h2, h3, fun hm => ?_⟩
  have hpc := h1.masked
  rw [hm] at hpc
  have hb := h1.buffer
  generalize run true (start b) ms = s at *
  obtain ⟨b', pc, st, tmp, mk, wr, ou⟩ := s
  cases pc <;> simp at hpc <;> exact hb

/-- **C92**, when the answer of `needsFilling` is that the buffer is full enough: it was, for each of the two conditions, at a moment
during the call. (The loop is left only then.) -/
theorem step_buffer_left_full (g : Bool) (s : State) (x : Step) (h : s.pc = .check ∨ s.pc = .checkTime)
    (h' : (mainStep g s x).pc ≠ .calculate) :
    (s.pc = .check → s.buffer.minimumLevel ≤ s.buffer.level) ∧ (s.pc = .checkTime → s.buffer.minimumTotalTime ≤ s.buffer.totalTime) := by
  rcases h with h | h <;> simp only [mainStep, h] at h' ⊢ <;> split at h' <;> simp_all

/-- After an interrupt, the accesses of one round of the loop without the `NVIC_…` lines, with the interrupt between the two halves of `level++`. -/
def torn : List Move := [.irq] ++ List.replicate 7 (.main ⟨500, 1⟩) ++ [.irq] ++ List.replicate 4 (.main ⟨500, 1⟩)

/-- **C92** without the two lines that disable and enable the interrupt: the level is wrong afterwards, so that what was read once
will be read again. -/
theorem step_buffer_unguarded_violated :
    ∃ b : StepBuffer, (∃ b₀, StepBuffer.InitReturns b₀ b) ∧ ∃ ms : List Move, (run false (start b) ms).masked = false ∧
      ¬ ∃ ops : List FillLoop.Op,
        (run false (start b) ms).outs = readings ⟨b, false, []⟩ ops ∧
        (run false (start b) ms).written = puts ⟨b, false, []⟩ ops ∧
        (run false (start b) ms).buffer = (FillLoop.run ⟨b, false, []⟩ ops).buffer := by
  refine ⟨shipped, ⟨shippedRaw, shipped_init⟩, torn, by decide +kernel, ?_⟩
  rintro ⟨ops, h1, h2, h3⟩
  have e1 : (run false (start shipped) torn).outs.length = 2 := by decide +kernel
  have e2 : (run false (start shipped) torn).written.length = 1 := by decide +kernel
  have e3 : (run false (start shipped) torn).buffer.level = 4 := by decide +kernel
  have e4 : shipped.level = 4 := by decide +kernel
  have := level_run ops ⟨shipped, false, []⟩ (by rw [← h1, e1, e4]; decide)
  rw [← h1, ← h2, ← h3, e1, e2, e3, e4] at this
  omega

/-- C92: the same schedule with the interrupt disabled during `write`. The second interrupt stays pending; it fires when the write is
over, and nothing is lost: of the 4 entries of the start and the one written, two have been read. -/
example : (run true (start shipped) (torn ++ [.irq])).outs.length = 2 ∧ (run true (start shipped) (torn ++ [.irq])).written = [⟨500, 1⟩] ∧
    (run true (start shipped) (torn ++ [.irq])).buffer.level = 3 := by decide +kernel

end Moovr.Props
