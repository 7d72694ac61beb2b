import Verif.Lemmas.Density
/-!
# When the step buffer overflows

The converse of `committed_room`: if some 254 consecutive entries last less than 750 ticks, a loop that fills the buffer whenever
there is a need loses an entry.
-/
namespace Moovr.FillLoop
open StepQueueSpec StepBuffer

/-- The loop, at first. -/
def start (b : StepBuffer) : FillLoop := ⟨b, false, []⟩

/-- The entries `W.take w` have been written, `r` have been read, none is lost. -/
structure Reached (b : StepBuffer) (W : List Step) (ops : List Op) (r w : Nat) : Prop where
  fed : FedRev (List.replicate 4 ⟨375, 0⟩) ((start b).calls ops).reverse
  puts : written (start b) ops = W.take w
  fits : w ≤ W.length
  lost : ((start b).run ops).lost = []
  ready : ((start b).run ops).committed = false
  trace : trace (List.replicate 4 ⟨375, 0⟩) ((start b).calls ops) = ⟨List.replicate 4 ⟨375, 0⟩ ++ W.take w, r⟩

/-- Some entry is lost. -/
def Overflow (b : StepBuffer) (W : List Step) : Prop :=
  ∃ ops, FedRev (List.replicate 4 ⟨375, 0⟩) ((start b).calls ops).reverse ∧ written (start b) ops <+: W ∧
    ((start b).run ops).lost ≠ []

variable {b₀ b : StepBuffer} {W : List Step} {ops : List Op} {r w : Nat}

private theorem total_call (b : StepBuffer) (c : StepQueueSpec.Call) (h : b.totalTime < 4294967296) :
    (b.call c).1.totalTime < 4294967296 := by
  cases c <;> simp only [StepBuffer.call] <;> try exact h
  · unfold StepBuffer.write; split
    · exact Nat.mod_lt _ (by decide)
    · exact h
  · unfold StepBuffer.read; split
    · exact Nat.mod_lt _ (by decide)
    · exact h

theorem total_lt_after (b : StepBuffer) (calls : List StepQueueSpec.Call) (h : b.totalTime < 4294967296) :
    (b.after calls).totalTime < 4294967296 := by
  induction calls using List.reverseRecOn' with
  | nil => exact h
  | snoc calls c ih => rw [after_snoc]; exact total_call _ _ ih

/-- The state of the buffer. -/
theorem Reached.rep (h : InitReturns b₀ b) (h1 : b₀.minimumTotalTime = 1500) (h2 : b₀.minimumLevel = 4)
    (hr : Reached b W ops r w) :
    Rep ((start b).run ops).buffer ⟨List.replicate 4 ⟨375, 0⟩ ++ W.take w, r⟩ ∧
    (((start b).run ops).buffer.needsFilling = true ↔ ((start b).run ops).buffer.level < 4 ∨
      ((start b).run ops).buffer.totalTime < 1500) ∧
    (((start b).run ops).buffer.totalTime =
      (750 + sumTime ((List.replicate 4 (⟨375, 0⟩ : Step) ++ W.take w).drop (r + 2))) % 4294967296) := by
  obtain ⟨s1, s2, s3, s4⟩ := shipped_priming h h1 h2
  have hrep : Rep b ⟨List.replicate 4 ⟨375, 0⟩, 0⟩ := by rw [← s4]; exact rep_priming h
  have htot : b.totalTime % 4294967296 = sumTime (List.replicate 4 ⟨375, 0⟩) % 4294967296 := by
    have := total_priming h
    rwa [s4] at this
  have hlt : b.totalTime < 4294967296 := by
    rw [(rep_of_init h).2.2.2.2.2.total]; exact Nat.mod_lt _ (by decide)
  have hbuf := buffer_run (start b) ops
  have hfb : (start b).buffer = b := rfl
  rw [hfb] at hbuf
  have hrr := rep_after hrep ((start b).calls ops)
  have htf := total_fed hrep (by simp) htot hr.fed
  rw [List.reverse_reverse] at htf
  have hmin := minimum_after b ((start b).calls ops)
  have hlt' := total_lt_after b ((start b).calls ops) hlt
  rw [hr.trace, ← hbuf] at hrr htf
  rw [← hbuf, s2, s3] at hmin
  rw [← hbuf] at hlt'
  have h750 : sumTime (List.take 2 (List.replicate 4 (⟨375, 0⟩ : Step))) = 750 := by decide
  refine ⟨hrr, by simp only [needsFilling, hmin.1, hmin.2, Bool.or_eq_true, decide_eq_true_eq], ?_⟩
  rw [h750, Nat.mod_eq_of_lt hlt'] at htf
  exact htf

theorem reached_start (h : InitReturns b₀ b) (W : List Step) : Reached b W [] 0 0 :=
  ⟨trivial, by simp [written, calls], Nat.zero_le _, rfl, rfl, by simp [calls, StepQueueSpec.trace]⟩

/-- Read an entry. -/
theorem Reached.read (h : InitReturns b₀ b) (h1 : b₀.minimumTotalTime = 1500) (h2 : b₀.minimumLevel = 4)
    (hr : Reached b W ops r w) (hn : ((start b).run ops).buffer.needsFilling = false) :
    Reached b W (ops ++ [.interrupt]) (r + 1) w := by
  obtain ⟨a1, a2, a3⟩ := hr.rep h h1 h2
  have hl : 4 ≤ ((start b).run ops).buffer.level := by
    by_contra hc
    have := a2.2 (.inl (by omega))
    rw [hn] at this; cases this
  have hle := a1.level_eq
  have hc : ((start b).run ops).calls [.interrupt] = [.read] := rfl
  refine ⟨?_, ?_, hr.fits, ?_, ?_, ?_⟩
  · rw [calls_snoc, hc, List.reverse_append]
    refine ⟨?_, hr.fed⟩
    show 3 ≤ (StepQueueSpec.trace _ ((start b).calls ops).reverse.reverse).waiting
    rw [List.reverse_reverse, hr.trace]
    unfold StepQueueSpec.Trace.waiting
    omega
  · rw [written_snoc, hr.puts]; simp [written, hc]
  · rw [run_snoc]; exact hr.lost
  · rw [run_snoc]; exact hr.ready
  · rw [calls_snoc, hc, trace_snoc, hr.trace]
    simp only [StepQueueSpec.next]
    rw [if_pos (by unfold StepQueueSpec.Trace.waiting; omega)]

/-- Write an entry, or lose it. -/
theorem Reached.write (h : InitReturns b₀ b) (h1 : b₀.minimumTotalTime = 1500) (h2 : b₀.minimumLevel = 4)
    (hr : Reached b W ops r w) (hn : ((start b).run ops).buffer.needsFilling = true) (hw : w < W.length) :
    (((start b).run ops).buffer.level < 256 ∧ Reached b W (ops ++ [.check] ++ [.put W[w]]) r (w + 1)) ∨ Overflow b W := by
  obtain ⟨a1, a2, a3⟩ := hr.rep h h1 h2
  have hle := a1.level_eq
  have hroom := a1.room
  have e1 : (start b).run (ops ++ [.check]) = { (start b).run ops with committed := true } := by
    rw [run_snoc]; simp [step, hr.ready, hn]
  have c1 : (start b).calls (ops ++ [.check]) = (start b).calls ops := by
    rw [calls_snoc]; simp [calls]
  have c2 : (start b).calls (ops ++ [.check] ++ [.put W[w]]) = (start b).calls ops ++ [.write W[w]] := by
    rw [calls_snoc, c1, e1]; simp [calls]
  have w2 : written (start b) (ops ++ [.check] ++ [.put W[w]]) = W.take (w + 1) := by
    unfold written
    rw [c2, List.filterMap_append]
    have := hr.puts
    unfold written at this
    rw [this, List.take_add_one, List.getElem?_eq_getElem hw]
    rfl
  have f2 : FedRev (List.replicate 4 ⟨375, 0⟩) ((start b).calls (ops ++ [.check] ++ [.put W[w]])).reverse := by
    rw [c2, List.reverse_append]; exact hr.fed
  by_cases hlt : ((start b).run ops).buffer.level < 256
  · refine .inl ⟨hlt, f2, w2, hw, ?_, ?_, ?_⟩
    · rw [run_snoc, e1]
      simp only [step, if_true]
      rw [if_pos (show ((start b).run ops).buffer.level < StepBuffer.length from hlt)]
      exact hr.lost
    · rw [run_snoc, e1]; simp [step]
    · rw [c2, trace_snoc, hr.trace]
      simp only [StepQueueSpec.next]
      rw [if_pos (by unfold StepQueueSpec.Trace.waiting capacity; omega), List.take_add_one, List.getElem?_eq_getElem hw]
      simp
  · refine .inr ⟨_, f2, by rw [w2]; exact List.take_prefix _ _, ?_⟩
    rw [run_snoc, e1]
    simp only [step, if_true]
    rw [if_neg (show ¬ ((start b).run ops).buffer.level < StepBuffer.length from hlt)]
    simp

/-- Fill the buffer as long as there is a need, or lose an entry. -/
theorem Reached.fill (h : InitReturns b₀ b) (h1 : b₀.minimumTotalTime = 1500) (h2 : b₀.minimumLevel = 4) (n : Nat) :
    ∀ {ops : List Op} {w : Nat}, Reached b W ops r w → r + 253 ≤ W.length + n → r + 252 ≤ w + n →  r + 253 ≤ W.length →
    (∃ ops' w', Reached b W ops' r w' ∧ ((start b).run ops').buffer.needsFilling = false) ∨ Overflow b W := by
  induction n with
  | zero =>
    intro ops w hr _ hn hW
    obtain ⟨a1, a2, a3⟩ := hr.rep h h1 h2
    have hle := a1.level_eq
    have hroom := a1.room
    simp only [List.length_append, List.length_replicate, List.length_take] at hle hroom
    cases hf : ((start b).run ops).buffer.needsFilling with
    | false => exact .inl ⟨ops, w, hr, hf⟩
    | true =>
      have hfit := hr.fits
      rcases hr.write h h1 h2 hf (by omega) with ⟨hlt, -⟩ | ho
      · omega
      · exact .inr ho
  | succ n ih =>
    intro ops w hr hq hn hW
    obtain ⟨a1, a2, a3⟩ := hr.rep h h1 h2
    have hle := a1.level_eq
    have hroom := a1.room
    simp only [List.length_append, List.length_replicate, List.length_take] at hle hroom
    have hfit := hr.fits
    cases hf : ((start b).run ops).buffer.needsFilling with
    | false => exact .inl ⟨ops, w, hr, hf⟩
    | true =>
      rcases hr.write h h1 h2 hf (by omega) with ⟨hlt, hr'⟩ | ho
      · exact ih hr' (by omega) (by omega) hW
      · exact .inr ho

/-- Read any number of entries, filling the buffer in between, or lose an entry. -/
theorem reach (h : InitReturns b₀ b) (h1 : b₀.minimumTotalTime = 1500) (h2 : b₀.minimumLevel = 4) (r : Nat) (hW : r + 253 ≤ W.length) :
    (∃ ops w, Reached b W ops r w ∧ ((start b).run ops).buffer.needsFilling = false) ∨ Overflow b W := by
  induction r with
  | zero => exact (reached_start h W).fill h h1 h2 253 (by omega) (by omega) hW
  | succ r ih =>
    rcases ih (by omega) with ⟨ops, w, hr, hf⟩ | ho
    · exact (hr.read h h1 h2 hf).fill h h1 h2 (r + 300) (by omega) (by omega) hW
    · exact .inr ho

/-- **The buffer overflows** if some 254 consecutive entries last less than 750 ticks. -/
theorem overflow (h : InitReturns b₀ b) (h1 : b₀.minimumTotalTime = 1500) (h2 : b₀.minimumLevel = 4) (i : Nat)
    (hi : i + 257 ≤ W.length) (hd : sumTime ((W.drop i).take 254) < 750) : Overflow b W := by
  rcases reach h h1 h2 (W := W) (i + 2) (by omega) with ⟨ops, w, hr, hf⟩ | ho
  · exfalso
    obtain ⟨a1, a2, a3⟩ := hr.rep h h1 h2
    have hroom := a1.room
    have hle := a1.level_eq
    have hrl := a1.reads_le
    have hfit := hr.fits
    simp only [List.length_append, List.length_replicate, List.length_take] at hle hroom hrl
    have e : (List.replicate 4 (⟨375, 0⟩ : Step) ++ W.take w).drop (i + 2 + 2) = (W.take w).drop i := by
      rw [List.drop_append, List.drop_of_length_le (by simp), List.nil_append]
      simp
    rw [e] at a3
    have hs : sumTime ((W.take w).drop i) ≤ sumTime ((W.drop i).take 254) := by
      rw [List.drop_take]
      have : ∀ (l : List Step) (p q : Nat), p ≤ q → sumTime (l.take p) ≤ sumTime (l.take q) := by
        intro l p q hpq
        have : l.take q = l.take p ++ (l.drop p).take (q - p) := by
          rw [← List.take_add]; congr 1; omega
        rw [this, sumTime_append]; omega
      exact this _ _ _ (by omega)
    have hlt : ((start b).run ops).buffer.totalTime < 1500 := by
      rw [a3, Nat.mod_eq_of_lt (by omega)]; omega
    have := a2.2 (.inr hlt)
    rw [hf] at this; cases this
  · exact ho

end Moovr.FillLoop
