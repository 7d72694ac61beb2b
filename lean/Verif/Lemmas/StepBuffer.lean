import Verif.Model.StepBuffer
import Verif.Lemmas.ListInd
/-! Helper lemmas for the step buffer: representation invariant relative to the trace of accepted entries. -/
namespace Moovr.StepBuffer
open StepQueueSpec

/-- The buffer represents the trace `t`. -/
structure Rep (b : StepBuffer) (t : Trace) : Prop where
  reads_le : t.reads ≤ t.written.length
  room : t.written.length ≤ t.reads + 256
  head_eq : b.head = t.reads % 256
  level_eq : b.level = t.written.length - t.reads
  sigs_eq : ∀ i (h : i < t.written.length), t.reads ≤ i → b.sigs (i % 256) = t.written[i].signals
  times_eq : ∀ i (h : i + 2 < t.written.length), t.reads ≤ i → b.times (i % 256) = t.written[i + 2].timeBefore

theorem rep_reset (b : StepBuffer) : Rep b.reset ⟨[], 0⟩ := by
  refine ⟨Nat.le_refl _, by simp, rfl, rfl, ?_, ?_⟩
  · intro i h; simp at h
  · intro i h; simp at h

theorem rep_write {b : StepBuffer} {t : Trace} (h : Rep b t) (s : Step) :
    Rep (b.write s) (next t (.write s)) := by
  have h1 := h.reads_le
  have h2 := h.room
  have h3 := h.head_eq
  have h4 := h.level_eq
  simp only [next, Trace.waiting, capacity, write, length]
  by_cases hl : t.written.length - t.reads < 256
  · have hb : b.level < 256 := by omega
    simp only [hl, hb, if_true]
    refine ⟨by simp; omega, by simp; omega, h3, by simp; omega, ?_, ?_⟩
    · intro i hi hr
      simp only [List.length_append, List.length_singleton] at hi
      simp only at hr
      by_cases he : i = t.written.length
      · subst he
        have hc : t.written.length % 256 = (b.head + b.level) % 256 := by omega
        simp [hc]
      · have hc : ¬ i % 256 = (b.head + b.level) % 256 := by omega
        simp only [hc, if_false]
        rw [List.getElem_append_left (by omega)]
        exact h.sigs_eq i (by omega) hr
    · intro i hi hr
      simp only [List.length_append, List.length_singleton] at hi
      simp only at hr
      by_cases he : i + 2 = t.written.length
      · have hc : i % 256 = (256 + b.head + b.level - 2) % 256 := by omega
        simp [hc, he]
      · have hc : ¬ i % 256 = (256 + b.head + b.level - 2) % 256 := by omega
        simp only [hc, if_false]
        rw [List.getElem_append_left (by omega)]
        exact h.times_eq i (by omega) hr
  · have hb : ¬ b.level < 256 := by omega
    simp only [hl, hb, if_false]
    exact ⟨h1, h2, h3, h4, h.sigs_eq, h.times_eq⟩

theorem rep_read {b : StepBuffer} {t : Trace} (h : Rep b t) :
    Rep b.read.1 (next t .read) := by
  have h1 := h.reads_le
  have h2 := h.room
  have h3 := h.head_eq
  have h4 := h.level_eq
  simp only [next, Trace.waiting, read, length]
  by_cases hl : 0 < t.written.length - t.reads
  · have hb : b.level > 0 := by omega
    simp only [hl, hb, if_true]
    refine ⟨by simp; omega, by simp; omega, by simp; omega, by simp; omega, ?_, ?_⟩
    · intro i hi hr
      exact h.sigs_eq i hi (by simp only at hr; omega)
    · intro i hi hr
      exact h.times_eq i hi (by simp only at hr; omega)
  · have hb : ¬ b.level > 0 := by omega
    simp only [hl, hb, if_false]
    exact ⟨h1, h2, h3, h4, h.sigs_eq, h.times_eq⟩

theorem rep_call {b : StepBuffer} {t : Trace} (h : Rep b t) (c : Call) :
    Rep (b.call c).1 (next t c) := by
  cases c with
  | write s => exact rep_write h s
  | read => exact rep_read h
  | needsFilling => exact h
  | getTimeInTicks => exact h
  | getLevel => exact h
  | getLastError => exact ⟨h.reads_le, h.room, h.head_eq, h.level_eq, h.sigs_eq, h.times_eq⟩

theorem after_snoc (b : StepBuffer) (calls : List Call) (c : Call) :
    b.after (calls ++ [c]) = ((b.after calls).call c).1 := by simp [after]

theorem trace_snoc (prime : List Step) (calls : List Call) (c : Call) :
    trace prime (calls ++ [c]) = next (trace prime calls) c := by simp [trace]

theorem rep_after {b : StepBuffer} {prime : List Step} (h : Rep b ⟨prime, 0⟩) (calls : List Call) :
    Rep (b.after calls) (trace prime calls) := by
  induction calls using List.reverseRecOn' with
  | nil => exact h
  | snoc calls c ih => rw [after_snoc, trace_snoc]; exact rep_call ih c

theorem minimum_call (b : StepBuffer) (c : Call) :
    (b.call c).1.minimumTotalTime = b.minimumTotalTime ∧ (b.call c).1.minimumLevel = b.minimumLevel := by
  cases c with
  | write s => simp only [call, write]; split <;> simp
  | read => simp only [call, read]; split <;> simp
  | _ => simp [call, getLastError]

theorem minimum_after (b : StepBuffer) (calls : List Call) :
    (b.after calls).minimumTotalTime = b.minimumTotalTime ∧ (b.after calls).minimumLevel = b.minimumLevel := by
  induction calls using List.reverseRecOn' with
  | nil => simp [after]
  | snoc calls c ih => rw [after_snoc, (minimum_call _ c).1, (minimum_call _ c).2]; exact ih

theorem sumTime_append (l l' : List Step) : sumTime (l ++ l') = sumTime l + sumTime l' := by
  simp [sumTime]

theorem sumTime_singleton (s : Step) : sumTime [s] = s.timeBefore := by simp [sumTime]

theorem logRev_calls (b : StepBuffer) (hist : List Call) : (b.logRev hist).map Prod.fst = hist := by
  induction hist with
  | nil => rfl
  | cons c earlier ih => simp [logRev, ih]

/-- Accounting of the total, modulo 2^32. -/
theorem total_after {b : StepBuffer} {prime : List Step} (h : Rep b ⟨prime, 0⟩)
    (ht : b.totalTime % 4294967296 = sumTime prime % 4294967296) (hist : List Call) :
    ((b.after hist.reverse).totalTime + sumTime (handedOutRev prime (b.logRev hist))) % 4294967296
      = sumTime (trace prime hist.reverse).written % 4294967296 := by
  induction hist with
  | nil => simpa [after, trace, logRev, handedOutRev, sumTime] using ht
  | cons c earlier ih =>
    have hrep := rep_after h earlier.reverse
    have h4 := hrep.level_eq
    have h2 := hrep.room
    rw [List.reverse_cons, after_snoc, trace_snoc, logRev]
    generalize hb : b.after earlier.reverse = b' at *
    generalize htr : trace prime earlier.reverse = t at *
    cases c with
    | needsFilling => exact ih
    | getTimeInTicks => exact ih
    | getLevel => exact ih
    | getLastError => exact ih
    | write s =>
      simp only [call, write, handedOutRev, next, Trace.waiting, capacity, length]
      by_cases hl : t.written.length - t.reads < 256
      · have hb' : b'.level < 256 := by omega
        simp only [hl, hb', if_true, sumTime_append, sumTime_singleton, u32add]
        omega
      · have hb' : ¬ b'.level < 256 := by omega
        simp only [hl, hb', if_false]
        exact ih
    | read =>
      simp only [call, read, handedOutRev, next, Trace.waiting]
      rw [List.map_reverse, logRev_calls, htr]
      by_cases hl : 0 < t.written.length - t.reads
      · have hb' : b'.level > 0 := by omega
        simp only [hl, hb', if_true, sumTime_append, sumTime_singleton, u32sub]
        omega
      · have hb' : ¬ b'.level > 0 := by omega
        simp only [hl, hb', if_false]
        exact ih

theorem lastError_after {b : StepBuffer} {prime : List Step} (h : Rep b ⟨prime, 0⟩) (hist : List Call) :
    (b.after hist.reverse).lastError = lastErrorRev prime b.lastError hist := by
  induction hist with
  | nil => rfl
  | cons c earlier ih =>
    have hrep := rep_after h earlier.reverse
    have h4 := hrep.level_eq
    have h2 := hrep.room
    rw [List.reverse_cons, after_snoc]
    cases c with
    | needsFilling => simpa [call, lastErrorRev, incident] using ih
    | getTimeInTicks => simpa [call, lastErrorRev, incident] using ih
    | getLevel => simpa [call, lastErrorRev, incident] using ih
    | getLastError => rfl
    | write s =>
      simp only [call, write, lastErrorRev, incident, Trace.waiting, capacity, length]
      by_cases hl : (trace prime earlier.reverse).written.length - (trace prime earlier.reverse).reads < 256
      · have hb' : (b.after earlier.reverse).level < 256 := by omega
        simpa [hl, hb'] using ih
      · have hb' : ¬ (b.after earlier.reverse).level < 256 := by omega
        simp [hl, hb']
    | read =>
      simp only [call, read, lastErrorRev, incident, Trace.waiting]
      by_cases hl : 0 < (trace prime earlier.reverse).written.length - (trace prime earlier.reverse).reads
      · have hb' : (b.after earlier.reverse).level > 0 := by omega
        simpa [hl, hb'] using ih
      · have hb' : ¬ (b.after earlier.reverse).level > 0 := by omega
        simp [hl, hb']

/-! ### The loop in `initialize` -/

/-- State after `n` iterations of the priming loop, relative to the trace. -/
structure Primed (b : StepBuffer) (n w : Nat) : Prop where
  rep : Rep b ⟨List.replicate n ⟨w, 0⟩, 0⟩
  total : b.totalTime = (n * w) % 4294967296

theorem primed_reset (b : StepBuffer) (w : Nat) : Primed b.reset 0 w :=
  ⟨rep_reset b, by simp [reset]⟩

theorem primed_write {b : StepBuffer} {n w : Nat} (h : Primed b n w) (hn : n < 256) :
    Primed (b.write ⟨w, 0⟩) (n + 1) w := by
  have h1 := rep_write h.rep ⟨w, 0⟩
  have h2 : next ⟨List.replicate n ⟨w, 0⟩, 0⟩ (.write ⟨w, 0⟩) = ⟨List.replicate (n + 1) ⟨w, 0⟩, 0⟩ := by
    simp [next, Trace.waiting, capacity, hn, List.replicate_succ']
  rw [h2] at h1
  refine ⟨h1, ?_⟩
  have hl := h.rep.level_eq
  simp only [List.length_replicate, Nat.sub_zero] at hl
  simp only [write, length, hl, hn, if_true, u32add, h.total]
  rw [Nat.succ_mul]
  omega

/-- `n` entries are enough. -/
def Enough (minTime minLevel n : Nat) : Prop :=
  minLevel ≤ n ∧ minTime ≤ (n * (minTime / minLevel)) % 4294967296

instance (a b c) : Decidable (Enough a b c) := by unfold Enough; infer_instance

theorem needsFilling_primed {b : StepBuffer} {n : Nat} (h : Primed b n (b.minimumTotalTime / b.minimumLevel)) :
    b.needsFilling = false ↔ Enough b.minimumTotalTime b.minimumLevel n := by
  have hl := h.rep.level_eq
  simp only [List.length_replicate, Nat.sub_zero] at hl
  simp [needsFilling, Enough, hl, h.total]

theorem write_minimum (b : StepBuffer) (s : Step) :
    (b.write s).minimumTotalTime = b.minimumTotalTime ∧ (b.write s).minimumLevel = b.minimumLevel ∧
    ((b.level < 256) → (b.write s).lastError = b.lastError) := by
  by_cases h : b.level < 256
  · simp [write, length, h]
  · simp [write, length, h]

theorem initLoop_done {b b' : StepBuffer} {n fuel : Nat}
    (h : Primed b n (b.minimumTotalTime / b.minimumLevel)) (hn : n ≤ 256)
    (hd : initLoop fuel b = .done b') :
    ∃ m, n ≤ m ∧ m ≤ 256 ∧ Primed b' m (b.minimumTotalTime / b.minimumLevel) ∧
      Enough b.minimumTotalTime b.minimumLevel m ∧ (∀ k, n ≤ k → k < m → ¬ Enough b.minimumTotalTime b.minimumLevel k) ∧
      b'.minimumTotalTime = b.minimumTotalTime ∧ b'.minimumLevel = b.minimumLevel ∧
      b'.lastError = b.lastError := by
  induction fuel generalizing b n with
  | zero =>
    simp only [initLoop] at hd
    split at hd
    · cases hd
    · rename_i hf
      cases hd
      exact ⟨n, Nat.le_refl _, hn, h, (needsFilling_primed h).1 (by simpa using hf),
        fun k h1 h2 => absurd h1 (by omega), rfl, rfl, rfl⟩
  | succ fuel ih =>
    simp only [initLoop] at hd
    split at hd
    · rename_i hf
      split at hd
      · cases hd
      · obtain ⟨e1, e2, e3⟩ := write_minimum b ⟨b.minimumTotalTime / b.minimumLevel, 0⟩
        have hl := h.rep.level_eq
        simp only [List.length_replicate, Nat.sub_zero] at hl
        by_cases hn' : n < 256
        · have hp := primed_write h hn'
          have := ih (b := b.write ⟨b.minimumTotalTime / b.minimumLevel, 0⟩) (n := n + 1)
            (by rw [e1, e2]; exact hp) (by omega) hd
          rw [e1, e2, e3 (by omega)] at this
          obtain ⟨m, q1, q2, q3, q4, q5, q6⟩ := this
          refine ⟨m, by omega, q2, q3, q4, ?_, q6⟩
          intro k hk1 hk2
          by_cases hkn : k = n
          · subst hkn
            intro he
            have := (needsFilling_primed h).2 he
            simp [this] at hf
          · exact q5 k (by omega) hk2
        · -- full: nothing changes any more
          exfalso
          have hn256 : n = 256 := by omega
          subst hn256
          have hne : ¬ Enough b.minimumTotalTime b.minimumLevel 256 := by
            intro he
            have := (needsFilling_primed h).2 he
            simp [this] at hf
          clear ih hf
          have key : ∀ fuel (c : StepBuffer), c.level = 256 → c.needsFilling = true →
              initLoop fuel c ≠ .done b' := by
            intro fuel
            induction fuel with
            | zero => intro c _ h2; simp [initLoop, h2]
            | succ fuel ih =>
              intro c h1 h2
              simp only [initLoop, h2, if_true]
              split
              · simp
              · apply ih
                · simp [write, length, h1]
                · simpa [write, length, h1, needsFilling] using h2
          refine key fuel _ ?_ ?_ hd
          · simp [write, length, hl]
          · have : b.needsFilling = true := by
              rcases hb : b.needsFilling with _ | _
              · exact absurd ((needsFilling_primed h).1 hb) hne
              · rfl
            simpa [write, length, hl, needsFilling] using this
    · rename_i hf
      cases hd
      exact ⟨n, Nat.le_refl _, hn, h, (needsFilling_primed h).1 (by simpa using hf),
        fun k h1 h2 => absurd h1 (by omega), rfl, rfl, rfl⟩

theorem initLoop_of_enough {b : StepBuffer} {n m : Nat} (hml : 0 < b.minimumLevel)
    (h : Primed b n (b.minimumTotalTime / b.minimumLevel)) (hm : m ≤ 256) (hnm : n ≤ m)
    (he : Enough b.minimumTotalTime b.minimumLevel m) :
    ∃ b', initLoop (m - n) b = .done b' := by
  obtain ⟨k, hk⟩ : ∃ k, m - n = k := ⟨_, rfl⟩
  rw [hk]
  induction k generalizing b n with
  | zero =>
    have : n = m := by omega
    subst this
    have := (needsFilling_primed h).2 he
    exact ⟨b, by simp [initLoop, this]⟩
  | succ k ih =>
    simp only [initLoop]
    by_cases hf : b.needsFilling
    · obtain ⟨e1, e2, -⟩ := write_minimum b ⟨b.minimumTotalTime / b.minimumLevel, 0⟩
      rw [if_pos hf, if_neg (by omega)]
      exact ih (n := n + 1) (by rw [e2]; exact hml) (by rw [e1, e2]; exact primed_write h (by omega))
        (by omega) (by rw [e1, e2]; exact he) (by omega)
    · exact ⟨b, by simp [hf]⟩


theorem rep_of_init {b₀ b : StepBuffer} (h : InitReturns b₀ b) :
    b.minimumTotalTime = b₀.minimumTotalTime ∧ b.minimumLevel = b₀.minimumLevel ∧ b.lastError = b₀.lastError ∧
    b.level ≤ 256 ∧ b.needsFilling = false ∧
    Primed b b.level (b.minimumTotalTime / b.minimumLevel) := by
  obtain ⟨fuel, hf⟩ := h
  obtain ⟨m, h1, h2, h3, h4, -, h5, h6, h7⟩ :=
    initLoop_done (b := b₀.reset) (n := 0) (primed_reset _ _) (by omega) hf
  have hl : b.level = m := by simpa using h3.rep.level_eq
  have h5' : b.minimumTotalTime = b₀.minimumTotalTime := h5
  have h6' : b.minimumLevel = b₀.minimumLevel := h6
  have h3' : Primed b m (b.minimumTotalTime / b.minimumLevel) := by rw [h5', h6']; exact h3
  refine ⟨h5, h6, h7, by omega, ?_, ?_⟩
  · apply (needsFilling_primed h3').2
    rw [h5', h6']; exact h4
  · rw [hl]; exact h3'

theorem rep_priming {b₀ b : StepBuffer} (h : InitReturns b₀ b) :
    Rep b ⟨priming b.level b.minimumTotalTime b.minimumLevel, 0⟩ := (rep_of_init h).2.2.2.2.2.rep

theorem total_priming {b₀ b : StepBuffer} (h : InitReturns b₀ b) :
    b.totalTime % 4294967296
      = sumTime (priming b.level b.minimumTotalTime b.minimumLevel) % 4294967296 := by
  rw [(rep_of_init h).2.2.2.2.2.total]
  have : ∀ n w, sumTime (List.replicate n ⟨w, 0⟩) = n * w := by
    intro n w
    simp [sumTime]
  rw [priming, this, Nat.mod_mod]

/-- In a fed history two entries always remain. -/
theorem fed_waiting {prime : List Step} (hp : 2 ≤ prime.length) {hist : List Call} (hf : FedRev prime hist) :
    (trace prime hist.reverse).reads + 2 ≤ (trace prime hist.reverse).written.length := by
  induction hist with
  | nil => simpa [trace] using hp
  | cons c earlier ih =>
    rw [List.reverse_cons, trace_snoc]
    cases c with
    | write s =>
      have := ih hf
      simp only [next]
      split
      · simp; omega
      · exact this
    | read =>
      have := ih hf.2
      have h3 := hf.1
      simp only [Trace.waiting] at h3
      have hl : 0 < (trace prime earlier.reverse).written.length - (trace prime earlier.reverse).reads := by omega
      simp only [next, Trace.waiting, hl, if_true]
      omega
    | needsFilling => exact ih hf
    | getTimeInTicks => exact ih hf
    | getLevel => exact ih hf
    | getLastError => exact ih hf

theorem drop_written (W : List Step) (s : Step) (n : Nat) (h : n ≤ W.length) :
    sumTime ((W ++ [s]).drop n) = sumTime (W.drop n) + s.timeBefore := by
  rw [List.drop_append_of_le_length h, sumTime_append, sumTime_singleton]

/-- In a fed history the total is that of the waiting entries but the first two, plus that of the two oldest
entries ever written. -/
theorem total_fed {b : StepBuffer} {prime : List Step} (h : Rep b ⟨prime, 0⟩) (hp : 2 ≤ prime.length)
    (ht : b.totalTime % 4294967296 = sumTime prime % 4294967296) {hist : List Call} (hf : FedRev prime hist) :
    (b.after hist.reverse).totalTime % 4294967296
      = (sumTime (prime.take 2)
          + sumTime ((trace prime hist.reverse).written.drop ((trace prime hist.reverse).reads + 2))) % 4294967296 := by
  induction hist with
  | nil =>
    have : sumTime prime = sumTime (prime.take 2) + sumTime (prime.drop 2) := by
      rw [← sumTime_append, List.take_append_drop]
    simpa [after, trace, this] using ht
  | cons c earlier ih =>
    have hrep := rep_after h earlier.reverse
    have h4 := hrep.level_eq
    have h2 := hrep.room
    rw [List.reverse_cons, after_snoc, trace_snoc]
    cases c with
    | needsFilling => exact ih hf
    | getTimeInTicks => exact ih hf
    | getLevel => exact ih hf
    | getLastError => exact ih hf
    | write s =>
      have hw := fed_waiting hp (hist := earlier) hf
      have ih := ih hf
      generalize hb : b.after earlier.reverse = b' at *
      generalize htr : trace prime earlier.reverse = t at *
      simp only [call, write, next, Trace.waiting, capacity, length]
      by_cases hl : t.written.length - t.reads < 256
      · have hb' : b'.level < 256 := by omega
        simp only [hl, hb', if_true, u32add, drop_written _ _ _ hw]
        omega
      · have hb' : ¬ b'.level < 256 := by omega
        simp only [hl, hb', if_false]
        exact ih
    | read =>
      have h3 := hf.1
      have ih := ih hf.2
      generalize hb : b.after earlier.reverse = b' at *
      generalize htr : trace prime earlier.reverse = t at *
      simp only [Trace.waiting] at h3
      have hl : 0 < t.written.length - t.reads := by omega
      have hb' : b'.level > 0 := by omega
      simp only [call, read, next, Trace.waiting, hl, hb', if_true, u32sub]
      have hlt : t.reads + 2 < t.written.length := by omega
      have ht := hrep.times_eq t.reads hlt (Nat.le_refl _)
      rw [hrep.head_eq, ht]
      have hd : sumTime (t.written.drop (t.reads + 2))
          = t.written[t.reads + 2].timeBefore + sumTime (t.written.drop (t.reads + 1 + 2)) := by
        have e : t.reads + 1 + 2 = t.reads + 2 + 1 := by omega
        rw [List.drop_eq_getElem_cons hlt, e]
        exact List.sum_cons
      omega

end Moovr.StepBuffer
