import Verif.Lemmas.PinOutput
/-!
# Properties C12–C17: the step buffer, the output timer and the filling loop

Histories start on a buffer `b` for which `initialize()` just returned (`InitReturns b₀ b`, `b₀` being the
completely arbitrary state before); `trace prime calls` is the specification's list of accepted entries (priming
entries first) and number of entries handed out.
-/
namespace Moovr.Props
open StepQueueSpec StepBuffer

/-- The priming entries of a buffer on which `initialize()` has just returned. -/
def primeOf (b : StepBuffer) : List Step := priming b.level b.minimumTotalTime b.minimumLevel

private theorem rep_primeOf {b₀ b : StepBuffer} (h : InitReturns b₀ b) : Rep b ⟨primeOf b, 0⟩ := rep_priming h

private theorem total_primeOf {b₀ b : StepBuffer} (h : InitReturns b₀ b) :
    b.totalTime % 4294967296 = sumTime (primeOf b) % 4294967296 := total_priming h

/-- **C12.** After any history, `read()` on a non-empty buffer returns the signals of the next accepted entry, in
order; `getLevel()` is the number of accepted minus handed-out entries, and never exceeds 256. -/
theorem step_buffer_signals_fifo (b₀ b : StepBuffer) (hi : InitReturns b₀ b) (calls : List Call) :
    let t := trace (primeOf b) calls
    t.reads ≤ t.written.length ∧ t.waiting ≤ 256 ∧
    ((b.after calls).call .getLevel).2 = .nat t.waiting ∧
    ∀ h : t.reads < t.written.length, ∃ time,
      ((b.after calls).call .read).2 = .step ⟨time, t.written[t.reads].signals⟩ := by
  intro t
  have hr := rep_after (rep_primeOf hi) calls
  have h1 := hr.reads_le
  have h2 := hr.room
  have h4 := hr.level_eq
  refine ⟨hr.reads_le, ?_, ?_, ?_⟩
  · show t.written.length - t.reads ≤ 256
    have : t.written.length ≤ t.reads + 256 := h2
    omega
  · simp only [call, h4]; rfl
  · intro h
    have hl : (b.after calls).level > 0 := by
      rw [h4]
      have : t.reads < t.written.length := h
      show 0 < t.written.length - t.reads
      omega
    refine ⟨(b.after calls).times (b.after calls).head, ?_⟩
    simp only [call, StepBuffer.read, hl, if_true, hr.head_eq]
    rw [hr.sigs_eq _ h (Nat.le_refl _)]

/-- **C12 (history form).** The signals handed out so far are exactly those of the first entries accepted, priming
entries included, in order. -/
theorem step_buffer_signals_lossless (b₀ b : StepBuffer) (hi : InitReturns b₀ b) (hist : List Call) :
    (handedOutRev (primeOf b) (b.logRev hist)).map Step.signals
      = ((trace (primeOf b) hist.reverse).written.take (trace (primeOf b) hist.reverse).reads).map Step.signals := by
  induction hist with
  | nil => simp [logRev, handedOutRev, trace]
  | cons c earlier ih =>
    have hr := rep_after (rep_primeOf hi) earlier.reverse
    have h1 := hr.reads_le
    have h4 := hr.level_eq
    have hfifo := (step_buffer_signals_fifo b₀ b hi earlier.reverse).2.2.2
    rw [List.reverse_cons, trace_snoc, logRev]
    generalize htr : trace (primeOf b) earlier.reverse = t at *
    cases c with
    | write s =>
      simp only [handedOutRev, next]
      rw [ih]
      split
      · rw [List.take_append_of_le_length h1]
      · rfl
    | read =>
      by_cases hl : t.reads < t.written.length
      · obtain ⟨time, ht⟩ := hfifo hl
        rw [ht]
        have hw : 0 < t.waiting := by simp only [Trace.waiting]; omega
        simp only [handedOutRev, List.map_reverse, logRev_calls, htr, hw, if_true, next, List.map_append, ih,
          List.map_cons, List.map_nil]
        rw [List.take_succ_eq_append_getElem hl, List.map_append]
        rfl
      · have hw : ¬ 0 < t.waiting := by simp only [Trace.waiting]; omega
        have hlev : ¬ (b.after earlier.reverse).level > 0 := by omega
        simp only [call, StepBuffer.read, hlev, if_false, handedOutRev, List.map_reverse, logRev_calls, htr, hw, next]
        exact ih
    | needsFilling => exact ih
    | getTimeInTicks => exact ih
    | getLevel => exact ih
    | getLastError => exact ih

/-- **C12/C13 (where the times go).** A read that finds at least three entries waiting returns, with the signals of
entry `k`, the time that was written with entry `k + 2`. -/
theorem step_buffer_time_shift (b₀ b : StepBuffer) (hi : InitReturns b₀ b) (calls : List Call)
    (h3 : 3 ≤ (trace (primeOf b) calls).waiting) :
    ∃ (h : (trace (primeOf b) calls).reads + 2 < (trace (primeOf b) calls).written.length),
      ((b.after calls).call .read).2 = .step ⟨(trace (primeOf b) calls).written[(trace (primeOf b) calls).reads + 2].timeBefore,
        (trace (primeOf b) calls).written[(trace (primeOf b) calls).reads].signals⟩ := by
  have hr := rep_after (rep_primeOf hi) calls
  have hw : (trace (primeOf b) calls).waiting
    = (trace (primeOf b) calls).written.length - (trace (primeOf b) calls).reads := rfl
  refine ⟨by omega, ?_⟩
  have hl : (b.after calls).level > 0 := by rw [hr.level_eq]; omega
  simp only [call, StepBuffer.read, hl, if_true, hr.head_eq]
  rw [hr.sigs_eq _ (by omega) (Nat.le_refl _), hr.times_eq _ (by omega) (Nat.le_refl _)]

/-- **C13.** Starting the timer on a primed buffer, for every interleaving of writes and timer expiries in which
every expiry finds at least three entries waiting and every entry lasts at least one tick: pin update number `k`
shows the signals of entry `k`, and from the second update on, the time between two consecutive updates is exactly
the time written with the later entry. -/
theorem pins_follow_waveform (b₀ b : StepBuffer) (hi : InitReturns b₀ b) (ops : List PinOutput.Op)
    (hfed : FedRev (primeOf b) (PinOutput.calls ops).reverse)
    (htime : ∀ s ∈ (trace (primeOf b) (PinOutput.calls ops)).written, 1 ≤ s.timeBefore ∧ s.timeBefore < 2 ^ 32) :
    let pins := ((PinOutput.start b).run ops).pins
    let W := (trace (primeOf b) (PinOutput.calls ops)).written
    (∀ k (h : k < pins.length), ∃ h' : k < W.length, pins[k].2 = W[k].signals) ∧
    (∀ k (h : k + 2 < pins.length), ∃ h' : k + 2 < W.length,
      pins[k + 2].1 - pins[k + 1].1 = W[k + 2].timeBefore ∧ pins[k + 1].1 < pins[k + 2].1) := by
  intro pins W
  have hinv := PinOutput.inv_run (rep_primeOf hi) ops hfed htime
  have hlen := hinv.len
  have hreads := hinv.rep.reads_le
  constructor
  · intro k hk
    have hk' : k < W.length := by
      have : k < ((PinOutput.start b).run ops).pins.length := hk
      show k < (trace (primeOf b) (PinOutput.calls ops)).written.length
      omega
    exact ⟨hk', hinv.sigs k hk hk'⟩
  · intro k hk
    have hk' : k + 2 < W.length := by
      have : k + 2 < ((PinOutput.start b).run ops).pins.length := hk
      show k + 2 < (trace (primeOf b) (PinOutput.calls ops)).written.length
      omega
    have hg := hinv.gaps k hk hk'
    have hp := htime _ (List.getElem_mem hk')
    have hg' : pins[k + 2].1 = pins[k + 1].1 + W[k + 2].timeBefore := hg
    have hp' : 1 ≤ W[k + 2].timeBefore := hp.1
    exact ⟨hk', by omega, by omega⟩

/-- **C14.** After any history, `getTimeInTicks()` equals, modulo 2^32, the total of the times written with the
accepted entries (priming included) minus the total of the times handed out; and `needsFilling()` is true iff fewer
entries than the minimum are waiting or that figure is below the minimum time. -/
theorem step_buffer_time_accounting (b₀ b : StepBuffer) (hi : InitReturns b₀ b) (hist : List Call) :
    ∃ total : Nat, ((b.after hist.reverse).call .getTimeInTicks).2 = .nat total ∧
      (total + sumTime (handedOutRev (primeOf b) (b.logRev hist))) % 2 ^ 32
        = sumTime (trace (primeOf b) hist.reverse).written % 2 ^ 32 ∧
      ((b.after hist.reverse).call .needsFilling).2
        = .bool (decide ((trace (primeOf b) hist.reverse).waiting < b₀.minimumLevel ∨ total < b₀.minimumTotalTime)) := by
  refine ⟨(b.after hist.reverse).totalTime, rfl, total_after (rep_primeOf hi) (total_primeOf hi) hist, ?_⟩
  have hm := minimum_after b hist.reverse
  have h0 := rep_of_init hi
  have hl : (b.after hist.reverse).level = (trace (primeOf b) hist.reverse).waiting :=
    (rep_after (rep_primeOf hi) hist.reverse).level_eq
  simp only [call, needsFilling, hm.1, hm.2, h0.1, h0.2.1, hl, Bool.decide_or]

/-- **C14 (no wrap-around).** If at least two entries were primed, every read found three entries waiting and the
total is below 2^32, `getTimeInTicks()` is *exactly* the time of the waiting entries except the first two, plus that
of the first two priming entries — an overestimate of the time really pending. -/
theorem step_buffer_time_pending (b₀ b : StepBuffer) (hi : InitReturns b₀ b) (hp : 2 ≤ b.level) (hist : List Call)
    (hfed : FedRev (primeOf b) hist) (hlt : (b.after hist.reverse).totalTime < 2 ^ 32)
    (hsmall : sumTime ((primeOf b).take 2) + sumTime ((trace (primeOf b) hist.reverse).written.drop
        ((trace (primeOf b) hist.reverse).reads + 2)) < 2 ^ 32) :
    ((b.after hist.reverse).call .getTimeInTicks).2 = .nat (2 * (b₀.minimumTotalTime / b₀.minimumLevel)
      + sumTime ((trace (primeOf b) hist.reverse).written.drop ((trace (primeOf b) hist.reverse).reads + 2))) := by
  have h := total_fed (rep_primeOf hi) (by simpa [primeOf, priming] using hp) (total_primeOf hi) hfed
  have h0 := rep_of_init hi
  have e : sumTime ((primeOf b).take 2) = 2 * (b₀.minimumTotalTime / b₀.minimumLevel) := by
    simp only [primeOf, priming, List.take_replicate, Nat.min_eq_left hp, h0.1, h0.2.1]
    simp [sumTime, List.replicate]
    omega
  rw [Nat.mod_eq_of_lt hlt, Nat.mod_eq_of_lt hsmall, e] at h
  simp only [call, h]

/-- **C15.** `getLastError()` reports the latest overflow or underflow since the last `getLastError()` (the flag
survives `initialize()`) and clears it. -/
theorem step_buffer_error_reporting (b₀ b : StepBuffer) (hi : InitReturns b₀ b) (calls : List Call) :
    ((b.after calls).call .getLastError).2 = .event (lastErrorRev (primeOf b) b₀.lastError calls.reverse) ∧
    ((b.after (calls ++ [.getLastError])).call .getLastError).2 = .event .none := by
  have h := lastError_after (rep_primeOf hi) calls.reverse
  rw [List.reverse_reverse, (rep_of_init hi).2.2.1] at h
  constructor
  · simp only [call, getLastError, h]
  · rw [after_snoc]; rfl

/-- **C15 (harmless).** A `write` to a full buffer and a `read` from an empty one change nothing but the error flag:
every later call other than `getLastError` answers as if they had not happened; the read returns {1000, 1000}. -/
theorem step_buffer_incident_harmless (b₀ b : StepBuffer) (hi : InitReturns b₀ b) (calls : List Call) :
    (∀ s, (trace (primeOf b) calls).waiting = 256 →
      (b.after calls).write s = { b.after calls with lastError := .stepBufferOverflow }) ∧
    ((trace (primeOf b) calls).waiting = 0 →
      (b.after calls).read = ({ b.after calls with lastError := .stepBufferUnderflow }, ⟨1000, 1000⟩)) ∧
    (∀ e more c, c ≠ .getLastError → ∀ s : StepBuffer,
      (({ s with lastError := e }.after more).call c).2 = ((s.after more).call c).2) := by
  have hl := (rep_after (rep_primeOf hi) calls).level_eq
  refine ⟨?_, ?_, ?_⟩
  · intro s h
    have : (b.after calls).level = 256 := by rw [hl]; exact h
    simp [write, length, this]
  · intro h
    have : (b.after calls).level = 0 := by rw [hl]; exact h
    simp [StepBuffer.read, this]
  · intro e more
    have key : ∀ s : StepBuffer, ∃ e', StepBuffer.after { s with lastError := e } more
        = { (s.after more) with lastError := e' } := by
      intro s
      induction more using List.reverseRecOn' with
      | nil => exact ⟨e, rfl⟩
      | snoc more c ih =>
        obtain ⟨e', he'⟩ := ih
        rw [after_snoc, after_snoc, he']
        generalize s.after more = s'
        cases c with
        | write x => by_cases hl : s'.level < length <;> simp [call, write, hl]
        | read => by_cases hl : s'.level > 0 <;> simp [call, StepBuffer.read, hl]
        | getLastError => exact ⟨.none, rfl⟩
        | needsFilling => exact ⟨e', rfl⟩
        | getTimeInTicks => exact ⟨e', rfl⟩
        | getLevel => exact ⟨e', rfl⟩
    intro c hc s
    obtain ⟨e', he'⟩ := key s
    rw [he']
    generalize s.after more = s'
    cases c with
    | write x => rfl
    | read => by_cases hl : s'.level > 0 <;> simp [call, StepBuffer.read, hl]
    | getLastError => exact absurd rfl hc
    | needsFilling => rfl
    | getTimeInTicks => rfl
    | getLevel => rfl

/-- **C16 (exact condition).** For a positive minimum level, `initialize()` returns iff some number of entries up to
256 satisfies both minima, the time being accumulated in 32 bits; it does not depend on the previous contents. -/
theorem step_buffer_init_returns_iff (b₀ : StepBuffer) (hl : 0 < b₀.minimumLevel) :
    (∃ b, InitReturns b₀ b) ↔
      ∃ n ≤ 256, b₀.minimumLevel ≤ n ∧
        b₀.minimumTotalTime ≤ (n * (b₀.minimumTotalTime / b₀.minimumLevel)) % 2 ^ 32 := by
  constructor
  · rintro ⟨b, fuel, hf⟩
    obtain ⟨m, -, h2, -, h4, -⟩ := initLoop_done (b := b₀.reset) (n := 0) (primed_reset _ _) (by omega) hf
    exact ⟨m, h2, h4⟩
  · rintro ⟨n, hn, he⟩
    obtain ⟨b, hb⟩ := initLoop_of_enough (b := b₀.reset) (n := 0) hl (primed_reset _ _) hn (Nat.zero_le _) he
    exact ⟨b, _, hb⟩

/-- **C16 is violated by the code.** With a minimum time of 3 ticks and a minimum level of 4 the priming entries last
0 ticks and `initialize()` loops forever; with a minimum time of 3 and a minimum level of 0 it divides by zero. -/
theorem step_buffer_init_violated (b₀ : StepBuffer) (ht : b₀.minimumTotalTime = 3) :
    (b₀.minimumLevel = 4 → ∀ fuel, initLoop fuel b₀.reset = .running) ∧
    (b₀.minimumLevel = 0 → ∃ fuel, initLoop fuel b₀.reset = .divisionByZero) := by
  constructor
  · intro hl fuel
    have key : ∀ fuel (c : StepBuffer), c.totalTime = 0 → c.minimumTotalTime = 3 → c.minimumLevel = 4 →
        initLoop fuel c = .running := by
      intro fuel
      induction fuel with
      | zero => intro c h1 h2 h3; simp [initLoop, needsFilling, h1, h2]
      | succ fuel ih =>
        intro c h1 h2 h3
        have hn : c.needsFilling = true := by simp [needsFilling, h1, h2]
        simp only [initLoop, hn, if_true, h3, h2, Nat.reduceEqDiff, if_false]
        have hw := write_minimum c ⟨3 / 4, 0⟩
        apply ih
        · simp only [write]; split
          · simp [u32add, h1]
          · exact h1
        · rw [hw.1, h2]
        · rw [hw.2.1, h3]
    exact key fuel _ rfl ht hl
  · intro hl
    refine ⟨1, ?_⟩
    simp [initLoop, needsFilling, reset, ht, hl]

/-- **C16 (partial).** Full property: `initialize()` returns for *all* constructor arguments. Proved: it returns when
both minima are zero, or when the minimum level is between 1 and 255, the minimum time is at least its square and
the time total cannot wrap; and whenever it returns, `needsFilling()` is false, at most 256 entries are waiting, all
with zero signals. Missing: the arguments excluded by `step_buffer_init_returns_iff`, for which the property is
false (`step_buffer_init_violated`). -/
theorem step_buffer_init_partial (b₀ : StepBuffer) :
    ((b₀.minimumLevel = 0 ∧ b₀.minimumTotalTime = 0) ∨
      (0 < b₀.minimumLevel ∧ b₀.minimumLevel ≤ 255 ∧
        b₀.minimumLevel * b₀.minimumLevel ≤ b₀.minimumTotalTime ∧ b₀.minimumTotalTime < 2 ^ 31) →
      ∃ b, InitReturns b₀ b) ∧
    (∀ b, InitReturns b₀ b → (b.call .needsFilling).2 = .bool false ∧ b.level ≤ 256 ∧
      ∀ i < b.level, b.sigs ((b.head + i) % 256) = 0) := by
  constructor
  · rintro (⟨h1, h2⟩ | ⟨h1, h2, h3, h4⟩)
    · exact ⟨b₀.reset, 0, by simp [initLoop, needsFilling, reset, h1, h2]⟩
    · rw [step_buffer_init_returns_iff b₀ h1]
      refine ⟨b₀.minimumLevel + 1, by omega, by omega, ?_⟩
      have hd := Nat.div_add_mod b₀.minimumTotalTime b₀.minimumLevel
      have hm := Nat.mod_lt b₀.minimumTotalTime h1
      generalize b₀.minimumTotalTime / b₀.minimumLevel = w at *
      have hw : b₀.minimumLevel ≤ w := by
        rcases Nat.lt_or_ge w b₀.minimumLevel with h | h
        · exfalso
          have : b₀.minimumLevel * (w + 1) ≤ b₀.minimumLevel * b₀.minimumLevel :=
            Nat.mul_le_mul_left _ h
          rw [Nat.mul_add] at this
          omega
        · exact h
      have hle : w ≤ b₀.minimumLevel * w := Nat.le_mul_of_pos_left _ h1
      rw [Nat.add_mul, Nat.one_mul]
      rw [Nat.mod_eq_of_lt (by omega)]
      omega
  · intro b hi
    obtain ⟨-, -, -, h1, h2, h3⟩ := rep_of_init hi
    refine ⟨by simp [call, h2], h1, fun i hi' => ?_⟩
    have := h3.rep.sigs_eq i (by simpa using hi') (Nat.zero_le _)
    have hh : b.head = 0 := by simpa using h3.rep.head_eq
    rw [hh, Nat.zero_add, this]
    simp

/-- The configuration of the cnc3axis machine (machineproperties.h): 1500 ticks, 4 entries; all else zero. -/
def shippedRaw : StepBuffer := ⟨fun _ => 0, fun _ => 0, 0, 0, 0, 1500, 4, .none⟩

/-- That configuration after `initialize()`. -/
def shipped : StepBuffer :=
  (((shippedRaw.write ⟨375, 0⟩).write ⟨375, 0⟩).write ⟨375, 0⟩).write ⟨375, 0⟩

theorem shipped_init : InitReturns shippedRaw shipped := ⟨4, rfl⟩

/-- The schedule of the counterexample: two interrupts, then 255 rounds of the filling loop with outputs of one tick
each. -/
def denseSchedule : List FillLoop.Op :=
  [.interrupt, .interrupt] ++
    ((List.range 255).map fun i => [.check, .put ⟨1, BitVec.ofNat 32 (i % 2)⟩]).flatten

/-- **C17 is violated by the code.** In the shipped configuration, after two interrupts, calculated outputs of one
tick each (several axes stepping on successive ticks) fill the buffer completely while `needsFilling()` still says
true, because the accounted total never drops the times of two priming entries (750 ticks) and 256 entries of one
tick do not reach 1500 ticks: the next calculated output is lost. -/
theorem fill_loop_violated : ((⟨shipped, false, []⟩ : FillLoop).run denseSchedule).lost = [⟨1, 0⟩] := by
  decide +kernel

/-- **C17 (partial).** Full property: the loop never loses a calculated output. Proved, for the shipped configuration
(1500 ticks, 4 entries): no output is lost in any interleaving of loop checks, writes and interrupts, provided every
interrupt finds at least three entries and any 254 consecutive entries last at least 750 ticks in total (and each less
than 2^23 ticks). Missing: denser outputs, for which the property is false (`fill_loop_violated`). -/
theorem fill_loop_partial (b₀ b : StepBuffer) (hi : InitReturns b₀ b) (h1 : b₀.minimumTotalTime = 1500)
    (h2 : b₀.minimumLevel = 4) (ops : List FillLoop.Op)
    (hfed : FedRev (List.replicate 4 ⟨375, 0⟩) ((⟨b, false, []⟩ : FillLoop).calls ops).reverse)
    (hshort : ∀ s ∈ (trace (List.replicate 4 ⟨375, 0⟩) ((⟨b, false, []⟩ : FillLoop).calls ops)).written,
      s.timeBefore ≤ 2 ^ 23)
    (hdense : let W := (trace (List.replicate 4 ⟨375, 0⟩) ((⟨b, false, []⟩ : FillLoop).calls ops)).written
      ∀ i, i + 254 ≤ W.length → 750 ≤ sumTime ((W.drop i).take 254)) :
    ((⟨b, false, []⟩ : FillLoop).run ops).lost = [] :=
  (FillLoop.committed_room hi h1 h2 ops hfed ⟨hshort, hdense⟩).2

/-- **C17 (partial, simple form).** In the shipped configuration no output is lost if every calculated output lasts
at least three ticks (at most 2^23) and every interrupt finds at least three entries. -/
theorem fill_loop_three_ticks_partial (b₀ b : StepBuffer) (hi : InitReturns b₀ b)
    (h1 : b₀.minimumTotalTime = 1500) (h2 : b₀.minimumLevel = 4) (ops : List FillLoop.Op)
    (hfed : FedRev (List.replicate 4 ⟨375, 0⟩) ((⟨b, false, []⟩ : FillLoop).calls ops).reverse)
    (h3 : ∀ s, FillLoop.Op.put s ∈ ops → 3 ≤ s.timeBefore ∧ s.timeBefore ≤ 2 ^ 23) :
    ((⟨b, false, []⟩ : FillLoop).run ops).lost = [] := by
  have hc : ∀ (f : FillLoop) (ops : List FillLoop.Op) s, Call.write s ∈ f.calls ops → FillLoop.Op.put s ∈ ops := by
    intro f ops
    induction ops generalizing f with
    | nil => intro s h; simp [FillLoop.calls] at h
    | cons o ops ih =>
      intro s h
      cases o with
      | check => exact List.mem_cons_of_mem _ (ih _ s h)
      | put x =>
        simp only [FillLoop.calls, List.mem_append] at h
        rcases h with h | h
        · split at h
          · simp only [List.mem_singleton, Call.write.injEq] at h
            rw [h]; exact List.mem_cons_self ..
          · simp at h
        · exact List.mem_cons_of_mem _ (ih _ s h)
      | interrupt =>
        simp only [FillLoop.calls, List.mem_cons, reduceCtorEq, false_or] at h
        exact List.mem_cons_of_mem _ (ih _ s h)
  have hW : ∀ (cs : List Call), ∀ s ∈ (trace (List.replicate 4 ⟨375, 0⟩) cs).written,
      s = ⟨375, 0⟩ ∨ Call.write s ∈ cs := by
    intro cs
    induction cs using List.reverseRecOn' with
    | nil => intro s hs; left; simpa [trace] using hs
    | snoc cs c ih =>
      intro s hs
      rw [trace_snoc] at hs
      have key : s ∈ (trace (List.replicate 4 ⟨375, 0⟩) cs).written ∨ c = .write s := by
        cases c with
        | write x =>
          simp only [next] at hs
          split at hs
          · simp only [List.mem_append, List.mem_singleton] at hs
            rcases hs with hs | hs
            · exact .inl hs
            · right; rw [hs]
          · exact .inl hs
        | read => simp only [next] at hs; split at hs <;> exact .inl hs
        | needsFilling => exact .inl hs
        | getTimeInTicks => exact .inl hs
        | getLevel => exact .inl hs
        | getLastError => exact .inl hs
      rcases key with h | h
      · rcases ih s h with h | h
        · exact .inl h
        · right; simp [h]
      · right; simp [h]
  have hall : ∀ s ∈ (trace (List.replicate 4 ⟨375, 0⟩) ((⟨b, false, []⟩ : FillLoop).calls ops)).written,
      3 ≤ s.timeBefore ∧ s.timeBefore ≤ 2 ^ 23 := by
    intro s hs
    rcases hW _ s hs with h | h
    · subst h; decide
    · exact h3 s (hc _ _ s h)
  refine fill_loop_partial b₀ b hi h1 h2 ops hfed (fun s hs => (hall s hs).2) ?_
  intro W i hlen
  have := FillLoop.le_sumTime ((W.drop i).take 254) 3
    (fun s hs => (hall s (List.mem_of_mem_drop (List.mem_of_mem_take hs))).1)
  have hl : ((W.drop i).take 254).length = 254 := by simp; omega
  rw [hl] at this
  omega

/-! Concrete cases. -/

/-- `initialize()` returns for the shipped configuration, which satisfies the sufficient condition. -/
example : ∃ b, InitReturns shippedRaw b := ⟨_, shipped_init⟩
example : 0 < shippedRaw.minimumLevel ∧ shippedRaw.minimumLevel ≤ 255 ∧
    shippedRaw.minimumLevel * shippedRaw.minimumLevel ≤ shippedRaw.minimumTotalTime ∧
    shippedRaw.minimumTotalTime < 2 ^ 31 := by decide

/-- Four priming entries, then three written ones, interleaved with expiries of the timer. -/
def exampleOps : List PinOutput.Op :=
  [.write ⟨5, 1⟩, .expire, .write ⟨7, 3⟩, .expire, .write ⟨2, 0⟩, .expire, .expire, .expire, .write ⟨9, 1⟩,
    .write ⟨9, 0⟩, .expire, .expire]

/-- It meets the hypotheses of `pins_follow_waveform`, and the pins indeed show patterns 1, 3, 0 5, 7 and 2 ticks
after their predecessors. -/
example : FedRev (primeOf shipped) (PinOutput.calls exampleOps).reverse ∧
    (∀ s ∈ (trace (primeOf shipped) (PinOutput.calls exampleOps)).written, 1 ≤ s.timeBefore ∧ s.timeBefore < 2 ^ 32) ∧
    ((PinOutput.start shipped).run exampleOps).pins =
      [(101, 0), (202, 0), (577, 0), (952, 0), (957, 1), (964, 3), (966, 0)] := by decide +kernel

/-- A fed history on which the exact total is as stated: 2 · 375 plus the entries after the first two waiting. -/
example : FedRev (primeOf shipped) [.write ⟨5, 1⟩, .read] ∧ (shipped.after [.read, .write ⟨5, 1⟩]).totalTime = 1130 := by
  decide +kernel

/-- A full buffer exists: 252 writes after priming. -/
example : (trace (primeOf shipped) (List.replicate 252 (.write ⟨1, 0⟩))).waiting = 256 := by decide +kernel

/-- A schedule with long outputs meets the hypotheses of `fill_loop_three_ticks_partial`. -/
example : let ops := [FillLoop.Op.interrupt, .check, .put ⟨3, 1⟩, .check, .interrupt, .put ⟨4, 0⟩]
    FedRev (List.replicate 4 ⟨375, 0⟩) ((⟨shipped, false, []⟩ : FillLoop).calls ops).reverse ∧
    ((⟨shipped, false, []⟩ : FillLoop).calls ops).length = 4 := by decide +kernel

/-- The counterexample of `fill_loop_violated` is a fed execution: the loss is not caused by an underrun. -/
example : FedRev (primeOf shipped) ((⟨shipped, false, []⟩ : FillLoop).calls denseSchedule).reverse := by
  decide +kernel

end Moovr.Props
