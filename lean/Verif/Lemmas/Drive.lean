import Verif.Model.Drive
import Verif.Lemmas.Overflow
import Verif.Props.MotionCtrl
/-! Helper lemmas for the way from the motion controller to the pins. -/
namespace Moovr.Drive
open StepQueueSpec StepBuffer MotionSpec PulseSpec
variable {K : MotionKit}

/-- The entries with which the shipped buffer starts. -/
abbrev prime : List Step := List.replicate 4 ⟨375, 0⟩

/-- The filling loop at first. -/
abbrev loop₀ (b : StepBuffer) : FillLoop := ⟨b, false, []⟩

/-- The parts of the system have made the operations `fops`, `pops` and the calls of the log. -/
structure Sim (b : StepBuffer) (w : K.Time) (s : Drive K) (fops : List FillLoop.Op) (pops : List PinOutput.Op) : Prop where
  fill : (loop₀ b).run fops = ⟨s.out.buffer, s.pending.isSome, s.lost⟩
  pin : (PinOutput.start b).run pops = s.out
  same : PinOutput.calls pops = (loop₀ b).calls fops
  entries : written (loop₀ b) fops ++ s.pending.toList = entriesOf s.log
  hist : (MotionCtrl.fresh K).run (s.log.map Prod.fst) = some (s.ctrl, s.log)
  shape : ∃ rest, s.log = (.configure 375 w, ⟨[], none, []⟩) :: rest ∧ ∀ x ∈ rest, ∀ m v, x.1 ≠ Call.configure m v

theorem sim_start (b : StepBuffer) (w : K.Time) : Sim b w (start K b w) [] [] :=
  ⟨rfl, rfl, rfl, rfl, rfl, [], rfl, by simp⟩

theorem hist_snoc {c c' : MotionCtrl K} {log : Log K.Req (Option K.Req) K.Time K.Ovr} {k} {r}
    (h : (MotionCtrl.fresh K).run (log.map Prod.fst) = some (c, log)) (hc : c.call k = some (c', r)) :
    (MotionCtrl.fresh K).run ((log ++ [(k, r)]).map Prod.fst) = some (c', log ++ [(k, r)]) := by
  generalize MotionCtrl.fresh K = c₀ at h
  induction log generalizing c₀ with
  | nil =>
    simp only [List.map_nil, MotionCtrl.run, Option.some.injEq, Prod.mk.injEq] at h
    rw [h.1]
    simp [MotionCtrl.run, hc]
  | cons x log ih =>
    obtain ⟨k', r'⟩ := x
    simp only [List.map_cons, MotionCtrl.run] at h
    simp only [List.cons_append, List.map_cons, MotionCtrl.run]
    cases hx : c₀.call k' with
    | none => rw [hx] at h; simp at h
    | some y =>
      rw [hx] at h
      simp only [Option.map_eq_some_iff, Prod.exists, Prod.mk.injEq, List.cons.injEq] at h
      obtain ⟨c₂, l, h1, h2, h3, h4⟩ := h
      subst h2 h4
      simp only [ih _ h1, Option.map_some, h3]

theorem entriesOf_snoc {A B C D : Type} (log : Log A B C D) (x) : entriesOf (log ++ [x]) = entriesOf log ++ x.2.entry.toList := by
  simp [entriesOf]

/-- What an operation is to the filling loop. -/
def fillOps (s : Drive K) : Op K → List FillLoop.Op
  | .check => [.check]
  | .put => s.pending.toList.map .put
  | .expire => [.interrupt]
  | _ => []

/-- What an operation is to the pins. -/
def pinOps (s : Drive K) : Op K → List PinOutput.Op
  | .put => s.pending.toList.map .write
  | .expire => [.expire]
  | _ => []

/-- One operation, as seen by the parts. -/
theorem Sim.step {b : StepBuffer} {w : K.Time} {s s' : Drive K} {fops pops} (h : Sim b w s fops pops) {op : Op K}
    (hs : s.step op = some s') : Sim b w s' (fops ++ fillOps s op) (pops ++ pinOps s op) := by
  cases op with
  | elapse n =>
    simp only [Drive.step] at hs
    split at hs
    · simp only [Option.some.injEq] at hs
      subst hs
      simpa [fillOps, pinOps] using (⟨h.fill, h.pin, h.same, h.entries, h.hist, h.shape⟩ : Sim b w { s with now := s.now + n } fops pops)
    · simp at hs
  | check =>
    simp only [Drive.step] at hs
    split at hs
    · simp at hs
    · rename_i hp
      have hp' : s.pending = none := by simpa using hp
      have hc : ((loop₀ b).run fops).committed = false := by rw [h.fill]; simp [hp']
      split at hs
      · rename_i hnf
        simp only [Option.map_eq_some_iff, Prod.exists] at hs
        obtain ⟨c, r, hcall, rfl⟩ := hs
        have hr : ∃ e, r.entry = some e := by
          simp only [MotionCtrl.call, Option.map_eq_some_iff, Prod.exists, Prod.mk.injEq] at hcall
          obtain ⟨_, _, _, _, _, rfl⟩ := hcall
          exact ⟨_, rfl⟩
        obtain ⟨e, he⟩ := hr
        simp only [fillOps, pinOps]
        refine ⟨?_, by simpa using h.pin, ?_, ?_, hist_snoc h.hist hcall, ?_⟩
        · rw [FillLoop.run_snoc, h.fill]
          simp [FillLoop.step, hp', hnf, he]
        · rw [List.append_nil, FillLoop.calls_snoc, h.same]; simp [FillLoop.calls]
        · rw [FillLoop.written_snoc, entriesOf_snoc, ← h.entries, hp']
          simp [written, FillLoop.calls]
        · obtain ⟨rest, e1, e2⟩ := h.shape
          refine ⟨rest ++ [(.calculate, r)], by simp only [e1]; rfl, ?_⟩
          intro x hx m v
          rcases List.mem_append.1 hx with hx | hx
          · exact e2 x hx m v
          · rw [List.mem_singleton.1 hx]; intro h; cases h
      · rename_i hnf
        simp only [Option.some.injEq] at hs
        subst hs
        simp only [fillOps, pinOps]
        refine ⟨?_, by simpa using h.pin, ?_, ?_, h.hist, h.shape⟩
        · rw [FillLoop.run_snoc, h.fill]
          simp [FillLoop.step, hp', hnf]
        · rw [List.append_nil, FillLoop.calls_snoc, h.same]; simp [FillLoop.calls]
        · rw [FillLoop.written_snoc, ← h.entries]
          simp [written, FillLoop.calls]
  | put =>
    simp only [Drive.step, Option.map_eq_some_iff] at hs
    obtain ⟨e, he, rfl⟩ := hs
    have hc : ((loop₀ b).run fops).committed = true := by rw [h.fill]; simp [he]
    simp only [fillOps, pinOps, he, Option.toList_some, List.map_cons, List.map_nil]
    refine ⟨?_, ?_, ?_, ?_, h.hist, h.shape⟩
    · rw [FillLoop.run_snoc, h.fill]
      simp [FillLoop.step, PinOutput.step, he]
    · rw [PinOutput.run_snoc, h.pin]
    · rw [PinOutput.calls_snoc, FillLoop.calls_snoc, h.same]
      simp [FillLoop.calls, PinOutput.calls, hc]
    · rw [FillLoop.written_snoc]
      have e0 := h.entries
      rw [he] at e0
      simp only [← e0, written, FillLoop.calls, hc, if_true]
      simp
  | expire =>
    simp only [Drive.step] at hs
    split at hs
    · simp only [Option.some.injEq] at hs
      subst hs
      simp only [fillOps, pinOps]
      refine ⟨?_, ?_, ?_, ?_, h.hist, h.shape⟩
      · rw [FillLoop.run_snoc, h.fill]
        simp [FillLoop.step, PinOutput.step, PinOutput.interrupt]
      · rw [PinOutput.run_snoc, h.pin]
      · rw [PinOutput.calls_snoc, FillLoop.calls_snoc, h.same]
        simp [FillLoop.calls, PinOutput.calls]
      · rw [FillLoop.written_snoc, ← h.entries]
        simp [written, FillLoop.calls]
    · simp at hs
  | call k =>
    simp only [Drive.step] at hs
    split at hs
    · simp at hs
    · rename_i hk
      simp only [Bool.or_eq_true, not_or, Bool.not_eq_true] at hk
      simp only [Option.map_eq_some_iff, Prod.exists] at hs
      obtain ⟨c, r, hcall, rfl⟩ := hs
      have hr : r.entry = none := by
        cases k <;> simp [reserved] at hk <;> simp only [MotionCtrl.call, Option.some.injEq, Prod.mk.injEq] at hcall <;>
          obtain ⟨-, rfl⟩ := hcall <;> rfl
      simp only [fillOps, pinOps, List.append_nil]
      refine ⟨h.fill, h.pin, h.same, ?_, hist_snoc h.hist hcall, ?_⟩
      · rw [entriesOf_snoc, ← h.entries, hr]; simp
      · obtain ⟨rest, e1, e2⟩ := h.shape
        refine ⟨rest ++ [(k, r)], by simp only [e1]; rfl, ?_⟩
        intro x hx m v
        rcases List.mem_append.1 hx with hx | hx
        · exact e2 x hx m v
        · rw [List.mem_singleton.1 hx]; rintro rfl; simp [reserved] at hk

theorem timely_bounds {A B C D : Type} {n : Nat} (log : Log A B C D) (hc : ∀ x ∈ log, ∀ m v, x.1 ≠ Call.configure m v) :
    EntriesTimely n log → ∀ e ∈ entriesOf log, 1 ≤ e.timeBefore ∧ e.timeBefore ≤ max 1 n := by
  induction log with
  | nil => intro _ e he; simp [entriesOf] at he
  | cons x log ih =>
    obtain ⟨k, r⟩ := x
    intro h e he
    have hmem : e ∈ r.entry.toList ∨ e ∈ entriesOf log := by simpa [entriesOf] using he
    have ih' := ih fun x hx => hc x (List.mem_cons_of_mem _ hx)
    cases k with
    | configure m' w => exact absurd rfl (hc (.configure m' w, r) (by simp) m' w)
    | _ =>
      rcases hmem with h' | h'
      · have := h.1 e (by simpa [Option.mem_toList] using h')
        exact ⟨this.1, this.2.1⟩
      · exact ih' h.2 e h'

/-- Every output lasts between 1 and 375 ticks. -/
theorem Sim.bounds {b : StepBuffer} {w : K.Time} {s : Drive K} {fops pops} (h : Sim b w s fops pops) :
    ∀ e ∈ entriesOf s.log, 1 ≤ e.timeBefore ∧ e.timeBefore ≤ 375 := by
  obtain ⟨rest, e1, e2⟩ := h.shape
  have ht := Props.motion_entry_duration _ _ _ h.hist
  rw [e1] at ht
  have := timely_bounds rest e2 ht.2
  intro e he
  rw [e1] at he
  exact this e (by simpa [entriesOf] using he)

theorem mem_trace {cs : List Call} {e : Step} (h : e ∈ (trace prime cs).written) :
    e ∈ prime ∨ e ∈ cs.filterMap fun c => match c with | .write s => some s | _ => none := by
  induction cs using List.reverseRecOn' with
  | nil => exact .inl h
  | snoc cs x ih =>
    rw [trace_snoc] at h
    rw [List.filterMap_append, List.mem_append]
    cases x with
    | write s =>
      simp only [StepQueueSpec.next] at h
      split at h
      · rcases List.mem_append.1 h with h | h
        · rcases ih h with h | h
          · exact .inl h
          · exact .inr (.inl h)
        · right; right; simpa using h
      · rcases ih h with h | h
        · exact .inl h
        · exact .inr (.inl h)
    | read =>
      have : e ∈ (trace prime cs).written := by
        simp only [StepQueueSpec.next] at h; split at h <;> exact h
      rcases ih this with h | h
      · exact .inl h
      · exact .inr (.inl h)
    | _ =>
      rcases ih h with h | h
      · exact .inl h
      · exact .inr (.inl h)

theorem Sim.times {b : StepBuffer} {w : K.Time} {s : Drive K} {fops pops} (h : Sim b w s fops pops) :
    ∀ e ∈ (trace prime (PinOutput.calls pops)).written, 1 ≤ e.timeBefore ∧ e.timeBefore ≤ 375 := by
  intro e he
  rw [h.same] at he
  rcases mem_trace he with h' | h'
  · rw [List.eq_of_mem_replicate h']; decide
  · have : e ∈ entriesOf s.log := by
      rw [← h.entries]; exact List.mem_append_left _ h'
    exact h.bounds e this

/-! ## The deadline -/

/-- When the loop last found the buffer full enough, `r` entries had been read and `n` written. -/
structure Ahead (s : Drive K) (t : StepQueueSpec.Trace) (r n : Nat) : Prop where
  reads : r ≤ t.reads
  written : n ≤ t.written.length
  four : r + 4 ≤ n
  sum : 750 ≤ sumTime ((t.written.take n).drop (r + 2))
  now : s.now ≤ s.out.nextExpiry
  at0 : s.lastFull ≤ s.out.nextExpiry
  later : r + 1 ≤ t.reads → s.lastFull + 1 + sumTime ((t.written.take (t.reads + 1)).drop (r + 2)) ≤ s.out.nextExpiry

theorem sumTime_split (l : List Step) {i j k : Nat} (h1 : i ≤ j) (h2 : j ≤ k) (_h3 : k ≤ l.length) :
    sumTime ((l.take k).drop i) = sumTime ((l.take j).drop i) + sumTime ((l.take k).drop j) := by
  have e : l.take k = l.take j ++ (l.take k).drop j := by
    conv_lhs => rw [← List.take_append_drop j (l.take k)]
    rw [List.take_take, Nat.min_eq_left h2]
  conv_lhs => rw [e]
  rw [List.drop_append_of_le_length (by rw [List.length_take]; omega), sumTime_append]

/-- In time: at least three entries are waiting. -/
theorem Ahead.fed {s : Drive K} {t : StepQueueSpec.Trace} {r n : Nat} (h : Ahead s t r n) (ht : ∀ e ∈ t.written, e.timeBefore ≤ 375)
    (hl : t.reads ≤ t.written.length) (hn : s.now = s.out.nextExpiry) (hd : s.now ≤ s.lastFull + 375) : 3 ≤ t.waiting := by
  by_contra hc
  have hw : t.waiting = t.written.length - t.reads := rfl
  have h1 := h.written
  have h2 := h.four
  have h3 := h.later (by omega)
  have h4 := sumTime_split t.written (i := r + 2) (j := n - 1) (k := n) (by omega) (by omega) (by omega)
  have h5 : sumTime ((t.written.take n).drop (n - 1)) ≤ 375 := by
    have := FillLoop.sumTime_le ((t.written.take n).drop (n - 1)) 375 fun e he => ht e (List.mem_of_mem_take (List.mem_of_mem_drop he))
    rw [List.length_drop, List.length_take] at this
    have e : min n t.written.length - (n - 1) = 1 := by omega
    rw [e, one_mul] at this
    exact this
  have h6 : sumTime ((t.written.take (n - 1)).drop (r + 2)) ≤ sumTime ((t.written.take (t.reads + 1)).drop (r + 2)) := by
    have e : t.written.take (t.reads + 1) = t.written.take (min (t.reads + 1) t.written.length) := by
      rw [List.take_eq_take_iff]; omega
    rw [e, sumTime_split t.written (i := r + 2) (j := n - 1) (k := min (t.reads + 1) t.written.length) (by omega) (by omega) (by omega)]
    omega
  have := h.sum
  omega

/-- The state of the system when the loop is punctual. -/
structure Well (b : StepBuffer) (w : K.Time) (s : Drive K) : Prop where
  sim : ∃ fops pops, Sim b w s fops pops ∧ FedRev prime (PinOutput.calls pops).reverse ∧
    ∃ r n, Ahead s (trace prime (PinOutput.calls pops)) r n

variable {b₀ b : StepBuffer}

theorem well_start (w : K.Time) : Well b w (start K b w) :=
  ⟨[], [], sim_start b w, trivial, 0, 4, by
    refine ⟨Nat.zero_le _, le_of_eq rfl, le_rfl, by decide, Nat.zero_le _, Nat.zero_le _, fun h => ?_⟩
    exact absurd h (by decide)⟩

theorem Well.step (hi : InitReturns b₀ b) (h1 : b₀.minimumTotalTime = 1500) (h2 : b₀.minimumLevel = 4) {w : K.Time} {s s' : Drive K}
    (h : Well b w s) {op : Op K} (hd : op = .expire → s.now ≤ s.lastFull + 375) (hs : s.step op = some s') : Well b w s' := by
  obtain ⟨s1, s2, s3, s4⟩ := FillLoop.shipped_priming hi h1 h2
  change _ = prime at s4
  have hrep : Rep b ⟨prime, 0⟩ := by rw [← s4]; exact rep_priming hi
  have htot : b.totalTime % 4294967296 = sumTime prime % 4294967296 := by
    have := total_priming hi
    rwa [s4] at this
  obtain ⟨fops, pops, hsim, hfed, r, n, ha⟩ := h
  have hsim' := hsim.step hs
  have hinv := PinOutput.inv_run hrep pops hfed fun e he => by
    have := hsim.times e he; exact ⟨this.1, by omega⟩
  rw [hsim.pin] at hinv
  have hkeep : pinOps s op = [] → s'.out = s.out → s'.lastFull = s.lastFull → s'.now ≤ s.out.nextExpiry → Well b w s' := by
    intro e1 e2 e3 e4
    refine ⟨_, _, hsim', ?_, r, n, ?_⟩
    · rw [e1, List.append_nil]; exact hfed
    · rw [e1, List.append_nil]
      exact ⟨ha.reads, ha.written, ha.four, ha.sum, e2 ▸ e4, by rw [e2, e3]; exact ha.at0, by rw [e2, e3]; exact ha.later⟩
  cases op with
  | elapse k =>
    simp only [Drive.step] at hs
    split at hs
    · rename_i hk
      simp only [Option.some.injEq] at hs
      subst hs
      exact hkeep rfl rfl rfl hk
    · simp at hs
  | call k =>
    simp only [Drive.step] at hs
    split at hs
    · simp at hs
    · simp only [Option.map_eq_some_iff, Prod.exists] at hs
      obtain ⟨c, x, -, rfl⟩ := hs
      exact hkeep rfl rfl rfl ha.now
  | check =>
    simp only [Drive.step] at hs
    split at hs
    · simp at hs
    · split at hs
      · simp only [Option.map_eq_some_iff, Prod.exists] at hs
        obtain ⟨c, x, -, rfl⟩ := hs
        exact hkeep rfl rfl rfl ha.now
      · rename_i hnf
        simp only [Option.some.injEq] at hs
        subst hs
        refine ⟨_, _, hsim', by simpa [pinOps] using hfed, ?_⟩
        simp only [pinOps, List.append_nil]
        have hb : s.out.buffer = b.after (PinOutput.calls pops) := by
          have e1 := congrArg FillLoop.buffer hsim.fill
          rw [FillLoop.buffer_run, ← hsim.same] at e1
          exact e1.symm
        have htf := total_fed hrep (by simp) htot hfed
        rw [List.reverse_reverse, ← hb] at htf
        have hmin := minimum_after b (PinOutput.calls pops)
        rw [← hb, s2, s3] at hmin
        have hlev := hinv.rep.level_eq
        have hreads := hinv.rep.reads_le
        have h750 : sumTime (List.take 2 prime) = 750 := by decide
        rw [h750] at htf
        generalize trace prime (PinOutput.calls pops) = t at *
        have hw : t.waiting = t.written.length - t.reads := rfl
        simp only [needsFilling, hmin.1, hmin.2, Bool.or_eq_true, decide_eq_true_eq, not_or, not_lt] at hnf
        have hlt : s.out.buffer.totalTime % 4294967296 ≤ 750 + sumTime (t.written.drop (t.reads + 2)) := by
          rw [htf]; exact Nat.mod_le _ _
        have hlt2 : s.out.buffer.totalTime < 4294967296 := by
          rw [hb]
          exact FillLoop.total_lt_after b _ (by rw [(rep_of_init hi).2.2.2.2.2.total]; exact Nat.mod_lt _ (by decide))
        rw [Nat.mod_eq_of_lt hlt2] at hlt
        refine ⟨t.reads, t.written.length, le_rfl, le_rfl, by omega, ?_, ha.now, ha.now, fun h => absurd h (by omega)⟩
        rw [List.take_length]; omega
  | put =>
    simp only [Drive.step, Option.map_eq_some_iff] at hs
    obtain ⟨e, he, rfl⟩ := hs
    have hp : pinOps s (.put : Op K) = [.write e] := by simp [pinOps, he]
    rw [hp] at hsim'
    refine ⟨_, _, hsim', ?_, r, n, ?_⟩
    · rw [PinOutput.calls_snoc, List.reverse_append]; exact hfed
    · rw [PinOutput.calls_snoc, show PinOutput.calls [PinOutput.Op.write e] = [.write e] from rfl, trace_snoc]
      have hl := ha.written
      have hreads := hinv.rep.reads_le
      generalize trace prime (PinOutput.calls pops) = t at *
      have key : ∃ l, (StepQueueSpec.next t (.write e)).written = t.written ++ l ∧ (StepQueueSpec.next t (.write e)).reads = t.reads := by
        simp only [StepQueueSpec.next]; split
        · exact ⟨[e], rfl, rfl⟩
        · exact ⟨[], by simp, rfl⟩
      obtain ⟨l, k1, k2⟩ := key
      refine ⟨by rw [k2]; exact ha.reads, by rw [k1, List.length_append]; omega, ha.four, ?_, ha.now, ha.at0, ?_⟩
      · rw [k1, List.take_append_of_le_length hl]; exact ha.sum
      · rw [k1, k2]
        intro hr
        have hr1 : t.reads + 1 < t.written.length := (hinv.ldval (by omega)).1
        rw [List.take_append_of_le_length (by omega)]
        exact ha.later hr
  | expire =>
    have hd := hd rfl
    simp only [Drive.step] at hs
    split at hs
    · rename_i hn
      simp only [Option.some.injEq] at hs
      subst hs
      have h3 := ha.fed (fun e he => (hsim.times e he).2) hinv.rep.reads_le hn hd
      refine ⟨_, _, hsim', ?_, r, n, ?_⟩
      · simp only [pinOps]
        rw [PinOutput.calls_snoc, List.reverse_append]
        refine ⟨?_, hfed⟩
        show 3 ≤ (trace prime (PinOutput.calls pops).reverse.reverse).waiting
        rw [List.reverse_reverse]; exact h3
      · simp only [pinOps]
        rw [PinOutput.calls_snoc, show PinOutput.calls [PinOutput.Op.expire] = [.read] from rfl, trace_snoc]
        have hnext : StepQueueSpec.next (trace prime (PinOutput.calls pops)) .read =
            { trace prime (PinOutput.calls pops) with reads := (trace prime (PinOutput.calls pops)).reads + 1 } := by
          simp only [StepQueueSpec.next]; rw [if_pos (by omega)]
        rw [hnext]
        have hld := hinv.ldval
        generalize trace prime (PinOutput.calls pops) = t at *
        have hw : t.waiting = t.written.length - t.reads := rfl
        have hnow := ha.now
        have hat0 := ha.at0
        have hrd := ha.reads
        have e1 : (s.out.step .expire).nextExpiry = s.out.nextExpiry + (s.out.ldval + 1) := rfl
        refine ⟨by simp only; omega, ha.written, ha.four, ha.sum, by simp only [e1]; omega, by simp only [e1]; omega, fun hr => ?_⟩
        simp only [e1]
        simp only at hr
        rcases Nat.eq_or_lt_of_le hrd with h4 | h4
        · have e2 : (t.written.take (t.reads + 1 + 1)).drop (r + 2) = [] := by
            rw [List.drop_eq_nil_iff, List.length_take]; omega
          rw [e2]
          have e3 : sumTime [] = 0 := rfl
          omega
        · have h5 := ha.later h4
          obtain ⟨l1, l2⟩ := hld (by omega)
          rw [sumTime_split t.written (i := r + 2) (j := t.reads + 1) (k := t.reads + 1 + 1) (by omega) (by omega) (by omega)]
          have e4 : sumTime ((t.written.take (t.reads + 1 + 1)).drop (t.reads + 1)) = t.written[t.reads + 1].timeBefore := by
            rw [List.take_add_one, List.drop_append_of_le_length (by rw [List.length_take]; omega)]
            rw [List.drop_eq_nil_of_le (by rw [List.length_take]; omega), List.getElem?_eq_getElem l1]
            simp [sumTime]
          omega
    · simp at hs

theorem Well.run (hi : InitReturns b₀ b) (h1 : b₀.minimumTotalTime = 1500) (h2 : b₀.minimumLevel = 4) {w : K.Time} (ops : List (Op K)) :
    ∀ {s s' : Drive K}, Well b w s → Punctual 375 s ops → s.run ops = some s' → Well b w s' := by
  induction ops with
  | nil => intro s s' h _ hs; simp only [Drive.run, Option.some.injEq] at hs; rw [← hs]; exact h
  | cons op ops ih =>
    intro s s' h hp hs
    simp only [Drive.run, Option.bind_eq_some_iff] at hs
    obtain ⟨s₁, e1, e2⟩ := hs
    exact ih (h.step hi h1 h2 hp.1 e1) (hp.2 s₁ e1) e2

end Moovr.Drive
