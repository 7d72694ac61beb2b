import Verif.Model.PinOutput
import Verif.Model.FillLoop
import Verif.Lemmas.StepBuffer
/-! Helper lemmas for the pin timing and the filling loop. -/
namespace Moovr.PinOutput
open StepQueueSpec StepBuffer

/-- Invariant relating the pin updates to the trace. -/
structure Inv (o : PinOutput) (t : Trace) : Prop where
  rep : Rep o.buffer t
  len : o.pins.length = t.reads
  sigs : ∀ k (h : k < o.pins.length) (h' : k < t.written.length), o.pins[k].2 = t.written[k].signals
  gaps : ∀ k (h : k + 2 < o.pins.length) (h' : k + 2 < t.written.length),
    o.pins[k + 2].1 = o.pins[k + 1].1 + t.written[k + 2].timeBefore
  ldval : 1 ≤ t.reads → ∃ h : t.reads + 1 < t.written.length, o.ldval + 1 = t.written[t.reads + 1].timeBefore
  expiry : ∀ _ : 2 ≤ t.reads, ∃ (h : t.reads - 1 < o.pins.length) (h' : t.reads < t.written.length),
    o.nextExpiry = o.pins[t.reads - 1].1 + t.written[t.reads].timeBefore

theorem inv_start {b : StepBuffer} {prime : List Step} (h : Rep b ⟨prime, 0⟩) : Inv (start b) ⟨prime, 0⟩ := by
  refine ⟨h, rfl, ?_, ?_, ?_, ?_⟩ <;> simp [start]

theorem inv_write {o : PinOutput} {t : Trace} (h : Inv o t) (s : Step) :
    Inv (o.step (.write s)) (next t (.write s)) := by
  have hrep := rep_write h.rep s
  have hread := h.rep.reads_le
  by_cases hl : t.waiting < capacity
  · have hn : next t (.write s) = { t with written := t.written ++ [s] } := by simp [next, hl]
    rw [hn] at hrep ⊢
    have hlen := h.len
    refine ⟨hrep, h.len, ?_, ?_, ?_, ?_⟩
    · intro k hk hk'
      have hk0 : k < o.pins.length := hk
      simp only [step]
      rw [List.getElem_append_left (by omega)]
      exact h.sigs k hk (by omega)
    · intro k hk hk'
      have hk0 : k + 2 < o.pins.length := hk
      simp only [step]
      rw [List.getElem_append_left (by omega)]
      exact h.gaps k hk (by omega)
    · intro hr
      obtain ⟨h1, h2⟩ := h.ldval hr
      refine ⟨by simp; omega, ?_⟩
      simp only [step]
      rw [List.getElem_append_left (by omega)]
      exact h2
    · intro hr
      obtain ⟨h1, h2, h3⟩ := h.expiry hr
      refine ⟨h1, by simp; omega, ?_⟩
      simp only [step]
      rw [List.getElem_append_left (by omega)]
      exact h3
  · have hn : next t (.write s) = t := by simp [next, hl]
    rw [hn] at hrep ⊢
    exact ⟨hrep, h.len, h.sigs, h.gaps, h.ldval, h.expiry⟩

theorem inv_expire {o : PinOutput} {t : Trace} (h : Inv o t) (h3 : 3 ≤ t.waiting)
    (htime : ∀ s ∈ t.written, 1 ≤ s.timeBefore ∧ s.timeBefore < 4294967296) :
    Inv (o.step .expire) (next t .read) := by
  have hrep := rep_read h.rep
  have hw : t.waiting = t.written.length - t.reads := rfl
  have hn : next t .read = { t with reads := t.reads + 1 } := by
    have : 0 < t.waiting := by omega
    simp [next, this]
  have hlen := h.len
  rw [hn] at hrep ⊢
  have hb : o.buffer.level > 0 := by rw [h.rep.level_eq]; omega
  have hsig : o.buffer.read.2.signals = (t.written[t.reads]'(by omega)).signals := by
    simp only [StepBuffer.read, hb, if_true, h.rep.head_eq]
    exact h.rep.sigs_eq t.reads (by omega) (Nat.le_refl _)
  have htim : o.buffer.read.2.timeBefore = (t.written[t.reads + 2]'(by omega)).timeBefore := by
    simp only [StepBuffer.read, hb, if_true, h.rep.head_eq]
    exact h.rep.times_eq t.reads (by omega) (Nat.le_refl _)
  have hpos := htime _ (List.getElem_mem (l := t.written) (n := t.reads + 2) (by omega))
  refine ⟨hrep, ?_, ?_, ?_, ?_, ?_⟩
  · simp [step, interrupt, hlen]
  · intro k hk hk'
    simp only [step, interrupt, List.length_append, List.length_singleton] at hk
    simp only [step, interrupt]
    by_cases hkl : k < o.pins.length
    · rw [List.getElem_append_left hkl]; exact h.sigs k hkl hk'
    · have : k = o.pins.length := by omega
      subst this
      simp only [List.getElem_concat_length]
      simp only [hlen, hsig]
  · intro k hk hk'
    simp only [step, interrupt, List.length_append, List.length_singleton] at hk
    simp only [step, interrupt]
    by_cases hkl : k + 2 < o.pins.length
    · rw [List.getElem_append_left hkl, List.getElem_append_left (by omega)]; exact h.gaps k hkl hk'
    · have hk2 : k + 2 = o.pins.length := by omega
      rw [List.getElem_append_right (by omega : o.pins.length ≤ k + 2),
        List.getElem_append_left (by omega : k + 1 < o.pins.length)]
      obtain ⟨h1, h2, h3⟩ := h.expiry (by omega)
      have e1 : t.reads - 1 = k + 1 := by omega
      have e2 : t.reads = k + 2 := by omega
      simp only [e2] at h3
      simp [h3]
  · intro _
    refine ⟨by simp only; omega, ?_⟩
    simp only [step, interrupt, htim, u32sub]
    have : t.reads + 1 + 1 = t.reads + 2 := rfl
    simp only [this]
    omega
  · intro hr
    simp only at hr
    obtain ⟨h1, h2⟩ := h.ldval (by omega)
    refine ⟨by simp [step, interrupt]; omega, by simp only; omega, ?_⟩
    simp only [step, interrupt, Nat.add_sub_cancel]
    rw [List.getElem_append_right (by omega)]
    simp only [hlen, Nat.sub_self, List.getElem_cons_zero]
    omega

theorem run_snoc (o : PinOutput) (ops : List Op) (x : Op) : o.run (ops ++ [x]) = (o.run ops).step x := by
  simp [run]

theorem calls_snoc (ops : List Op) (x : Op) : calls (ops ++ [x]) = calls ops ++ calls [x] := by
  simp [calls]

theorem written_mono {prime : List Step} (cs : List Call) (c : Call) {s : Step}
    (h : s ∈ (trace prime cs).written) : s ∈ (trace prime (cs ++ [c])).written := by
  rw [trace_snoc]
  cases c with
  | write x => simp only [next]; split <;> simp [h]
  | read => simp only [next]; split <;> exact h
  | _ => exact h

theorem inv_run {b : StepBuffer} {prime : List Step} (h : Rep b ⟨prime, 0⟩) (ops : List Op)
    (hfed : FedRev prime (calls ops).reverse)
    (htime : ∀ s ∈ (trace prime (calls ops)).written, 1 ≤ s.timeBefore ∧ s.timeBefore < 4294967296) :
    Inv ((start b).run ops) (trace prime (calls ops)) := by
  induction ops using List.reverseRecOn' with
  | nil => exact inv_start h
  | snoc ops x ih =>
    rw [run_snoc]
    rw [calls_snoc] at hfed htime ⊢
    cases x with
    | write s =>
      have e : calls [Op.write s] = [.write s] := rfl
      rw [e] at hfed htime ⊢
      rw [List.reverse_append] at hfed
      have := ih hfed (fun s hs => htime s (written_mono _ _ hs))
      rw [trace_snoc]
      exact inv_write this s
    | expire =>
      have e : calls [Op.expire] = [.read] := rfl
      rw [e] at hfed htime ⊢
      rw [List.reverse_append] at hfed
      have hf : 3 ≤ (trace prime (calls ops)).waiting ∧ FedRev prime (calls ops).reverse := by
        simpa [FedRev] using hfed
      have := ih hf.2 (fun s hs => htime s (written_mono _ _ hs))
      rw [trace_snoc]
      exact inv_expire this hf.1 (fun s hs => htime s (written_mono _ _ hs))

end Moovr.PinOutput

namespace Moovr.FillLoop
open StepQueueSpec StepBuffer

theorem calls_snoc (f : FillLoop) (ops : List Op) (x : Op) :
    f.calls (ops ++ [x]) = f.calls ops ++ (f.run ops).calls [x] := by
  induction ops generalizing f with
  | nil => simp [calls, run]
  | cons o ops ih =>
    have hr : f.run (o :: ops) = (f.step o).run ops := by simp [run]
    cases o with
    | check => simp only [List.cons_append, calls]; rw [ih, hr]
    | put s =>
      rw [hr]
      simp only [List.cons_append, calls]
      rw [ih]; simp [List.append_assoc]
    | interrupt =>
      rw [hr]
      simp only [List.cons_append, calls]
      rw [ih]

theorem run_snoc (f : FillLoop) (ops : List Op) (x : Op) : f.run (ops ++ [x]) = (f.run ops).step x := by
  simp [run]

theorem buffer_run (f : FillLoop) (ops : List Op) : (f.run ops).buffer = f.buffer.after (f.calls ops) := by
  induction ops using List.reverseRecOn' with
  | nil => simp [run, calls, after]
  | snoc ops x ih =>
    rw [run_snoc, calls_snoc]
    cases x with
    | check =>
      have : (f.run ops).calls [Op.check] = [] := rfl
      rw [this, List.append_nil, ← ih]
      simp only [step]; split <;> rfl
    | put s =>
      simp only [step, calls]
      by_cases hc : (f.run ops).committed
      · simp only [hc, if_true, List.append_nil]
        rw [after_snoc, ← ih]; rfl
      · simpa [hc] using ih
    | interrupt =>
      have : (f.run ops).calls [Op.interrupt] = [.read] := rfl
      rw [this, after_snoc, ← ih]; rfl

/-- Entries are short enough for 32-bit totals, and any 254 consecutive ones last at least 750 ticks. -/
structure Good (W : List Step) : Prop where
  short : ∀ s ∈ W, s.timeBefore ≤ 8388608
  dense : ∀ i, i + 254 ≤ W.length → 750 ≤ sumTime ((W.drop i).take 254)

theorem Good.prefix {W : List Step} {s : Step} (h : Good (W ++ [s])) : Good W := by
  refine ⟨fun x hx => h.short x (by simp [hx]), fun i hi => ?_⟩
  have := h.dense i (by simp; omega)
  rwa [List.drop_append_of_le_length (by omega), List.take_append_of_le_length (by simp; omega)] at this

theorem good_next {t : Trace} {c : Call} (h : Good (next t c).written) : Good t.written := by
  cases c with
  | write s =>
    simp only [next] at h
    split at h
    · exact h.prefix
    · exact h
  | read => simp only [next] at h; split at h <;> exact h
  | needsFilling => exact h
  | getTimeInTicks => exact h
  | getLevel => exact h
  | getLastError => exact h

theorem sumTime_le (l : List Step) (m : Nat) (h : ∀ s ∈ l, s.timeBefore ≤ m) : sumTime l ≤ l.length * m := by
  induction l with
  | nil => simp [sumTime]
  | cons s l ih =>
    have h1 := h s (by simp)
    have h2 := ih (fun x hx => h x (by simp [hx]))
    simp only [sumTime, List.map_cons, List.sum_cons, List.length_cons, Nat.succ_mul] at h2 ⊢
    omega

theorem le_sumTime (l : List Step) (m : Nat) (h : ∀ s ∈ l, m ≤ s.timeBefore) : l.length * m ≤ sumTime l := by
  induction l with
  | nil => simp [sumTime]
  | cons s l ih =>
    have h1 := h s (by simp)
    have h2 := ih (fun x hx => h x (by simp [hx]))
    simp only [sumTime, List.map_cons, List.sum_cons, List.length_cons, Nat.succ_mul] at h2 ⊢
    omega

theorem shipped_priming {b₀ b : StepBuffer} (h : InitReturns b₀ b) (h1 : b₀.minimumTotalTime = 1500)
    (h2 : b₀.minimumLevel = 4) :
    b.level = 4 ∧ b.minimumTotalTime = 1500 ∧ b.minimumLevel = 4 ∧
    priming b.level b.minimumTotalTime b.minimumLevel = List.replicate 4 ⟨375, 0⟩ := by
  have h3 := rep_of_init h
  obtain ⟨fuel, hf⟩ := h
  obtain ⟨m, -, -, e1, e2, e3, -⟩ :=
    initLoop_done (b := b₀.reset) (n := 0) (primed_reset _ _) (by omega) hf
  have hl : b.level = m := by simpa using e1.rep.level_eq
  have q1 : b₀.reset.minimumTotalTime = 1500 := h1
  have q2 : b₀.reset.minimumLevel = 4 := h2
  rw [q1, q2] at e2 e3
  have hm : m = 4 := by
    have := e2.1
    rcases Nat.lt_or_ge 4 m with h | h
    · exact absurd (by decide) (e3 4 (by omega) h)
    · omega
  rw [h3.1, h3.2.1, h1, h2, hl, hm]
  exact ⟨rfl, rfl, rfl, rfl⟩

/-- When the loop has committed itself to writing, there is room. -/
theorem committed_room {b₀ b : StepBuffer} (h : InitReturns b₀ b) (h1 : b₀.minimumTotalTime = 1500)
    (h2 : b₀.minimumLevel = 4) (ops : List Op) :
    let f : FillLoop := ⟨b, false, []⟩
    FedRev (List.replicate 4 ⟨375, 0⟩) (f.calls ops).reverse →
    Good (trace (List.replicate 4 ⟨375, 0⟩) (f.calls ops)).written →
    ((f.run ops).committed = true → (f.run ops).buffer.level < 256) ∧ (f.run ops).lost = [] := by
  intro f
  obtain ⟨s1, s2, s3, s4⟩ := shipped_priming h h1 h2
  have hrep : Rep b ⟨List.replicate 4 ⟨375, 0⟩, 0⟩ := by rw [← s4]; exact rep_priming h
  have htot : b.totalTime % 4294967296 = sumTime (List.replicate 4 ⟨375, 0⟩) % 4294967296 := by
    have := total_priming h
    rwa [s4] at this
  induction ops using List.reverseRecOn' with
  | nil => intro _ _; simp [f, run]
  | snoc ops x ih =>
    intro hfed hgood
    rw [calls_snoc] at hfed hgood
    have hfed' : FedRev (List.replicate 4 ⟨375, 0⟩) (f.calls ops).reverse := by
      cases x with
      | check => simpa [calls] using hfed
      | put s =>
        by_cases hc : (f.run ops).committed
        · simpa [calls, hc, FedRev] using hfed
        · simpa [calls, hc] using hfed
      | interrupt =>
        rw [List.reverse_append] at hfed
        exact hfed.2
    have hgood' : Good (trace (List.replicate 4 ⟨375, 0⟩) (f.calls ops)).written := by
      cases x with
      | check => simpa [calls] using hgood
      | put s =>
        by_cases hc : (f.run ops).committed
        · have e : (f.run ops).calls [.put s] = [.write s] := by simp [calls, hc]
          rw [e, trace_snoc] at hgood
          exact good_next hgood
        · simpa [calls, hc] using hgood
      | interrupt =>
        have e : (f.run ops).calls [.interrupt] = [.read] := rfl
        rw [e, trace_snoc] at hgood
        exact good_next hgood
    obtain ⟨ihc, ihl⟩ := ih hfed' hgood'
    rw [run_snoc]
    have hbuf := buffer_run f ops
    have hfb : f.buffer = b := rfl
    rw [hfb] at hbuf
    cases x with
    | check =>
      simp only [step]
      by_cases hc : (f.run ops).committed
      · simp only [hc, if_true]; exact ⟨fun _ => ihc hc, ihl⟩
      · simp only [hc]
        refine ⟨?_, by simpa using ihl⟩
        simp only [Bool.false_eq_true, if_false]
        intro hnf
        have hr := rep_after hrep (f.calls ops)
        rw [← hbuf] at hr
        have hroom := hr.room
        have hlev := hr.level_eq
        have hreads := hr.reads_le
        rcases Nat.lt_or_ge (f.run ops).buffer.level 256 with hlt | hge
        · exact hlt
        · exfalso
          have htf := total_fed hrep (by simp) htot hfed'
          rw [List.reverse_reverse, ← hbuf] at htf
          have hmin := minimum_after b (f.calls ops)
          rw [← hbuf, s2, s3] at hmin
          generalize trace (List.replicate 4 ⟨375, 0⟩) (f.calls ops) = t at *
          have hd := hgood'.dense (t.reads + 2) (by omega)
          have hlen : (t.written.drop (t.reads + 2)).length = 254 := by simp; omega
          rw [List.take_of_length_le (by omega)] at hd
          have hs := sumTime_le (t.written.drop (t.reads + 2)) 8388608
            (fun s hs => hgood'.short s (List.mem_of_mem_drop hs))
          rw [hlen] at hs
          have h750 : sumTime (List.take 2 (List.replicate 4 (⟨375, 0⟩ : Step))) = 750 := by decide
          rw [h750] at htf
          simp only [needsFilling, hmin.1, hmin.2, Bool.or_eq_true, decide_eq_true_eq] at hnf
          omega
    | put s =>
      simp only [step]
      by_cases hc : (f.run ops).committed
      · have := ihc hc
        simp [hc, length, this, ihl]
      · simp only [hc]
        exact ⟨by simp [hc], by simpa using ihl⟩
    | interrupt =>
      simp only [step]
      refine ⟨fun hc => ?_, ihl⟩
      have := ihc hc
      simp only [StepBuffer.read]
      split
      · simp only; omega
      · exact this

end Moovr.FillLoop
