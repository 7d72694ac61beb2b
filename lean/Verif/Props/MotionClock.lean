import Verif.Lemmas.MotionCtrl
import Verif.Lemmas.ExecuteQueue
import Verif.Lemmas.PlanExample
import Mathlib.Data.Real.Basic
import Mathlib.Algebra.BigOperators.Group.List.Basic
import Mathlib.Tactic.Linarith
import Mathlib.Tactic.Ring
/-!
# Property C66: the motion clock

With exact arithmetic on times (`ExactTime`), the times at which motions are sampled.
-/
namespace Moovr.Props
open PulseSpec MotionSpec MotionCtrl
variable {K : MotionKit}

/-- Arithmetic on times that are numbers is exact; `num` are the times that are numbers (there may be others: infinity, NaN),
and `val` their values. -/
structure ExactTime (K : MotionKit) (num : ℝ → K.Time) (val : K.Time → ℝ) : Prop where
  val : ∀ x, val (num x) = x
  zero : K.zero = num 0
  sample : ∀ i (w z : ℝ), K.sample i (num w) (num z) = num (i * w + z)
  later : ∀ a b, K.later (num a) (num b) = true ↔ b < a
  diff : ∀ a b, K.diff (num a) (num b) = num (a - b)

/-- The end of a motion: a number, or never reached. -/
def Ends (num : ℝ → K.Time) (t : K.Time) : Prop := (∃ b, t = num b) ∨ ∀ a, K.later (num a) t = false

/-- Whenever a calculation is made, the durations of the motions in the queue are numbers or never reached (not minus infinity,
say). -/
def EndsKnown (num : ℝ → K.Time) (c : MotionCtrl K) : List (Call K.Req K.Time K.Ovr) → Prop
  | [] => True
  | k :: ks =>
    (k.isCalculate = true → ∀ j, Ends num (K.duration (c.buffer.cells j).prof)) ∧
    ∀ c' r, c.call k = some (c', r) → EndsKnown num c' ks

/-- The calls of a log contain no configuration. -/
def NoConfigure (ks : List (Call K.Req K.Time K.Ovr)) : Prop := ∀ m w, Call.configure m w ∉ ks

/-- Durations of the first `k` motions in the queue. -/
def firstDurations (val : K.Time → ℝ) (c : MotionCtrl K) (k : Nat) : ℝ :=
  ((List.range k).map fun j => val (K.duration (c.buffer.cells ((c.buffer.head + j) % 32)).prof)).sum

/-- The time is the one of the current sample. -/
private structure TInv (num : ℝ → K.Time) (w : ℝ) (c : MotionCtrl K) (u : ℝ) : Prop where
  width : c.time.minStepPulseWidth = num w
  now : c.time.timeInMotion = num u
  base : ∃ z, c.time.sampleZeroOffset = num z ∧ u = c.time.sampleIndex * w + z

private theorem firstDurations_succ (val : K.Time → ℝ) (c : MotionCtrl K) (hh : c.buffer.head < 32) (k : Nat) :
    firstDurations val c (k + 1) = val (K.duration c.buffer.getHead.prof) + firstDurations val c.nextMotion k := by
  unfold firstDurations
  rw [List.range_succ_eq_map, List.map_cons, List.sum_cons, List.map_map]
  congr 1
  · simp [MotionBuffer.getHead, Nat.mod_eq_of_lt hh]
  · congr 1
    apply List.map_congr_left
    intro j _
    simp only [Function.comp, nextMotion, pushEvent, MotionBuffer.pop, MotionBuffer.length, Nat.mod_add_mod]
    rw [show c.buffer.head + 1 + j = c.buffer.head + (j + 1) by omega]

private theorem settle_clock {num : ℝ → K.Time} {val : K.Time → ℝ} (hx : ExactTime K num val) (w : ℝ) (fuel : Nat)
    (c : MotionCtrl K) {u : ℝ} (ht : TInv num w c u) (hh : c.buffer.head < 32)
    (he : ∀ j, Ends num (K.duration (c.buffer.cells j).prof)) (r) (h : settle fuel c = some r) :
    ∃ u', TInv num w r.1 u' ∧ r.1.buffer.head < 32 ∧ r.1.buffer.cells = c.buffer.cells ∧ ∃ new, r.1.events = c.events ++ new ∧
      ((.allMotionsCompleted ∈ new ∧ u' = 0 ∧ r.2.2 = none) ∨
       (.allMotionsCompleted ∉ new ∧ u' + firstDurations val c (new.count .motionCompleted) = u ∧
        K.later r.1.time.timeInMotion (K.duration r.1.buffer.getHead.prof) = false ∧ r.2.2 ≠ none)) := by
  induction fuel generalizing c u with
  | zero => simp [settle] at h
  | succ fuel ih =>
    unfold settle at h
    split at h
    · rename_i hb
      have hd : ∃ b, K.duration c.buffer.getHead.prof = num b := by
        rcases he c.buffer.head with h | h
        · exact h
        · have hb' : K.later c.time.timeInMotion (K.duration c.buffer.getHead.prof) = true := hb
          rw [ht.now] at hb'
          exact absurd (hb'.symm.trans (h u)) (by simp)
      obtain ⟨b, hd⟩ := hd
      split at h
      · have en : K.diff c.time.timeInMotion (K.duration c.buffer.getHead.prof) = num (u - b) := by
          rw [ht.now, hd, hx.diff]
        have htn : TInv num w c.nextMotion (u - b) :=
          ⟨ht.width, en, u - b, en, by simp [nextMotion, pushEvent, SampleTime.initializeNextMotion]⟩
        obtain ⟨u', i1, i2, ic, new, i3, i4⟩ := ih c.nextMotion htn (Nat.mod_lt _ (by decide)) he h
        refine ⟨u', i1, i2, ic, .motionCompleted :: new, ?_, ?_⟩
        · rw [i3]; simp [nextMotion, pushEvent]
        · rcases i4 with ⟨a1, a2⟩ | ⟨a1, a2, a3⟩
          · exact .inl ⟨List.mem_cons_of_mem _ a1, a2⟩
          · refine .inr ⟨by simp [a1], ?_, a3⟩
            rw [List.count_cons_self, firstDurations_succ val c hh, hd, hx.val]
            linarith
      · simp only [Option.some.injEq] at h
        subst h
        refine ⟨0, ⟨ht.width, hx.zero, 0, hx.zero, by simp [lastMotion, pushEvent, SampleTime.reinit]⟩, Nat.mod_lt _ (by decide), rfl,
          [.motionStopped, .motionCompleted, .allMotionsCompleted], by simp [lastMotion, pushEvent], .inl ⟨by simp, rfl, rfl⟩⟩
    · rename_i hb
      simp only [Option.some.injEq] at h
      subst h
      refine ⟨u, ⟨ht.width, ht.now, ht.base⟩, hh, rfl, [], by simp [move], .inr ⟨by simp, by simp [firstDurations], ?_, by simp⟩⟩
      exact Bool.eq_false_iff.2 hb

private theorem tick_clock {num : ℝ → K.Time} {val : K.Time → ℝ} (hx : ExactTime K num val) (w : ℝ) (c : MotionCtrl K) {u : ℝ}
    (ht : TInv num w c u) (hh : c.buffer.head < 32) (he : ∀ j, Ends num (K.duration (c.buffer.cells j).prof))
    (c' : MotionCtrl K) (t) (h : c.tick = some (c', t)) :
    ∃ u', TInv num w c' u' ∧ c'.buffer.head < 32 ∧ c'.buffer.cells = c.buffer.cells ∧ (c.isRunning = false → c'.time = c.time) ∧
    (c.isRunning = true → c.time.sampleIndex + 1 < 2 ^ 32 →
      (.allMotionsCompleted ∈ t.events → u' = 0 ∧ t.active = none) ∧
      (.allMotionsCompleted ∉ t.events →
        u' + firstDurations val c (t.events.count .motionCompleted) = u + w ∧
        K.later c'.time.timeInMotion (K.duration c'.buffer.getHead.prof) = false)) := by
  unfold tick at h
  simp only at h
  by_cases hr : c.isRunning = true
  · rw [if_pos hr] at h
    have hs : (sampleAndCheckStop { c with signals := c.signals.next }).time = c.time.next ∧
        (sampleAndCheckStop { c with signals := c.signals.next }).buffer = c.buffer ∧
        ∃ pre, (sampleAndCheckStop { c with signals := c.signals.next }).events = c.events ++ pre ∧
          Event.allMotionsCompleted ∉ pre ∧ pre.count .motionCompleted = 0 := by
      unfold sampleAndCheckStop
      simp only
      split
      · exact ⟨rfl, rfl, [.motionStopped], rfl, by simp, by decide⟩
      · exact ⟨rfl, rfl, [], by simp, by simp, rfl⟩
    generalize sampleAndCheckStop { c with signals := c.signals.next } = c₃ at hs h
    obtain ⟨s1, s2, pre, s3, s4, s5⟩ := hs
    simp only [Option.map_eq_some_iff, Prod.exists, Prod.mk.injEq] at h
    obtain ⟨c'', cmd, act, hs', rfl, rfl⟩ := h
    obtain ⟨z, z1, z2⟩ := ht.base
    have ht3 : TInv num w c₃ ((u32add c.time.sampleIndex 1 : Nat) * w + z) := by
      refine ⟨by rw [s1]; exact ht.width, ?_, z, by rw [s1]; exact z1, by rw [s1]; rfl⟩
      rw [s1]; simp only [SampleTime.next]; rw [ht.width, z1, hx.sample]
    obtain ⟨u', i1, i2, ic, new, i3, i4⟩ := settle_clock hx w _ c₃ ht3 (by rw [s2]; exact hh) (by rw [s2]; exact he) _ hs'
    refine ⟨u', i1, i2, by rw [ic, s2], by simp [hr], fun _ hi => ?_⟩
    have hev : c''.events.drop c.events.length = pre ++ new := by
      rw [i3, s3]; simp
    simp only [hev]
    have hdur : ∀ k, firstDurations val c₃ k = firstDurations val c k := by
      intro k; unfold firstDurations; rw [s2]
    have hnow : ((u32add c.time.sampleIndex 1 : Nat) : ℝ) * w + z = u + w := by
      rw [u32add_of_lt (by omega), z2]
      push_cast
      ring
    rcases i4 with ⟨a1, a2, a3⟩ | ⟨a1, a2, a3, a4⟩
    · exact ⟨fun _ => ⟨a2, a3⟩, fun hn => absurd (List.mem_append_right _ a1) hn⟩
    · refine ⟨fun hm => ?_, fun _ => ⟨?_, a3⟩⟩
      · rcases List.mem_append.1 hm with h | h
        · exact absurd h s4
        · exact absurd h a1
      · rw [List.count_append, s5, Nat.zero_add, ← hdur, ← hnow]
        exact a2
  · rw [if_neg hr] at h
    simp only [Option.some.injEq, Prod.mk.injEq] at h
    obtain ⟨rfl, rfl⟩ := h
    exact ⟨u, ⟨ht.width, ht.now, ht.base⟩, hh, rfl, fun _ => rfl, fun h => absurd h hr⟩

private theorem calc_clock {num : ℝ → K.Time} {val : K.Time → ℝ} (hx : ExactTime K num val) (w : ℝ) (fuel : Nat)
    (c : MotionCtrl K) {u : ℝ} (ht : TInv num w c u) (hh : c.buffer.head < 32)
    (hend : ∀ j, Ends num (K.duration (c.buffer.cells j).prof)) (r) (h : calcLoop fuel c = some r) :
    (∃ u', TInv num w r.1 u') ∧ r.1.buffer.head < 32 := by
  induction fuel generalizing c r u with
  | zero => simp [calcLoop] at h
  | succ fuel ih =>
    rw [calcLoop] at h
    cases he : c.tick with
    | none => rw [he] at h; simp at h
    | some x =>
      obtain ⟨c₁, t⟩ := x
      obtain ⟨u', t1, t2, tc, _⟩ := tick_clock hx w c ht hh hend c₁ t he
      rw [he] at h
      simp only at h
      split at h
      · simp only [Option.some.injEq] at h
        subst h
        exact ⟨⟨u', t1.width, t1.now, t1.base⟩, t2⟩
      · simp only [Option.map_eq_some_iff] at h
        obtain ⟨r', hr, rfl⟩ := h
        exact ih c₁ t1 t2 (by rw [tc]; exact hend) r' hr

/-- What the calls do to the clock. -/
private theorem call_time (c c' : MotionCtrl K) (k : Call K.Req K.Time K.Ovr) (r) (h : c.call k = some (c', r)) :
    match k with
    | .configure _ _ | .calculate => True
    | .flush => c'.buffer.head = (if c.isRunning then c.buffer.head else 0) ∧
        c'.time = if c.isRunning then c.time else c.time.reinit
    | _ => c'.time = c.time ∧ c'.buffer.head = c.buffer.head := by
  cases k with
  | configure m w => trivial
  | calculate => trivial
  | append r =>
    simp only [call, Option.some.injEq, Prod.mk.injEq] at h
    obtain ⟨rfl, rfl⟩ := h
    simp only [append]; split <;> exact ⟨rfl, rfl⟩
  | start =>
    simp only [call, Option.some.injEq, Prod.mk.injEq] at h
    obtain ⟨rfl, rfl⟩ := h
    simp only [start]; split
    · exact ⟨(sameButProf_optimize _).time, (sameButProf_optimize _).head⟩
    · exact ⟨rfl, rfl⟩
  | stop =>
    simp only [call, Option.some.injEq, Prod.mk.injEq] at h
    obtain ⟨rfl, rfl⟩ := h
    exact ⟨(sameButProf_optimize _).time, (sameButProf_optimize _).head⟩
  | flush =>
    simp only [call, Option.some.injEq, Prod.mk.injEq] at h
    obtain ⟨rfl, rfl⟩ := h
    simp only [flushMotionBuffer]
    cases c.isRunning <;> exact ⟨rfl, rfl⟩
  | resetPosition =>
    simp only [call, Option.some.injEq, Prod.mk.injEq] at h
    obtain ⟨rfl, rfl⟩ := h
    exact ⟨rfl, rfl⟩
  | override o =>
    simp only [call, Option.some.injEq, Prod.mk.injEq] at h
    obtain ⟨rfl, rfl⟩ := h
    exact ⟨rfl, rfl⟩

private theorem run_clock {num : ℝ → K.Time} {val : K.Time → ℝ} (hx : ExactTime K num val) (w : ℝ)
    (ks : List (Call K.Req K.Time K.Ovr)) (hk : NoConfigure ks) (c : MotionCtrl K) (hend : EndsKnown num c ks) {u : ℝ}
    (ht : TInv num w c u) (hh : c.buffer.head < 32) (c' : MotionCtrl K) (log) (h : c.run ks = some (c', log)) :
    (∃ u', TInv num w c' u') ∧ c'.buffer.head < 32 := by
  induction ks generalizing c log u with
  | nil => simp only [run, Option.some.injEq, Prod.mk.injEq] at h; rw [← h.1]; exact ⟨⟨u, ht⟩, hh⟩
  | cons k ks ih =>
    rw [run] at h
    cases he : c.call k with
    | none => rw [he] at h; simp at h
    | some x =>
      obtain ⟨c₁, r⟩ := x
      rw [he] at h
      simp only [Option.map_eq_some_iff, Prod.exists, Prod.mk.injEq] at h
      obtain ⟨c₂, log', hr, rfl, rfl⟩ := h
      have same : c₁.time = c.time ∧ c₁.buffer.head = c.buffer.head → (∃ u', TInv num w c₁ u') ∧ c₁.buffer.head < 32 := by
        intro hc
        exact ⟨⟨u, by rw [hc.1]; exact ht.width, by rw [hc.1]; exact ht.now, by rw [hc.1]; exact ht.base⟩, by rw [hc.2]; exact hh⟩
      have key : (∃ u', TInv num w c₁ u') ∧ c₁.buffer.head < 32 := by
        have hc := call_time c c₁ k r he
        cases k with
        | configure m w' => exact absurd List.mem_cons_self (hk m w')
        | calculate =>
          simp only [call, Option.map_eq_some_iff, Prod.mk.injEq] at he
          obtain ⟨x, hx', rfl, rfl⟩ := he
          exact calc_clock hx w _ c ht hh (hend.1 rfl) x hx'
        | flush =>
          simp only at hc
          cases hrun : c.isRunning with
          | true => rw [hrun] at hc; exact same ⟨hc.2, hc.1⟩
          | false =>
            rw [hrun] at hc
            exact ⟨⟨0, by rw [hc.2]; exact ht.width, by rw [hc.2]; exact hx.zero, 0, by rw [hc.2]; exact hx.zero,
              by rw [hc.2]; simp [SampleTime.reinit]⟩, by rw [hc.1]; simp⟩
        | append r => exact same hc
        | start => exact same hc
        | stop => exact same hc
        | resetPosition => exact same hc
        | override o => exact same hc
      obtain ⟨⟨u', hu'⟩, hh'⟩ := key
      exact ih (fun m w' hm => hk m w' (List.mem_cons_of_mem _ hm)) c₁ (hend.2 _ _ he) hu' hh' log' hr

/-- The state after some rounds of the calculation loop. -/
def ticks : Nat → MotionCtrl K → Option (MotionCtrl K)
  | 0, c => some c
  | n + 1, c => c.tick.bind fun x => ticks n x.1

private theorem ticks_clock {num : ℝ → K.Time} {val : K.Time → ℝ} (hx : ExactTime K num val) (w : ℝ) (n : Nat)
    (c c' : MotionCtrl K) {u : ℝ} (ht : TInv num w c u) (hh : c.buffer.head < 32)
    (he : ∀ j, Ends num (K.duration (c.buffer.cells j).prof)) (h : ticks n c = some c') :
    (∃ u', TInv num w c' u') ∧ c'.buffer.head < 32 ∧ ∀ j, Ends num (K.duration (c'.buffer.cells j).prof) := by
  induction n generalizing c u with
  | zero => simp only [ticks, Option.some.injEq] at h; subst h; exact ⟨⟨u, ht⟩, hh, he⟩
  | succ n ih =>
    simp only [ticks, Option.bind_eq_some_iff, Prod.exists] at h
    obtain ⟨c₁, t, h1, h2⟩ := h
    obtain ⟨u', i1, i2, i3, -⟩ := tick_clock hx w c ht hh he c₁ t h1
    exact ih c₁ i1 i2 (by rw [i3]; exact he) h2

/-- **C66 (partial).** In every state reached by configuring once, then any history of calls and then any number of rounds of the
calculation loop, with exact times: the clock is a
number; one calculation tick of a running controller advances it by exactly one sample width, minus the durations of
the motions that complete on this tick (the first so many in the queue); the clock then is not later than the end of the
motion at the head; if the last motion completes, the clock is back at zero, ready for the next run. A tick while stopped
does not advance the clock. Full property: for motions of any duration. Missing: motions sampled more than 2^32 - 1 times
(19.8 hours at 60 kHz), where the 32-bit sample index wraps around and the clock falls back. -/
theorem motion_clock_partial {num : ℝ → K.Time} {val : K.Time → ℝ} (hx : ExactTime K num val) (m : Nat) (w : ℝ)
    (ks : List (Call K.Req K.Time K.Ovr)) (hk : NoConfigure ks)
    (hend : EndsKnown num ((fresh K).configure m (num w)) (ks ++ [.calculate])) (c₀ : MotionCtrl K) (log)
    (h : (fresh K).run (.configure m (num w) :: ks) = some (c₀, log)) (n : Nat) (c c' : MotionCtrl K) (hn : ticks n c₀ = some c)
    (t) (ht : c.tick = some (c', t)) :
    ∃ u u', c.time.timeInMotion = num u ∧ c'.time.timeInMotion = num u' ∧
    (c.isRunning = false → c'.time = c.time) ∧
    (c.isRunning = true → c.time.sampleIndex + 1 < 2 ^ 32 →
      (.allMotionsCompleted ∈ t.events → u' = 0 ∧ t.active = none) ∧
      (.allMotionsCompleted ∉ t.events →
        u' + firstDurations val c (t.events.count .motionCompleted) = u + w ∧
        K.later (num u') (K.duration c'.buffer.getHead.prof) = false)) := by
  rw [run] at h
  simp only [call, Option.map_eq_some_iff, Prod.exists, Prod.mk.injEq] at h
  obtain ⟨c₂, log', hr, rfl, rfl⟩ := h
  have h0 : TInv num w ((fresh K).configure m (num w)) 0 :=
    ⟨rfl, hx.zero, 0, hx.zero, by simp [configure, fresh, SampleTime.fresh, SampleTime.setMinStepPulseWidth]⟩
  have hsplit : ∀ (ks : List (Call K.Req K.Time K.Ovr)) (c : MotionCtrl K) log, EndsKnown num c (ks ++ [.calculate]) →
      c.run ks = some (c₂, log) → EndsKnown num c ks ∧ ∀ j, Ends num (K.duration (c₂.buffer.cells j).prof) := by
    intro ks
    induction ks with
    | nil =>
      intro c log hc hr
      simp only [run, Option.some.injEq, Prod.mk.injEq] at hr
      rw [← hr.1]
      exact ⟨trivial, hc.1 rfl⟩
    | cons k ks ih =>
      intro c log hc hr
      rw [run] at hr
      cases he : c.call k with
      | none => rw [he] at hr; simp at hr
      | some x =>
        obtain ⟨c₁, r⟩ := x
        rw [he] at hr
        simp only [Option.map_eq_some_iff, Prod.exists, Prod.mk.injEq] at hr
        obtain ⟨c₃, log₃, hr₃, hcc, rfl⟩ := hr
        subst hcc
        obtain ⟨h1, h2⟩ := ih c₁ log₃ (hc.2 _ _ he) hr₃
        refine ⟨⟨hc.1, fun c' r' h' => ?_⟩, h2⟩
        rw [he] at h'
        simp only [Option.some.injEq, Prod.mk.injEq] at h'
        rw [← h'.1]; exact h1
  obtain ⟨e1, e2⟩ := hsplit ks _ _ hend hr
  obtain ⟨⟨u, i1⟩, i2⟩ := run_clock hx w ks hk _ e1 h0 (by show (0 : Nat) < 32; decide) c₂ log' hr
  obtain ⟨⟨u, i1⟩, i2, e2⟩ := ticks_clock hx w n c₂ c i1 i2 e2 hn
  obtain ⟨u', j1, -, -, j4, j5⟩ := tick_clock hx w c i1 i2 e2 c' t ht
  refine ⟨u, u', i1.now, j1.now, j4, fun hrun hi => ⟨(j5 hrun hi).1, fun hn => ⟨((j5 hrun hi).2 hn).1, ?_⟩⟩⟩
  rw [← j1.now]; exact ((j5 hrun hi).2 hn).2

/-- **C66.** The other calls leave the clock alone, except a flush while stopped, which sets it to zero. -/
theorem motion_clock_calls (c c' : MotionCtrl K)
    (k : Call K.Req K.Time K.Ovr) (r) (h : c.call k = some (c', r)) (hk : k.isCalculate = false)
    (hc : ∀ m w, k ≠ .configure m w) :
    c'.time.timeInMotion = if k.isFlush = true ∧ c.isRunning = false then K.zero else c.time.timeInMotion := by
  have ht := call_time c c' k r h
  cases k with
  | configure m w => exact absurd rfl (hc m w)
  | calculate => cases hk
  | flush =>
    simp only at ht
    rw [ht.2]
    cases c.isRunning <;> simp [Call.isFlush, SampleTime.reinit]
  | append r => rw [ht.1]; simp [Call.isFlush]
  | start => rw [ht.1]; simp [Call.isFlush]
  | stop => rw [ht.1]; simp [Call.isFlush]
  | resetPosition => rw [ht.1]; simp [Call.isFlush]
  | override o => rw [ht.1]; simp [Call.isFlush]

/-- **C66 is violated by the code for very long motions**: on the tick where the 32-bit sample index wraps around, the
clock falls back to the carry-over instead of advancing (any state; here seen on `sampleTime` itself). -/
theorem motion_clock_wrap_violated {num : ℝ → K.Time} {val : K.Time → ℝ} (hx : ExactTime K num val) (t : SampleTime K)
    (h : t.sampleIndex = 2 ^ 32 - 1) {w z : ℝ} (hw : t.minStepPulseWidth = num w) (hz : t.sampleZeroOffset = num z) :
    t.next.timeInMotion = num z := by
  simp [SampleTime.next, h, u32add, hw, hz, hx.sample]

/-- The arithmetic of the machine (on real numbers with infinities and NaN) is of this kind. -/
theorem exactTime_kit (M : Machine) : ExactTime M.kit Num.fin ExecSpec.val where
  val _ := rfl
  zero := rfl
  sample i w z := by
    show Num.fin i * Num.fin w + Num.fin z = _
    rw [Num.fin_mul, Num.fin_add]
  later a b := by
    show (Num.fin b).lt (Num.fin a) = true ↔ _
    rw [Num.lt_fin, decide_eq_true_eq]
  diff a b := Num.fin_sub a b

/-- Only minus infinity is excluded. -/
theorem ends_kit (M : Machine) (t : Num) : Ends (K := M.kit) Num.fin t ↔ t ≠ .negInf := by
  constructor
  · rintro (⟨b, rfl⟩ | h)
    · simp
    · rintro rfl; exact absurd (h 0) (by show ¬ (Num.lt .negInf (Num.fin 0) = false); simp [Num.lt])
  · intro h
    rcases t with x | _ | _ | _
    · exact .inl ⟨x, rfl⟩
    · exact .inr fun a => rfl
    · exact absurd rfl h
    · exact .inr fun a => rfl

/-- A one millimetre motion is queued and started at 4 kHz: the first tick advances the clock to a quarter of a millisecond
(unless a motion completes). -/
example (c c' : MotionCtrl Example.machine.kit) (log t)
    (h : (fresh Example.machine.kit).run
      (.configure 100 (Num.fin (1 / 4000)) :: ([.append Example.request, .start] : List (Call SimplifiedMotion Num _)))
        = some (c, log)) (ht : c.tick = some (c', t)) (hn : t.events = []) :
    c'.time.timeInMotion = Num.fin (1 / 4000) := by
  obtain ⟨b, hb⟩ : ∃ b, b = (fresh Example.machine.kit).configure 100 (Num.fin (1 / 4000)) := ⟨_, rfl⟩
  have hc : c = (b.append Example.request).start := by
    simp only [run, call, Option.map_some, Option.some.injEq, Prod.mk.injEq] at h
    rw [hb]; exact h.1.symm
  have ho : (Example.request.vFeed * b.overrides.feedOverride).Pos := by
    rw [hb]; show (Num.fin 2 * Num.fin 1).Pos; rw [Num.fin_mul]; norm_num [Num.Pos]
  have hq0 : Queue (Waits Example.machine) b.buffer [] := by
    rw [hb]; exact ⟨by decide, rfl, by simp, fun k hk => by simp at hk⟩
  obtain ⟨q1, -, -, -, q5, q6, q7, -, -⟩ := append_queue Example.machine_ok hq0 Example.request_moves ho (by decide)
  obtain ⟨s1, s2, s3, -, -, s6⟩ := start_queue (by simp) q1 (by rw [q7]; simpa using ho) (by rw [q5, hb]; rfl)
  have hcells : ∀ j, Ends (K := Example.machine.kit) Num.fin (Example.machine.kit.duration (c.buffer.cells j).prof) := by
    intro j
    have hj : ∀ j, j ≠ 0 → c.buffer.cells j = b.buffer.cells j := by
      intro j hj
      have hd : b.buffer.head = 0 ∧ b.buffer.level = 0 := by rw [hb]; exact ⟨rfl, rfl⟩
      rw [hc]
      simp [start, append, MotionBuffer.isFull, MotionBuffer.isEmpty, MotionBuffer.push, MotionBuffer.length, hd, u32add,
        MotionCtrl.optimize, pushEvent, MotionBuffer.updProf, hj]
    by_cases h0 : j = 0
    · subst h0
      have hr := s1.cell 0 (by simp)
      have hd : (b.append Example.request).start.buffer.head = 0 := by
        rw [hb]; rfl
      rw [hd, ← hc] at hr
      obtain ⟨hh, hp⟩ := hr
      obtain ⟨j, -, -, hj, -⟩ := runs_of_restPlan (r := Example.request)
        ⟨Example.request_moves, fun _ _ => ⟨0, rfl⟩, by intro h; simp [Example.request, SimplifiedMotion.fresh, Example.machine] at h⟩ hh hp
      refine (ends_kit Example.machine _).2 ?_
      show (c.buffer.cells 0).prof.duration ≠ _
      have e := hj.duration
      intro h
      exact absurd (e.symm.trans h) (by simp)
    · rw [hj j h0, hb]
      refine (ends_kit Example.machine _).2 ?_
      show Profile.zero.duration ≠ _
      simp [Profile.zero]
  obtain ⟨u, u', e1, e2, -, e4⟩ := motion_clock_partial (exactTime_kit Example.machine) 100 (1 / 4000) [.append Example.request, .start]
    (by intro m w; simp)
    ⟨by simp [Call.isCalculate], fun c₁ r₁ h₁ => ⟨by simp [Call.isCalculate], fun c₂ r₂ h₂ => ⟨fun _ => by
      have : c₂ = c := by
        simp only [call, Option.some.injEq, Prod.mk.injEq] at h₁ h₂
        rw [hc, hb, ← h₂.1, ← h₁.1]
      rw [this]; exact hcells, fun _ _ _ => trivial⟩⟩⟩ c log h 0 c c' rfl t ht
  have hrun : c.isRunning = true := by rw [hc]; unfold isRunning; rw [s3]; rfl
  have hidx : c.time.sampleIndex = 0 := by rw [hc, s2, q5, hb]; rfl
  have hnow : c.time.timeInMotion = Num.fin 0 := by rw [hc, s2, q5, hb]; rfl
  obtain ⟨e5, -⟩ := (e4 hrun (by rw [hidx]; decide)).2 (by rw [hn]; simp)
  rw [hn] at e5
  have hu : u = 0 := by
    have := e1.symm.trans hnow
    exact Num.fin.inj this
  rw [e2]
  congr 1
  simpa [firstDurations, hu] using e5

end Moovr.Props
