import Mathlib.Tactic.SplitIfs
import Mathlib.Tactic.Choose
import Verif.Model.MotionCtrl
/-!
# Calculations as sequences of ticks

Apart from the output signals, a number of calls of `calcNextStepperMotorSignals()` has the same effect as a number of ticks.
-/
namespace Moovr.MotionCtrl
open MotionSpec PulseSpec
variable {K : MotionKit}

/-- The same controller with other output signals. -/
def withSignals (c : MotionCtrl K) (s : StepSignals) : MotionCtrl K := { c with signals := s }

theorem settle_withSignals (fuel : Nat) : ∀ {c c' : MotionCtrl K} {cmd act} (s : StepSignals), settle fuel c = some (c', cmd, act) →
    ∃ s', settle fuel (c.withSignals s) = some (c'.withSignals s', cmd, act) := by
  induction fuel with
  | zero => intro c c' cmd act s h; simp [settle] at h
  | succ fuel ih =>
    intro c c' cmd act s h
    rw [settle] at h ⊢
    by_cases h1 : c.time.isBeyond (K.duration c.buffer.getHead.prof) = true
    · have h1' : (c.withSignals s).time.isBeyond (K.duration (c.withSignals s).buffer.getHead.prof) = true := h1
      rw [if_pos h1] at h
      simp only [if_pos h1']
      by_cases h2 : c.buffer.level > 1
      · have h2' : (c.withSignals s).buffer.level > 1 := h2
        rw [if_pos h2] at h
        simp only [if_pos h2']
        exact ih s h
      · have h2' : ¬ (c.withSignals s).buffer.level > 1 := h2
        rw [if_neg h2] at h
        simp only [if_neg h2']
        simp only [Option.some.injEq, Prod.mk.injEq] at h
        obtain ⟨rfl, rfl, rfl⟩ := h
        exact ⟨s, rfl⟩
    · have h1' : ¬ (c.withSignals s).time.isBeyond (K.duration (c.withSignals s).buffer.getHead.prof) = true := h1
      rw [if_neg h1] at h
      simp only [if_neg h1']
      simp only [Option.some.injEq, Prod.mk.injEq] at h
      obtain ⟨rfl, rfl, rfl⟩ := h
      exact ⟨_, rfl⟩

theorem tick_withSignals {c c' : MotionCtrl K} {t} (s : StepSignals) (h : c.tick = some (c', t)) :
    ∃ s', (c.withSignals s).tick = some (c'.withSignals s', t) := by
  unfold tick at h ⊢
  by_cases hr : c.isRunning = true
  · have hr' : (c.withSignals s).isRunning = true := hr
    simp only [hr, hr', if_true, Option.map_eq_some_iff, Prod.exists, Prod.mk.injEq] at h ⊢
    obtain ⟨c₀, cmd, act, h1, rfl, rfl⟩ := h
    have e : sampleAndCheckStop { c.withSignals s with signals := (c.withSignals s).signals.next } =
        (sampleAndCheckStop { c with signals := c.signals.next }).withSignals s.next := by
      unfold sampleAndCheckStop withSignals
      simp only
      split_ifs <;> rfl
    obtain ⟨s', h2⟩ := settle_withSignals _ s.next h1
    refine ⟨s', c₀.withSignals s', cmd, act, ?_, rfl, rfl⟩
    rw [e]
    exact h2
  · have hr' : ¬ (c.withSignals s).isRunning = true := hr
    simp only [hr, hr', Bool.false_eq_true, if_false, Option.some.injEq, Prod.mk.injEq] at h ⊢
    obtain ⟨rfl, rfl⟩ := h
    exact ⟨s.next, rfl, rfl⟩

/-- A sequence of ticks. -/
structure Ticks (ts : List (Tick (Option K.Req))) (C : Nat → MotionCtrl K) : Prop where
  tick : ∀ k (hk : k < ts.length), (C k).tick = some (C (k + 1), ts[k])

theorem Ticks.signals {ts : List (Tick (Option K.Req))} {C : Nat → MotionCtrl K} (h : Ticks ts C) (s : StepSignals) :
    ∃ D : Nat → MotionCtrl K, Ticks ts D ∧ D 0 = (C 0).withSignals s ∧ ∀ k, ∃ s', D k = (C k).withSignals s' := by
  have : ∀ k s, ∃ s', ∀ (hk : k < ts.length), ((C k).withSignals s).tick = some ((C (k + 1)).withSignals s', ts[k]) := by
    intro k s
    by_cases hk : k < ts.length
    · obtain ⟨s', h1⟩ := tick_withSignals s (h.tick k hk)
      exact ⟨s', fun _ => h1⟩
    · exact ⟨s, fun h => absurd h hk⟩
  choose f hf using this
  refine ⟨fun k => (C k).withSignals (Nat.rec s (fun k s => f k s) k), ⟨fun k hk => hf k _ hk⟩, rfl, fun k => ⟨_, rfl⟩⟩

theorem Ticks.cons {ts : List (Tick (Option K.Req))} {C : Nat → MotionCtrl K} {c : MotionCtrl K} {t} (h : Ticks ts C)
    (ht : c.tick = some (C 0, t)) : Ticks (t :: ts) (fun k => Nat.casesOn k c C) := by
  constructor
  intro k hk
  cases k with
  | zero => exact ht
  | succ k => exact h.tick k (by simpa using hk)

theorem Ticks.append {ts us : List (Tick (Option K.Req))} {C D : Nat → MotionCtrl K} (h : Ticks ts C) (h' : Ticks us D)
    (he : D 0 = C ts.length) : Ticks (ts ++ us) (fun k => if k < ts.length then C k else D (k - ts.length)) := by
  constructor
  intro k hk
  rw [List.length_append] at hk
  by_cases h1 : k < ts.length
  · rw [if_pos h1, h.tick k h1, List.getElem_append_left h1]
    congr 2
    split_ifs with h2
    · rfl
    · have e : k + 1 = ts.length := by omega
      rw [e, Nat.sub_self, he]
  · rw [if_neg h1, if_neg (by omega), h'.tick (k - ts.length) (by omega), List.getElem_append_right (by omega)]
    congr 3
    omega

theorem calcLoop_ticks (fuel : Nat) : ∀ {c c' : MotionCtrl K} {e ts}, calcLoop fuel c = some (c', e, ts) →
    ∃ C : Nat → MotionCtrl K, Ticks ts C ∧ C 0 = c ∧ ∃ s, c' = (C ts.length).withSignals s := by
  induction fuel with
  | zero => intro c c' e ts h; simp [calcLoop] at h
  | succ fuel ih =>
    intro c c' e ts h
    rw [calcLoop] at h
    split at h
    · simp at h
    · rename_i c₁ t ht
      split_ifs at h with h1
      · simp only [Option.some.injEq, Prod.mk.injEq] at h
        obtain ⟨rfl, rfl, rfl⟩ := h
        have h0 : Ticks [] fun _ => c₁ := ⟨fun k hk => absurd hk (by simp)⟩
        exact ⟨_, h0.cons ht, rfl, _, rfl⟩
      · simp only [Option.map_eq_some_iff, Prod.exists, Prod.mk.injEq] at h
        obtain ⟨c₂, e₂, ts₂, h2, rfl, rfl, rfl⟩ := h
        obtain ⟨C, hC, h0, s, hs⟩ := ih h2
        exact ⟨_, hC.cons (by rw [h0]; exact ht), rfl, s, hs⟩

/-- Any number of calculations. -/
theorem run_ticks (m : Nat) : ∀ {c c' : MotionCtrl K} {log}, c.run (List.replicate m .calculate) = some (c', log) →
    ∃ C : Nat → MotionCtrl K, Ticks (ticksOf log) C ∧ C 0 = c ∧ ∃ s, c' = (C (ticksOf log).length).withSignals s := by
  induction m with
  | zero =>
    intro c c' log h
    simp only [List.replicate_zero, run, Option.some.injEq, Prod.mk.injEq] at h
    obtain ⟨rfl, rfl⟩ := h
    exact ⟨fun _ => c, ⟨fun k hk => absurd hk (by simp [ticksOf])⟩, rfl, c.signals, rfl⟩
  | succ m ih =>
    intro c c' log h
    rw [List.replicate_succ, run] at h
    split at h
    · simp at h
    · rename_i c₁ x hx
      simp only [Option.map_eq_some_iff, Prod.exists, Prod.mk.injEq] at h
      obtain ⟨c₂, l, h1, rfl, rfl⟩ := h
      simp only [call, calcNext, Option.map_eq_some_iff, Prod.exists, Prod.mk.injEq] at hx
      obtain ⟨c₀, e, ts, h2, rfl, rfl⟩ := hx
      obtain ⟨C, hC, hC0, s, hs⟩ := calcLoop_ticks _ h2
      obtain ⟨D, hD, hD0, s', hs'⟩ := ih h1
      obtain ⟨E, hE, hE0, hE'⟩ := hD.signals (C ts.length).signals
      have e0 : E 0 = C ts.length := by rw [hE0, hD0, hs]; rfl
      refine ⟨_, hC.append hE e0, ?_, ?_⟩
      · split_ifs with h0
        · exact hC0
        · have : ts.length = 0 := by omega
          rw [this, Nat.sub_self, e0, this, hC0]
      · obtain ⟨u, hu⟩ := hE' (ticksOf l).length
        refine ⟨s', ?_⟩
        have e1 : ticksOf ((Call.calculate, ⟨c₀.events.drop c.events.length, some e, ts⟩) :: l) = ts ++ ticksOf l := rfl
        rw [e1, List.length_append, if_neg (by omega), Nat.add_sub_cancel_left, hu, hs']
        rfl

end Moovr.MotionCtrl
