import Verif.Lemmas.Steps
import Verif.Lemmas.PlanExample
/-!
# Properties of the step decision (C28, C29, C30)

Positions are compared in steps: `y = p * stepsPerMm`. `Machine.InRange y` (within the 32-bit range) is needed because the
conversion of larger values to `int32_t` is undefined.
-/
namespace Moovr.Props
open Num PulseSpec MotionSpec MotionCtrl

/-- The commanded position of an axis after a tick: that of the sampled motion at the sampled time. -/
noncomputable def commanded (M : Machine) (c : MotionCtrl M.kit) (axis : Nat) : Num :=
  c.buffer.getHead.traj.trajectory.position axis (c.buffer.getHead.prof.s c.time.timeInMotion)

/-- An axis takes part in the sampled motion. -/
def TakesPart (M : Machine) (c : MotionCtrl M.kit) (t : Tick (Option SimplifiedMotion)) (axis : Nat) : Prop :=
  t.active ≠ none ∧ axis < M.n ∧ c.buffer.getHead.traj.trajectory.isMoving axis = true

theorem tick_choose {M : Machine} {c c' : MotionCtrl M.kit} {t} (h : c.tick = some (c', t)) (axis : Nat) :
    (TakesPart M c' t axis ∧ t.cmd axis = M.choose axis (commanded M c' axis) (c.machinePosition axis)) ∨
    (¬ TakesPart M c' t axis ∧ t.cmd axis = none) := by
  obtain ⟨-, ⟨h1, h2⟩ | ⟨h1, h2⟩⟩ := tick_moves c c' t h
  · by_cases hc : axis < M.n ∧ c'.buffer.getHead.traj.trajectory.isMoving axis = true
    · left
      refine ⟨⟨h1, hc⟩, ?_⟩
      rw [h2 axis]
      exact if_pos hc
    · right
      refine ⟨fun h => hc h.2, ?_⟩
      rw [h2 axis]
      exact if_neg hc
  · exact .inr ⟨fun h => h.1 h1, h2 axis⟩

/-- **C28** On every tick of every controller state, each axis moves by the one command given, that is by at most one step; an
axis that does not take part does not move; an axis steps forward (backward) only if the commanded position is at least half a
step plus the hysteresis ahead (behind), and it does so whenever the distance is larger than that. -/
theorem one_step_per_tick {M : Machine} {c c' : MotionCtrl M.kit} {t} (h : c.tick = some (c', t)) (axis : Nat) :
    c'.machinePosition axis = c.machinePosition axis + stepsOf (t.cmd axis) ∧
    |c'.machinePosition axis - c.machinePosition axis| ≤ 1 ∧
    (¬ TakesPart M c' t axis → t.cmd axis = none) ∧
    ∀ p : ℝ, commanded M c' axis = fin p → M.InRange (p * M.stepsPerMm axis) → TakesPart M c' t axis →
      (t.cmd axis = some .forward → c.machinePosition axis + 1 / 2 + M.hysteresis ≤ p * M.stepsPerMm axis) ∧
      (t.cmd axis = some .backward → p * M.stepsPerMm axis ≤ c.machinePosition axis - 1 / 2 - M.hysteresis) ∧
      (t.cmd axis = none → |p * M.stepsPerMm axis - c.machinePosition axis| ≤ 1 / 2 + M.hysteresis) := by
  have h0 := (tick_moves c c' t h).1 axis
  refine ⟨h0, ?_, ?_, ?_⟩
  · rw [h0]
    cases t.cmd axis with
    | none => simp [stepsOf]
    | some d => cases d <;> simp [stepsOf]
  · intro hn
    rcases tick_choose h axis with h1 | h1
    · exact absurd h1.1 hn
    · exact h1.2
  · intro p hp hr ht
    rcases tick_choose h axis with h1 | h1
    · rw [h1.2, hp]
      exact ⟨choose_forward hr, choose_backward, choose_none hr⟩
    · exact absurd ht h1.1

/-- A sequence of ticks, with the commanded position (in steps) of an axis: on ticks on which the axis takes part in the
sampled motion it is that of the motion; on other ticks it stays. -/
structure Follows (M : Machine) (axis : Nat) (n : Nat) (C : Nat → MotionCtrl M.kit)
    (T : Nat → Tick (Option SimplifiedMotion)) (y : Nat → ℝ) : Prop where
  tick : ∀ k, k < n → (C k).tick = some (C (k + 1), T k)
  command : ∀ k, k < n → TakesPart M (C (k + 1)) (T k) axis →
    ∃ p, commanded M (C (k + 1)) axis = fin p ∧ p * M.stepsPerMm axis = y (k + 1) ∧ M.InRange (y (k + 1))
  idle : ∀ k, k < n → ¬ TakesPart M (C (k + 1)) (T k) axis → y (k + 1) = y k

/-- One tick. -/
theorem Follows.step {M : Machine} {axis n : Nat} {C : Nat → MotionCtrl M.kit} {T : Nat → Tick (Option SimplifiedMotion)}
    {y : Nat → ℝ} (h : Follows M axis n C T y) {k : Nat} (hk : k < n) :
    (C (k + 1)).machinePosition axis = (C k).machinePosition axis + stepsOf ((T k).cmd axis) ∧
    ((T k).cmd axis = some .forward → (C k).machinePosition axis + 1 / 2 + M.hysteresis ≤ y (k + 1)) ∧
    ((T k).cmd axis = some .backward → y (k + 1) ≤ (C k).machinePosition axis - 1 / 2 - M.hysteresis) ∧
    ((T k).cmd axis = none → |y (k + 1) - (C k).machinePosition axis| ≤ 1 / 2 + M.hysteresis ∨ y (k + 1) = y k) := by
  obtain ⟨h1, -, h2, h3⟩ := one_step_per_tick (h.tick k hk) axis
  refine ⟨h1, ?_⟩
  by_cases hp : TakesPart M (C (k + 1)) (T k) axis
  · obtain ⟨p, hp1, hp2, hp3⟩ := h.command k hk hp
    have := h3 p hp1 (by rw [hp2]; exact hp3) hp
    rw [hp2] at this
    exact ⟨this.1, this.2.1, fun e => .inl (this.2.2 e)⟩
  · rw [h2 hp]
    exact ⟨by simp, by simp, fun _ => .inr (h.idle k hk hp)⟩

/-- **C29** The machine position stays within half a step plus the hysteresis of the commanded position, for any number of
ticks, if it starts there and the commanded position changes by at most one step per tick. -/
theorem position_tracks {M : Machine} (hh : 0 ≤ M.hysteresis) {axis n : Nat} {C : Nat → MotionCtrl M.kit}
    {T : Nat → Tick (Option SimplifiedMotion)} {y : Nat → ℝ} (h : Follows M axis n C T y)
    (h0 : |y 0 - (C 0).machinePosition axis| ≤ 1 / 2 + M.hysteresis)
    (hrate : ∀ k, k < n → |y (k + 1) - y k| ≤ 1) :
    ∀ k, k ≤ n → |y k - (C k).machinePosition axis| ≤ 1 / 2 + M.hysteresis := by
  intro k
  induction k with
  | zero => exact fun _ => h0
  | succ k ih =>
    intro hk
    have ih := abs_le.1 (ih (by omega))
    have hr := abs_le.1 (hrate k (by omega))
    obtain ⟨e, hf, hb, hn⟩ := h.step (show k < n by omega)
    rw [e]
    rw [abs_le]
    rcases hc : (T k).cmd axis with _ | d
    · simp only [stepsOf, add_zero]
      rcases hn hc with h1 | h1
      · exact abs_le.1 h1
      · rw [h1]; exact ih
    · cases d with
      | forward =>
        have := hf hc
        simp only [stepsOf]; push_cast
        constructor <;> linarith
      | backward =>
        have := hb hc
        simp only [stepsOf]; push_cast
        constructor <;> linarith

/-- **C30** A step is never followed by a step in the opposite direction unless the commanded position has moved back by at
least twice the hysteresis. -/
theorem no_chatter {M : Machine} {axis n : Nat} {C : Nat → MotionCtrl M.kit} {T : Nat → Tick (Option SimplifiedMotion)}
    {y : Nat → ℝ} (h : Follows M axis n C T y) {j k : Nat} (hjk : j < k) (hk : k < n)
    (hquiet : ∀ l, j < l → l < k → (T l).cmd axis = none) :
    ((T j).cmd axis = some .forward → (T k).cmd axis = some .backward → y (k + 1) ≤ y (j + 1) - 2 * M.hysteresis) ∧
    ((T j).cmd axis = some .backward → (T k).cmd axis = some .forward → y (j + 1) + 2 * M.hysteresis ≤ y (k + 1)) := by
  have hpos : ∀ d, j + 1 + d ≤ k → (C (j + 1 + d)).machinePosition axis = (C (j + 1)).machinePosition axis := by
    intro d
    induction d with
    | zero => intro _; rfl
    | succ d ih =>
      intro hd
      have e := (h.step (show j + 1 + d < n by omega)).1
      rw [hquiet (j + 1 + d) (by omega) (by omega)] at e
      rw [show j + 1 + (d + 1) = j + 1 + d + 1 by omega, e, ih (by omega)]
      simp [stepsOf]
  have e := hpos (k - j - 1) (by omega)
  rw [show j + 1 + (k - j - 1) = k by omega] at e
  obtain ⟨ej, hfj, hbj, -⟩ := h.step (show j < n by omega)
  obtain ⟨-, hfk, hbk, -⟩ := h.step hk
  constructor
  · intro h1 h2
    have a := hfj h1; have b := hbk h2
    rw [e, ej, h1] at b
    simp only [stepsOf] at b; push_cast at b
    linarith
  · intro h1 h2
    have a := hbj h1; have b := hfk h2
    rw [e, ej, h1] at b
    simp only [stepsOf] at b; push_cast at b
    linarith

theorem choose_congr {M : Machine} {axis : Nat} {p p' : ℝ} (h : p * M.stepsPerMm axis = p' * M.stepsPerMm axis) (m : Int) :
    M.choose axis (fin p) m = M.choose axis (fin p') m := by
  have e : fin p * fin (M.stepsPerMm axis) = fin p' * fin (M.stepsPerMm axis) := by rw [fin_mul, fin_mul, h]
  unfold Machine.choose Machine.needStepForward Machine.needStepBackward
  rw [e]

/-- **C30** While the commanded position does not change and the axis keeps taking part, all steps go in one direction, each
of them is needed (the machine is not within the band before it), and once no step is made, none is made any more and the
machine is within the band. -/
theorem standstill {M : Machine} (hh : 0 < M.hysteresis) {axis n : Nat} {C : Nat → MotionCtrl M.kit}
    {T : Nat → Tick (Option SimplifiedMotion)} {y : Nat → ℝ} (h : Follows M axis n C T y) {Y : ℝ}
    (hy : ∀ k, k ≤ n → y k = Y) (hp : ∀ k, k < n → TakesPart M (C (k + 1)) (T k) axis) :
    ∃ (d : Dir) (m : Nat), m ≤ n ∧
      (∀ k, k < m → (T k).cmd axis = some d ∧ 1 / 2 + M.hysteresis ≤ |Y - (C k).machinePosition axis|) ∧
      (∀ k, m ≤ k → k < n → (T k).cmd axis = none ∧ |Y - (C k).machinePosition axis| ≤ 1 / 2 + M.hysteresis) := by
  -- the decision as a function of the machine position
  have hdec : ∀ k, k < n → ∃ p, p * M.stepsPerMm axis = Y ∧ M.InRange Y ∧
      (T k).cmd axis = M.choose axis (fin p) ((C k).machinePosition axis) := by
    intro k hk
    obtain ⟨p, e1, e2, e3⟩ := h.command k hk (hp k hk)
    rw [hy (k + 1) (by omega)] at e2 e3
    refine ⟨p, e2, e3, ?_⟩
    rcases tick_choose (h.tick k hk) axis with h1 | h1
    · rw [h1.2, e1]
    · exact absurd (hp k hk) h1.1
  have hnone : ∀ k, k < n → (T k).cmd axis = none → |Y - (C k).machinePosition axis| ≤ 1 / 2 + M.hysteresis := by
    intro k hk hc
    obtain ⟨p, e1, e2, e3⟩ := hdec k hk
    rw [← e1] at e2 ⊢
    exact choose_none e2 (by rw [← e3, hc])
  have hsome : ∀ k, k < n → ∀ d, (T k).cmd axis = some d → 1 / 2 + M.hysteresis ≤ |Y - (C k).machinePosition axis| := by
    intro k hk d hc
    obtain ⟨-, hf, hb, -⟩ := h.step hk
    rw [hy (k + 1) (by omega)] at hf hb
    cases d with
    | forward => exact le_trans (by linarith [hf hc]) (le_abs_self _)
    | backward => exact le_trans (by linarith [hb hc]) (neg_le_abs _)
  have hF1 : ∀ k, k + 1 < n → (T k).cmd axis = none → (T (k + 1)).cmd axis = none := by
    intro k hk hc
    obtain ⟨p, e1, -, e3⟩ := hdec k (by omega)
    obtain ⟨p', e1', -, e3'⟩ := hdec (k + 1) hk
    have epos := (h.step (show k < n by omega)).1
    rw [hc] at epos
    simp only [stepsOf, add_zero] at epos
    rw [e3', epos, choose_congr (e1'.trans e1.symm), ← e3, hc]
  have hF2 : ∀ k, k + 1 < n → ∀ d, (T k).cmd axis = some d →
      (T (k + 1)).cmd axis = some d ∨ (T (k + 1)).cmd axis = none := by
    intro k hk d hc
    obtain ⟨c1, c2⟩ := no_chatter h (show k < k + 1 by omega) hk (fun l h1 h2 => by omega)
    rw [hy (k + 1) (by omega), hy (k + 1 + 1) (by omega)] at c1 c2
    rcases hc' : (T (k + 1)).cmd axis with _ | d'
    · exact .inr rfl
    · left
      cases d <;> cases d'
      · rfl
      · linarith [c1 hc hc']
      · linarith [c2 hc hc']
      · rfl
  suffices H : ∀ n', n' ≤ n → ∃ (d : Dir) (m : Nat), m ≤ n' ∧ (∀ k, k < m → (T k).cmd axis = some d) ∧
      (∀ k, m ≤ k → k < n' → (T k).cmd axis = none) by
    obtain ⟨d, m, h1, h2, h3⟩ := H n le_rfl
    exact ⟨d, m, h1, fun k hk => ⟨h2 k hk, hsome k (by omega) d (h2 k hk)⟩,
      fun k h4 h5 => ⟨h3 k h4 h5, hnone k h5 (h3 k h4 h5)⟩⟩
  intro n'
  induction n' with
  | zero => exact fun _ => ⟨.forward, 0, le_rfl, by simp, by simp⟩
  | succ n' ih =>
    intro hn'
    obtain ⟨d, m, h1, h2, h3⟩ := ih (by omega)
    by_cases hm : m = n'
    · subst hm
      rcases Nat.eq_zero_or_pos m with h0 | h0
      · subst h0
        rcases hc : (T 0).cmd axis with _ | d'
        · exact ⟨.forward, 0, by omega, by simp, fun k _ hk => by rw [show k = 0 by omega]; exact hc⟩
        · exact ⟨d', 1, by omega, fun k hk => by rw [show k = 0 by omega]; exact hc, fun k _ _ => by omega⟩
      · have h4 := hF2 (m - 1) (by omega) d (h2 (m - 1) (by omega))
        rw [show m - 1 + 1 = m by omega] at h4
        rcases h4 with h4 | h4
        · refine ⟨d, m + 1, le_rfl, fun k hk => ?_, fun k _ _ => by omega⟩
          rcases Nat.lt_or_ge k m with hk' | hk'
          · exact h2 k hk'
          · rw [show k = m by omega]; exact h4
        · refine ⟨d, m, by omega, h2, fun k h5 h6 => ?_⟩
          rw [show k = m by omega]; exact h4
    · refine ⟨d, m, by omega, h2, fun k h5 h6 => ?_⟩
      rcases Nat.lt_or_ge k n' with hk' | hk'
      · exact h3 k h5 hk'
      · have h4 := hF1 (n' - 1) (by omega) (h3 (n' - 1) (by omega) (by omega))
        rw [show k = n' by omega]
        rw [show n' - 1 + 1 = n' by omega] at h4
        exact h4

/-! ## Examples: at 200 steps per mm with hysteresis 1/20, a machine at step 0 -/

theorem example_round {y : ℝ} {n : Int} (h0 : 0 ≤ y) (h : (n : ℝ) ≤ y + 1 / 2) (h' : y + 1 / 2 < n + 1) : roundf y = n := by
  unfold roundf
  rw [if_pos h0]
  exact Int.floor_eq_iff.2 ⟨h, h'⟩

/-- 0.6 steps ahead: step forward. -/
example : Example.machine.choose 0 (fin (3 / 1000)) 0 = some .forward := by
  unfold Machine.choose Machine.needStepForward
  rw [fin_mul, fin_sub, toInt32_round (by norm_num [Example.machine]), example_round (n := 1)] <;>
    norm_num [Example.machine]

/-- 0.5 steps ahead: no step. -/
example : Example.machine.choose 0 (fin (1 / 400)) 0 = none := by
  rcases h : Example.machine.choose 0 (fin (1 / 400)) 0 with _ | d
  · rfl
  · cases d with
    | forward => have := choose_forward (by norm_num [Machine.InRange, Example.machine]) h; norm_num [Example.machine] at this
    | backward => have := choose_backward h; norm_num [Example.machine] at this

end Moovr.Props
