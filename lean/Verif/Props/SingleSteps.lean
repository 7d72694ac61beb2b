import Verif.Lemmas.Single
/-!
# Property C94: the step decision in single precision

C28, C29 and C30 again, for the controller with `float` arithmetic: rounding moves the thresholds by at most `slack Y`, where
`Y` bounds the commanded positions (in steps). For the 3-axis machine (60000 steps) that is less than a sixth of the
hysteresis.
-/
namespace Moovr.Props
open Num Float32 Single PulseSpec MotionSpec MotionCtrl

/-- How much rounding can shift the comparison of positions of up to `Y` steps. -/
noncomputable def slack (Y : ℝ) : ℝ := (2 * Y + 2) / 2 ^ 24

/-- The position of an axis computed at a tick: that of the sampled motion at the sampled time. -/
noncomputable def commanded32 {M : Machine} {fpu : Fpu} (c : MotionCtrl (M.kit32 fpu)) (axis : Nat) : Single :=
  c.buffer.getHead.traj.trajectory.position fpu axis (c.buffer.getHead.prof.s c.time.timeInMotion)

/-- An axis takes part in the sampled motion. -/
def TakesPart32 {M : Machine} {fpu : Fpu} (c : MotionCtrl (M.kit32 fpu)) (t : Tick (Option SimplifiedMotion))
    (axis : Nat) : Prop :=
  t.active ≠ none ∧ axis < M.n ∧ c.buffer.getHead.traj.trajectory.isMoving axis = true

theorem tick_choose32 {M : Machine} {fpu : Fpu} {c c' : MotionCtrl (M.kit32 fpu)} {t} (h : c.tick = some (c', t))
    (axis : Nat) :
    (TakesPart32 c' t axis ∧ t.cmd axis = M.choose32 fpu axis (commanded32 c' axis) (c.machinePosition axis)) ∨
    (¬ TakesPart32 c' t axis ∧ t.cmd axis = none) := by
  obtain ⟨-, ⟨h1, h2⟩ | ⟨h1, h2⟩⟩ := tick_moves c c' t h
  · by_cases hc : axis < M.n ∧ c'.buffer.getHead.traj.trajectory.isMoving axis = true
    · left
      refine ⟨⟨h1, hc⟩, ?_⟩
      rw [h2 axis]
      exact if_pos hc
    · right
      refine ⟨fun h => hc h.2, ?_⟩
      rw [h2 axis]
      exact if_neg hc
  · exact .inr ⟨fun h => h.1 h1, h2 axis⟩

/-- The compared positions are within `slack` of the exact ones. -/
theorem compared_near {M : Machine} {fpu : Fpu} {axis : Nat} {p Y : ℝ} (h0 : 0 ≤ M.hysteresis) (h1 : M.hysteresis ≤ 1)
    (hp : |p * M.stepsPerMm axis| ≤ Y) (hY1 : 1 ≤ Y) (hY : Y ≤ 2 ^ 22) :
    |M.below32 fpu axis p - (p * M.stepsPerMm axis - M.hysteresis)| ≤ slack Y ∧
    |M.above32 fpu axis p - (p * M.stepsPerMm axis + M.hysteresis)| ≤ slack Y := by
  have hB : (2 : ℝ) ^ (-126 : ℤ) ≤ Y := le_trans (by norm_num [zpow_neg]) hY1
  have hu : (2 : ℝ) ^ (-24 : ℤ) = 1 / 2 ^ 24 := by norm_num [zpow_neg]
  have hs : 2 ^ (-24 : ℤ) * (2 * Y + 2 ^ (-24 : ℤ) * Y + M.hysteresis) ≤ slack Y := by
    rw [hu]; unfold slack
    norm_num at hY ⊢
    linarith
  constructor
  · have := mulAddR_error fpu p (M.stepsPerMm axis) (-M.hysteresis) hp hB
    rw [abs_neg, abs_of_nonneg h0, ← sub_eq_add_neg] at this
    exact this.trans hs
  · have := mulAddR_error fpu p (M.stepsPerMm axis) M.hysteresis hp hB
    rw [abs_of_nonneg h0] at this
    exact this.trans hs

/-- **C94** The step decision of the controller with `float` arithmetic, on every tick of every state. -/
theorem one_step_per_tick_single {M : Machine} {fpu : Fpu} {c c' : MotionCtrl (M.kit32 fpu)} {t}
    (h : c.tick = some (c', t)) (axis : Nat) :
    c'.machinePosition axis = c.machinePosition axis + stepsOf (t.cmd axis) ∧
    (¬ TakesPart32 c' t axis → t.cmd axis = none) ∧
    ∀ p Y : ℝ, 0 ≤ M.hysteresis → M.hysteresis ≤ 1 → commanded32 c' axis = num p → |p * M.stepsPerMm axis| ≤ Y → 1 ≤ Y →
      Y ≤ 2 ^ 22 → |c.machinePosition axis| ≤ 2 ^ 24 → TakesPart32 c' t axis →
      (t.cmd axis = some .forward → c.machinePosition axis + 1 / 2 + M.hysteresis - slack Y ≤ p * M.stepsPerMm axis) ∧
      (t.cmd axis = some .backward → p * M.stepsPerMm axis ≤ c.machinePosition axis - 1 / 2 - M.hysteresis + slack Y) ∧
      (t.cmd axis = none → |p * M.stepsPerMm axis - c.machinePosition axis| ≤ 1 / 2 + M.hysteresis + slack Y) := by
  refine ⟨(tick_moves c c' t h).1 axis, ?_, ?_⟩
  · intro hn
    rcases tick_choose32 h axis with h1 | h1
    · exact absurd h1.1 hn
    · exact h1.2
  · intro p Y hh0 hh1 hp hb hY1 hY hm ht
    rcases tick_choose32 h axis with h1 | h1
    swap
    · exact absurd ht h1.1
    rw [h1.2, hp]
    obtain ⟨a, b⟩ := compared_near (fpu := fpu) hh0 hh1 hb hY1 hY
    have hr : |M.below32 fpu axis p| ≤ 2 ^ 31 - 2 := by
      have a' := abs_le.1 a
      have b' := abs_le.1 hb
      have : slack Y ≤ 2 := by unfold slack; norm_num at hY ⊢; linarith
      rw [abs_le]
      norm_num at hY ⊢
      constructor <;> linarith
    have a := abs_le.1 a
    have b := abs_le.1 b
    refine ⟨fun e => ?_, fun e => ?_, fun e => ?_⟩
    · have := choose32_forward hr e
      linarith
    · have := choose32_backward hm e
      linarith
    · have := choose32_none hm hr e
      rw [abs_le]
      constructor <;> linarith

/-- A sequence of ticks, with the position (in steps) of an axis computed at each tick: on ticks on which the axis takes part in
the sampled motion it is that of the motion; on other ticks it stays. -/
structure Follows32 (M : Machine) (fpu : Fpu) (axis : Nat) (n : Nat) (C : Nat → MotionCtrl (M.kit32 fpu))
    (T : Nat → Tick (Option SimplifiedMotion)) (y : Nat → ℝ) (Y : ℝ) : Prop where
  tick : ∀ k, k < n → (C k).tick = some (C (k + 1), T k)
  command : ∀ k, k < n → TakesPart32 (C (k + 1)) (T k) axis →
    ∃ p, commanded32 (C (k + 1)) axis = num p ∧ p * M.stepsPerMm axis = y (k + 1)
  idle : ∀ k, k < n → ¬ TakesPart32 (C (k + 1)) (T k) axis → y (k + 1) = y k
  bound : ∀ k, k ≤ n → |y k| ≤ Y
  one : 1 ≤ Y
  small : Y ≤ 2 ^ 22
  hysteresis_nonneg : 0 ≤ M.hysteresis
  hysteresis_le : M.hysteresis ≤ 1

theorem Follows32.step {M : Machine} {fpu : Fpu} {axis n : Nat} {C : Nat → MotionCtrl (M.kit32 fpu)}
    {T : Nat → Tick (Option SimplifiedMotion)} {y : Nat → ℝ} {Y : ℝ} (h : Follows32 M fpu axis n C T y Y) {k : Nat}
    (hk : k < n) (hm : |(C k).machinePosition axis| ≤ 2 ^ 24) :
    (C (k + 1)).machinePosition axis = (C k).machinePosition axis + stepsOf ((T k).cmd axis) ∧
    ((T k).cmd axis = some .forward → (C k).machinePosition axis + 1 / 2 + M.hysteresis - slack Y ≤ y (k + 1)) ∧
    ((T k).cmd axis = some .backward → y (k + 1) ≤ (C k).machinePosition axis - 1 / 2 - M.hysteresis + slack Y) ∧
    ((T k).cmd axis = none →
      |y (k + 1) - (C k).machinePosition axis| ≤ 1 / 2 + M.hysteresis + slack Y ∨ y (k + 1) = y k) := by
  obtain ⟨h1, h2, h3⟩ := one_step_per_tick_single (h.tick k hk) axis
  refine ⟨h1, ?_⟩
  by_cases hp : TakesPart32 (C (k + 1)) (T k) axis
  · obtain ⟨p, hp1, hp2⟩ := h.command k hk hp
    have := h3 p Y h.hysteresis_nonneg h.hysteresis_le hp1 (by rw [hp2]; exact h.bound _ hk) h.one h.small hm hp
    rw [hp2] at this
    exact ⟨this.1, this.2.1, fun e => .inl (this.2.2 e)⟩
  · rw [h2 hp]
    exact ⟨by simp, by simp, fun _ => .inr (h.idle k hk hp)⟩

/-- **C94**, tracking: the machine position stays within half a step plus hysteresis plus slack of the computed position, for
any number of ticks, if it starts there and the computed position changes by at most one step per tick. -/
theorem position_tracks_single {M : Machine} {fpu : Fpu} {axis n : Nat} {C : Nat → MotionCtrl (M.kit32 fpu)}
    {T : Nat → Tick (Option SimplifiedMotion)} {y : Nat → ℝ} {Y : ℝ} (h : Follows32 M fpu axis n C T y Y)
    (h0 : |y 0 - (C 0).machinePosition axis| ≤ 1 / 2 + M.hysteresis + slack Y)
    (hrate : ∀ k, k < n → |y (k + 1) - y k| ≤ 1) :
    ∀ k, k ≤ n → |y k - (C k).machinePosition axis| ≤ 1 / 2 + M.hysteresis + slack Y := by
  have hs : slack Y ≤ 2 := by
    have := h.small
    unfold slack; norm_num at this ⊢; linarith
  have hs0 : 0 ≤ slack Y := by
    have := h.one
    unfold slack; positivity
  have hh0 := h.hysteresis_nonneg
  have hh1 := h.hysteresis_le
  intro k
  induction k with
  | zero => exact fun _ => h0
  | succ k ih =>
    intro hk
    have ih := abs_le.1 (ih (by omega))
    have hr := abs_le.1 (hrate k (by omega))
    have hm : |(C k).machinePosition axis| ≤ 2 ^ 24 := by
      have hb := abs_le.1 (h.bound k (by omega))
      have hY := h.small
      have : |((C k).machinePosition axis : ℝ)| ≤ 2 ^ 24 := by
        rw [abs_le]
        norm_num at hY ⊢
        constructor <;> linarith
      exact_mod_cast this
    obtain ⟨e, hf, hb, hn⟩ := h.step (show k < n by omega) hm
    rw [e]
    rw [abs_le]
    rcases hc : (T k).cmd axis with _ | d
    · simp only [stepsOf, add_zero]
      rcases hn hc with h1 | h1
      · exact abs_le.1 h1
      · rw [h1]; exact ih
    · cases d with
      | forward =>
        have := hf hc
        simp only [stepsOf]; push_cast
        constructor <;> linarith
      | backward =>
        have := hb hc
        simp only [stepsOf]; push_cast
        constructor <;> linarith

/-- No chatter, with a bound of the machine position instead of the tracking. -/
theorem no_chatter_bounded {M : Machine} {fpu : Fpu} {axis n : Nat} {C : Nat → MotionCtrl (M.kit32 fpu)}
    {T : Nat → Tick (Option SimplifiedMotion)} {y : Nat → ℝ} {Y : ℝ} (h : Follows32 M fpu axis n C T y Y)
    (hm : ∀ i, i ≤ n → |(C i).machinePosition axis| ≤ 2 ^ 24) {j k : Nat} (hjk : j < k) (hk : k < n)
    (hquiet : ∀ l, j < l → l < k → (T l).cmd axis = none) :
    ((T j).cmd axis = some .forward → (T k).cmd axis = some .backward →
      y (k + 1) ≤ y (j + 1) - 2 * (M.hysteresis - slack Y)) ∧
    ((T j).cmd axis = some .backward → (T k).cmd axis = some .forward →
      y (j + 1) + 2 * (M.hysteresis - slack Y) ≤ y (k + 1)) := by
  have hpos : ∀ d, j + 1 + d ≤ k → (C (j + 1 + d)).machinePosition axis = (C (j + 1)).machinePosition axis := by
    intro d
    induction d with
    | zero => intro _; rfl
    | succ d ih =>
      intro hd
      have e := (h.step (show j + 1 + d < n by omega) (hm _ (by omega))).1
      rw [hquiet (j + 1 + d) (by omega) (by omega)] at e
      rw [show j + 1 + (d + 1) = j + 1 + d + 1 by omega, e, ih (by omega)]
      simp [stepsOf]
  have e := hpos (k - j - 1) (by omega)
  rw [show j + 1 + (k - j - 1) = k by omega] at e
  obtain ⟨ej, hfj, hbj, -⟩ := h.step (show j < n by omega) (hm _ (by omega))
  obtain ⟨-, hfk, hbk, -⟩ := h.step hk (hm _ (by omega))
  rw [e] at hfk hbk
  constructor
  · intro h1 h2
    have h3 := hfj h1
    have h4 := hbk h2
    rw [ej, h1] at h4
    simp only [stepsOf] at h4
    push_cast at h4
    linarith
  · intro h1 h2
    have h3 := hbj h1
    have h4 := hfk h2
    rw [ej, h1] at h4
    simp only [stepsOf] at h4
    push_cast at h4
    linarith

/-- **C94**, no chatter: a step is never followed by a step in the opposite direction unless the computed position has moved
back by at least twice the hysteresis less the slack. So computed positions that would increase but for errors of up to
`M.hysteresis - slack Y` cause no step back. -/
theorem no_chatter_single {M : Machine} {fpu : Fpu} {axis n : Nat} {C : Nat → MotionCtrl (M.kit32 fpu)}
    {T : Nat → Tick (Option SimplifiedMotion)} {y : Nat → ℝ} {Y : ℝ} (h : Follows32 M fpu axis n C T y Y)
    (h0 : |y 0 - (C 0).machinePosition axis| ≤ 1 / 2 + M.hysteresis + slack Y)
    (hrate : ∀ k, k < n → |y (k + 1) - y k| ≤ 1) {j k : Nat} (hjk : j < k) (hk : k < n)
    (hquiet : ∀ l, j < l → l < k → (T l).cmd axis = none) :
    ((T j).cmd axis = some .forward → (T k).cmd axis = some .backward →
      y (k + 1) ≤ y (j + 1) - 2 * (M.hysteresis - slack Y)) ∧
    ((T j).cmd axis = some .backward → (T k).cmd axis = some .forward →
      y (j + 1) + 2 * (M.hysteresis - slack Y) ≤ y (k + 1)) := by
  have hs : slack Y ≤ 2 := by
    have := h.small
    unfold slack; norm_num at this ⊢; linarith
  have hm : ∀ i, i ≤ n → |(C i).machinePosition axis| ≤ 2 ^ 24 := by
    intro i hi
    have ht := abs_le.1 (position_tracks_single h h0 hrate i hi)
    have hb := abs_le.1 (h.bound i hi)
    have hY := h.small
    have hh1 := h.hysteresis_le
    have : |((C i).machinePosition axis : ℝ)| ≤ 2 ^ 24 := by
      rw [abs_le]
      norm_num at hY ⊢
      constructor <;> linarith
    exact_mod_cast this
  exact no_chatter_bounded h hm hjk hk hquiet

/-- The 3-axis machine: 200 steps/mm, hysteresis 0.05 steps. -/
private noncomputable def example32 : Machine :=
  ⟨3, fun _ => 200, 1 / 20, fun _ => 30, fun _ => 200, fun _ => -200, 600, 0, fun _ => 0⟩

/-- On the 3-axis machine (at most 300 mm at 200 steps/mm) the slack is less than a sixth of the hysteresis of 0.05 steps. -/
example : slack 60000 < (1 / 20) / 6 := by unfold slack; norm_num

/-- An axis of the 3-axis machine at 0, computed position 1/256 mm, i.e. 0.78 steps: a step forward, whatever the rounding. -/
example (fpu : Fpu) : example32.choose32 fpu 0 (num (1 / 256)) 0 = some .forward := by
  have hs : slack 60000 < 1 / 100 := by unfold slack; norm_num
  obtain ⟨a, b⟩ := compared_near (M := example32) (fpu := fpu) (axis := 0) (p := 1 / 256) (Y := 60000)
    (by norm_num [example32]) (by norm_num [example32]) (by norm_num [example32, abs_of_pos]) (by norm_num) (by norm_num)
  have ha := abs_le.1 a
  have hb := abs_le.1 b
  simp only [example32] at ha hb
  norm_num at ha hb
  have hr : |example32.below32 fpu 0 (1 / 256)| ≤ 2 ^ 31 - 2 := by
    rw [abs_le]; norm_num [example32]; constructor <;> linarith
  rcases e : example32.choose32 fpu 0 (num (1 / 256)) 0 with _ | d
  · have := choose32_none (by norm_num) hr e
    norm_num [example32] at this
    linarith
  · cases d with
    | forward => rfl
    | backward =>
      have := choose32_backward (by norm_num) e
      norm_num [example32] at this
      linarith

end Moovr.Props
