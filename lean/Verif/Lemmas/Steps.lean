import Verif.Lemmas.Num
import Verif.Lemmas.MotionCtrl
import Verif.Model.MotionItem
/-!
# The step decision
-/
namespace Moovr
open Num PulseSpec MotionSpec MotionCtrl

theorem roundf_le (x : ℝ) : (roundf x : ℝ) ≤ x + 1 / 2 := by
  unfold roundf
  split_ifs with h
  · exact Int.floor_le _
  · have := Int.lt_floor_add_one (-x + 1 / 2)
    push_cast
    linarith

theorem le_roundf (x : ℝ) : x - 1 / 2 ≤ (roundf x : ℝ) := by
  unfold roundf
  split_ifs with h
  · have := Int.lt_floor_add_one (x + 1 / 2)
    linarith
  · have := Int.floor_le (-x + 1 / 2)
    push_cast
    linarith

/-- A commanded position (in steps) for which the conversion to 32 bits is defined. -/
def Machine.InRange (M : Machine) (y : ℝ) : Prop := |y - M.hysteresis| ≤ 2 ^ 31 - 2

theorem toInt32_round {M : Machine} {x : ℝ} (h : |x| ≤ 2 ^ 31 - 2) : M.toInt32 (fin x).round = roundf x := by
  have h1 := roundf_le x; have h2 := le_roundf x
  have h3 := abs_le.1 h
  simp only [Num.round, Machine.toInt32]
  rw [if_pos ⟨by linarith [h3.1], by linarith [h3.2]⟩]
  split_ifs <;> simp

/-- The decision of `move` for an axis taking part in the motion — motionctrl.cpp:222-227. -/
noncomputable def Machine.choose (M : Machine) (axis : Nat) (p : Num) (m : Int) : Cmd :=
  if M.needStepForward axis p m then some .forward else if M.needStepBackward axis p m then some .backward else none

theorem choose_forward {M : Machine} {axis : Nat} {p : ℝ} {m : Int} (hr : M.InRange (p * M.stepsPerMm axis))
    (h : M.choose axis (fin p) m = some .forward) : (m : ℝ) + 1 / 2 + M.hysteresis ≤ p * M.stepsPerMm axis := by
  unfold Machine.choose at h
  split_ifs at h with h1
  · unfold Machine.needStepForward at h1
    rw [fin_mul, fin_sub, toInt32_round hr, decide_eq_true_eq] at h1
    have h2 := roundf_le (p * M.stepsPerMm axis - M.hysteresis)
    have h3 : (m : ℝ) + 1 ≤ roundf (p * M.stepsPerMm axis - M.hysteresis) := by exact_mod_cast h1
    linarith
  all_goals simp at h

theorem choose_backward {M : Machine} {axis : Nat} {p : ℝ} {m : Int}
    (h : M.choose axis (fin p) m = some .backward) : p * M.stepsPerMm axis ≤ (m : ℝ) - 1 / 2 - M.hysteresis := by
  unfold Machine.choose at h
  split_ifs at h with h1 h2
  all_goals first | (simp at h; done) | skip
  unfold Machine.needStepBackward at h2
  rw [fin_mul, fin_add, Num.round, lt_fin, decide_eq_true_eq] at h2
  have h3 := le_roundf (p * M.stepsPerMm axis + M.hysteresis)
  have h4 : (roundf (p * M.stepsPerMm axis + M.hysteresis) : ℝ) + 1 ≤ m := by
    have : roundf (p * M.stepsPerMm axis + M.hysteresis) < m := by exact_mod_cast h2
    exact_mod_cast this
  linarith

theorem choose_none {M : Machine} {axis : Nat} {p : ℝ} {m : Int} (hr : M.InRange (p * M.stepsPerMm axis))
    (h : M.choose axis (fin p) m = none) : |p * M.stepsPerMm axis - m| ≤ 1 / 2 + M.hysteresis := by
  unfold Machine.choose at h
  split_ifs at h with h1 h2
  unfold Machine.needStepForward at h1
  unfold Machine.needStepBackward at h2
  rw [fin_mul, fin_sub, toInt32_round hr, decide_eq_true_eq, not_lt] at h1
  rw [fin_mul, fin_add, Num.round, lt_fin, decide_eq_true_eq, not_lt] at h2
  have h3 := le_roundf (p * M.stepsPerMm axis - M.hysteresis)
  have h4 := roundf_le (p * M.stepsPerMm axis + M.hysteresis)
  have h5 : (roundf (p * M.stepsPerMm axis - M.hysteresis) : ℝ) ≤ m := by exact_mod_cast h1
  rw [abs_le]
  constructor <;> linarith

/-- What a tick does. -/
theorem settle_active {K : MotionKit} (fuel : Nat) (c : MotionCtrl K) (r) (h : settle fuel c = some r) :
    (∃ c₀ : MotionCtrl K, r.1 = c₀.move.1 ∧ r.2.1 = c₀.move.2 ∧ r.2.2 = some c₀.buffer.getHead.request ∧
      c₀.machinePosition = c.machinePosition ∧ ¬ c₀.time.isBeyond (K.duration c₀.buffer.getHead.prof) = true) ∨
    (r.1.machinePosition = c.machinePosition ∧ r.2.1 = (fun _ => none) ∧ r.2.2 = none) := by
  induction fuel generalizing c with
  | zero => simp [settle] at h
  | succ fuel ih =>
    unfold settle at h
    split at h
    · split at h
      · exact ih c.nextMotion h
      · simp only [Option.some.injEq] at h
        subst h
        exact .inr ⟨rfl, rfl, rfl⟩
    · rename_i hb
      simp only [Option.some.injEq] at h
      subst h
      exact .inl ⟨c, rfl, rfl, rfl, rfl, hb⟩

/-- On each tick either a motion is sampled, and the commands are those decided for it, or nothing moves. -/
theorem tick_moves {K : MotionKit} (c c' : MotionCtrl K) (t) (h : c.tick = some (c', t)) :
    (∀ a, c'.machinePosition a = c.machinePosition a + stepsOf (t.cmd a)) ∧
    ((t.active ≠ none ∧ (∀ a, t.cmd a =
        if a < K.n ∧ K.isMoving c'.buffer.getHead.traj a = true then
          let p := K.position c'.buffer.getHead.traj a (K.s c'.buffer.getHead.traj c'.buffer.getHead.prof c'.time.timeInMotion)
          if K.needStepForward a p (c.machinePosition a) then some .forward
          else if K.needStepBackward a p (c.machinePosition a) then some .backward else none
        else none)) ∨
     (t.active = none ∧ ∀ a, t.cmd a = none)) := by
  unfold tick at h
  simp only at h
  by_cases hr : c.isRunning = true
  · rw [if_pos hr] at h
    have hs : (sampleAndCheckStop { c with signals := c.signals.next }).machinePosition = c.machinePosition := by
      unfold sampleAndCheckStop
      simp only
      split <;> rfl
    generalize sampleAndCheckStop { c with signals := c.signals.next } = c₃ at hs h
    simp only [Option.map_eq_some_iff, Prod.exists, Prod.mk.injEq] at h
    obtain ⟨c'', cmd, act, hs', rfl, rfl⟩ := h
    rcases settle_active _ _ _ hs' with ⟨c₀, h1, h2, h3, h4, -⟩ | ⟨h1, h2, h3⟩
    · simp only at h1 h2 h3
      subst h1 h2 h3
      rw [hs] at h4
      refine ⟨fun a => ?_, .inl ⟨by simp, fun a => ?_⟩⟩
      · simp only [move, ← h4]
        cases c₀.decision a with
        | none => simp [stepsOf]
        | some d => cases d <;> simp [stepsOf]; rfl
      · simp only [move, decision, h4]
    · simp only at h1 h2 h3
      subst h2 h3
      rw [hs] at h1
      exact ⟨fun a => by rw [h1]; simp [stepsOf], .inr ⟨rfl, fun _ => rfl⟩⟩
  · rw [if_neg hr] at h
    simp only [Option.some.injEq, Prod.mk.injEq] at h
    obtain ⟨rfl, rfl⟩ := h
    exact ⟨fun a => by simp [stepsOf], .inr ⟨rfl, fun _ => rfl⟩⟩

end Moovr
