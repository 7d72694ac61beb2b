import Verif.Lemmas.Run32
import Verif.Lemmas.Halt32
/-!
# The controller in single precision: stopping its only motion
-/
namespace Moovr
open Num Float32 Single MotionCtrl

/-- The controller executes its only motion and has been told to stop; `k` samples since the motion began. -/
structure Halting32 {M : Machine} {fpu : Fpu} (w : ℝ) (x : Path32) (p : Profile32) (k : Nat)
    (c : MotionCtrl (M.kit32 fpu)) : Prop where
  state : c.state = .stopping
  level : c.buffer.level = 1
  head : c.buffer.head < 32
  traj : c.buffer.getHead.traj = x
  prof : c.buffer.getHead.prof = p
  width : c.time.minStepPulseWidth = num w
  index : c.time.sampleIndex = k
  offset : c.time.sampleZeroOffset = num 0

/-- The time after `k` samples from the start. -/
theorem Halting32.reading {M : Machine} {fpu : Fpu} {w : ℝ} {x : Path32} {p : Profile32} {k : Nat} {c : MotionCtrl (M.kit32 fpu)}
    (h : Halting32 w x p k c) (hk : k + 1 < 2 ^ 32) : u32add c.time.sampleIndex 1 = k + 1 ∧
      c.time.next.timeInMotion = num (reading32 fpu w (k + 1)) := by
  have hidx : u32add c.time.sampleIndex 1 = k + 1 := by rw [h.index]; simp only [u32add]; omega
  refine ⟨hidx, ?_⟩
  show (M.kit32 fpu).sample (u32add c.time.sampleIndex 1) _ _ = _
  rw [hidx, h.width, h.offset]
  exact mulAdd_num _ _ _ _

/-- The controller has stopped in the middle of its only motion, after `k` samples. -/
structure Halted32 {M : Machine} {fpu : Fpu} (w : ℝ) (x : Path32) (p : Profile32) (k : Nat) (c : MotionCtrl (M.kit32 fpu)) :
    Prop where
  state : c.state = .stopped
  level : c.buffer.level = 1
  head : c.buffer.head < 32
  traj : c.buffer.getHead.traj = x
  prof : c.buffer.getHead.prof = p
  width : c.time.minStepPulseWidth = num w
  index : c.time.sampleIndex = k
  offset : c.time.sampleZeroOffset = num 0
  now : c.time.timeInMotion = num (reading32 fpu w k)

/-- The request to stop. -/
theorem Alone32.stop {M : Machine} {fpu : Fpu} {w t : ℝ} {x : Path32} {p : Profile32} {k : Nat} {c : MotionCtrl (M.kit32 fpu)}
    (h : Alone32 w x p k c) (ht : c.time.timeInMotion = num t) :
    Halting32 w x (MotionItem32.optimizeAt M c.overrides .minimizeSpeed (num t) x p) k c.stop ∧
      c.stop.machinePosition = c.machinePosition := by
  unfold MotionCtrl.stop MotionCtrl.optimize
  simp only [pushEvent, h.level, one_ne_zero, if_false, if_true]
  refine ⟨⟨rfl, h.level, h.head, ?_, ?_, h.width, h.index, h.offset⟩, trivial⟩
  · simp only [MotionBuffer.getHead, MotionBuffer.updProf, if_true]; exact h.traj
  · simp only [MotionBuffer.getHead, MotionBuffer.updProf, if_true, strategy]
    rw [ht]
    have e1 := h.traj
    have e2 := h.prof
    simp only [MotionBuffer.getHead] at e1 e2
    rw [e1, e2]
    rfl

/-- A tick after the request to stop. -/
theorem Halting32.tick {M : Machine} {fpu : Fpu} {w e : ℝ} {x : Path32} {p : Profile32} {k : Nat}
    {c c' : MotionCtrl (M.kit32 fpu)} {t} (h : Halting32 w x p k c) (hk : k + 1 < 2 ^ 32) (hD : p.duration = ⟨posInf⟩)
    (hs : p.tStop = num e) (ht : c.tick = some (c', t)) :
    c'.time.timeInMotion = num (reading32 fpu w (k + 1)) ∧ t.active ≠ none ∧
    (reading32 fpu w (k + 1) ≤ e → Halting32 w x p (k + 1) c') ∧ (e < reading32 fpu w (k + 1) → Halted32 w x p (k + 1) c') := by
  obtain ⟨hidx, htime⟩ := h.reading hk
  have hrun : c.isRunning = true := by simp [isRunning, h.state]
  unfold MotionCtrl.tick at ht
  simp only [hrun, if_true] at ht
  have hbey : c.time.next.isBeyond ((M.kit32 fpu).duration c.buffer.getHead.prof) = false := by
    show Single.lt (Profile32.duration c.buffer.getHead.prof) c.time.next.timeInMotion = _
    rw [htime, h.prof, hD]; rfl
  have hst : c.time.next.isBeyond ((M.kit32 fpu).tStop c.buffer.getHead.prof) = decide (e < reading32 fpu w (k + 1)) := by
    show Single.lt (Profile32.tStop c.buffer.getHead.prof) c.time.next.timeInMotion = _
    rw [htime, h.prof, hs, lt_num]
  unfold sampleAndCheckStop at ht
  simp only [hst, decide_eq_true_eq] at ht
  by_cases hc : e < reading32 fpu w (k + 1)
  · rw [if_pos hc, settle] at ht
    simp only [pushEvent, hbey, Bool.false_eq_true, if_false, Option.map_some, Option.some.injEq, Prod.mk.injEq] at ht
    obtain ⟨rfl, rfl⟩ := ht
    exact ⟨htime, by simp, fun h => absurd hc (not_lt.2 h), fun _ => ⟨rfl, h.level, h.head, h.traj, h.prof, h.width, hidx, h.offset, htime⟩⟩
  · rw [if_neg hc, settle] at ht
    simp only [hbey, Bool.false_eq_true, if_false, Option.map_some, Option.some.injEq, Prod.mk.injEq] at ht
    obtain ⟨rfl, rfl⟩ := ht
    exact ⟨htime, by simp, fun _ => ⟨h.state, h.level, h.head, h.traj, h.prof, h.width, hidx, h.offset⟩, fun h => absurd h hc⟩

theorem Halted32.tick {M : Machine} {fpu : Fpu} {w : ℝ} {x : Path32} {p : Profile32} {k : Nat} {c c' : MotionCtrl (M.kit32 fpu)} {t}
    (h : Halted32 w x p k c) (ht : c.tick = some (c', t)) : Halted32 w x p k c' ∧ t.active = none := by
  have hrun : c.isRunning = false := by simp [isRunning, h.state]
  unfold MotionCtrl.tick at ht
  simp only [hrun, Bool.false_eq_true, if_false, Option.some.injEq, Prod.mk.injEq] at ht
  obtain ⟨rfl, rfl⟩ := ht
  exact ⟨⟨h.state, h.level, h.head, h.traj, h.prof, h.width, h.index, h.offset, h.now⟩, rfl⟩

/-- Starting again. -/
theorem Halted32.start {M : Machine} {fpu : Fpu} {w : ℝ} {x : Path32} {p : Profile32} {k : Nat} {c : MotionCtrl (M.kit32 fpu)}
    (h : Halted32 w x p k c) :
    Alone32 w x (MotionItem32.optimizeAt M c.overrides .maximizeSpeed (num (reading32 fpu w k)) x p) k (MotionCtrl.start c) ∧
      (MotionCtrl.start c).machinePosition = c.machinePosition := by
  unfold MotionCtrl.start
  simp only [MotionBuffer.isEmpty, h.level, zero_ne_one, decide_false, Bool.not_false, if_true]
  unfold MotionCtrl.optimize
  simp only [pushEvent, h.level, one_ne_zero, if_false, if_true]
  refine ⟨⟨rfl, h.level, h.head, ?_, ?_, h.width, h.index, h.offset⟩, trivial⟩
  · simp only [MotionBuffer.getHead, MotionBuffer.updProf, if_true]; exact h.traj
  · simp only [MotionBuffer.getHead, MotionBuffer.updProf, if_true, strategy]
    rw [h.now]
    have e1 := h.traj
    have e2 := h.prof
    simp only [MotionBuffer.getHead] at e1 e2
    rw [e1, e2]
    rfl

end Moovr
