import Verif.Lemmas.Limit32
import Verif.Lemmas.Plan32
/-!
# The controller in single precision: a single motion
-/
namespace Moovr
open Num Float32 Single MotionCtrl

/-- A phase at rest. -/
theorem AccDec.rest32 {p : AccDec Single} {a j : ℝ} {o : Order} (hs : p.vStart = num 0) (he : p.vEnd = num 0)
    (hd : p.dMax = num (-a)) (hj : p.jMax = num j) (ha : a ≠ 0) (hj0 : 0 < j) (hq : 0 < rnd (rnd (j * rnd (a / j)) * rnd (a / j))) :
    (p.calculate o).vStart = num 0 ∧ (p.calculate o).vEnd = num 0 ∧ (p.calculate o).length = num 0 ∧
      (p.calculate o).v (num 0) = num 0 := by
  have hlt : Arith.lt (num 0) (num 0) = false := by simp
  have hz : ((0 : ℚ) : ℝ) = 0 := by norm_num
  have h0 : rnd (0 : ℝ) = 0 := rnd_zero
  cases o with
  | firstOrder =>
    have hd2 : num 0 / num (-a) = num 0 := by rw [num_div (neg_ne_zero.2 ha), zero_div, h0]
    simp only [AccDec.calculate, AccDec.calculateFirst, AccDec.v, hs, he, hd, hlt, num_sub, num_add, num_mul, lit_num, sub_self,
      add_zero, zero_mul, h0, hd2, hz, mul_zero, if_false, Bool.false_eq_true, and_self]
  | secondOrder =>
    have hdiv : num (- -a) / num j = num (rnd (a / j)) := by rw [num_div hj0.ne', neg_neg]
    have hlt2 : Arith.lt (num 0) (num (rnd (rnd (j * rnd (a / j)) * rnd (a / j)))) = true := by simp [hq]
    have hz2 : num 0 / num j = num 0 := by rw [num_div hj0.ne', zero_div, h0]
    have hsq : (Arith.sqrt (num 0) : Single) = num 0 := by rw [sqrt_num le_rfl, Real.sqrt_zero, h0]
    simp only [AccDec.calculate, AccDec.calculateDec, AccDec.finishSecond, AccDec.v, hs, he, hd, hj, hlt, hlt2, num_sub, num_add,
      num_mul, num_neg, lit_num, sub_self, add_zero, zero_mul, h0, hdiv, hz2, hsq, hz, mul_zero, if_false, if_true,
      Bool.false_eq_true, and_self]

/-- What is known of a profile at rest before and after it is planned with the lowest speed. -/
structure Profile32.Waiting (p : Profile32) (a d j : ℝ) : Prop extends p.Resting a d j where
  still : p.v (num 0) = num 0

theorem Profile32.plan_rest {p : Profile32} {L l a j : ℝ} {f : Single} (h : p.Resting a a j) (hL : rnd L = L) (hL0 : 0 < L)
    (ha : 0 < a) (hj : 0 < j) (hq : 0 < rnd (rnd (j * rnd (a / j)) * rnd (a / j)))
    (hQ : 0 < rnd (rnd (rnd (2 * L) * a) * a)) :
    (p.plan (num L) f (num l) .minimizeSpeed).Waiting a a j ∧
      (p.plan (num L) f (num l) .minimizeSpeed).vMax = p.vMax ∧ (p.plan (num L) f (num l) .minimizeSpeed).vFeed = p.vFeed := by
  have hz : rnd (0 : ℝ) = 0 := rnd_zero
  have hsub : num L - p.doneLength = num L := by rw [h.doneLength, num_sub, sub_zero, hL]
  have hmin : Profile32.vTri p.left.vStart p.right.vEnd p.aMax p.dMax (num L - p.doneLength) .minimizeSpeed = num 0 := by
    rw [hsub]
    simp only [Profile32.vTri, h.start, h.end_, h.aMax, h.dMax, num_mul, num_sub, num_add, zero_mul, hz, mul_neg, rnd_neg,
      neg_zero, sub_zero, add_zero, rnd_rnd, le_num, decide_eq_true_eq]
    rw [if_neg (by linarith)]
  obtain ⟨o, hc⟩ : ∃ o, p.chooseSpeed (num L) f (num l) .minimizeSpeed = (num 0, o) := by
    refine ⟨if (num L).lt (num l) then Order.firstOrder else .secondOrder, ?_⟩
    unfold Profile32.chooseSpeed
    simp only [hmin, lt_num, lt_irrefl, decide_false, Bool.false_eq_true, if_false]
  have hph : ∀ o, (p.setPhases (num 0) o).left.vStart = num 0 ∧ (p.setPhases (num 0) o).left.length = num 0 ∧
      (p.setPhases (num 0) o).left.v (num 0) = num 0 ∧ (p.setPhases (num 0) o).right.vEnd = num 0 ∧
      (p.setPhases (num 0) o).right.length = num 0 := by
    intro o
    have e1 := AccDec.rest32 (p := (p.left.setMax p.aMax p.dMax p.jMax).setvEnd (num 0)) (o := o) h.start rfl h.dMax h.jMax
      ha.ne' hj hq
    have e2 := AccDec.rest32 (p := (p.right.setMax p.aMax p.dMax p.jMax).setvStart (num 0)) (o := o) rfl h.end_ h.dMax h.jMax
      ha.ne' hj hq
    exact ⟨e1.1, e1.2.2.1, e1.2.2.2, e2.2.1, e2.2.2.1⟩
  obtain ⟨e1, e2, e3, e4, e5⟩ := hph o
  have hcond : ((num L - (p.setPhases (num 0) o).doneLength).lt
      ((p.setPhases (num 0) o).left.length + (p.setPhases (num 0) o).right.length)) = false := by
    rw [e2, e5, num_add, add_zero, hz]
    show (num L - p.doneLength).lt _ = _
    rw [hsub, lt_num]
    simpa using hL0.le
  have hplan : p.plan (num L) f (num l) .minimizeSpeed = (p.setPhases (num 0) o).finish (num L) (num 0) := by
    unfold Profile32.plan
    rw [hc]
    simp only [hcond, Bool.false_eq_true, if_false]
  rw [hplan]
  refine ⟨⟨⟨h.doneLength, h.doneDuration, e1, e4, h.aMax, h.dMax, h.jMax⟩, ?_⟩, rfl, rfl⟩
  unfold Profile32.v
  rw [if_pos]
  · exact e3
  · show (num 0).le p.doneDuration = true
    rw [h.doneDuration, le_num]; simp

/-- Planning anew at the beginning: the same motion. -/
theorem MotionItem32.optimizeAt_start {M : Machine} {o : Overrides} {st : Strategy} {x : Path32} {p : Profile32} {a d j : ℝ}
    (h : p.Waiting a d j) (hx : x.type.moves = true) :
    ∃ q : Profile32, MotionItem32.optimizeAt M o st (num 0) x p =
        q.plan x.trajectory.length ⟨o.feedOverride⟩ (num M.minLengthSProfile) st ∧
      q.Resting a d j ∧ q.vMax = p.vMax ∧ q.vFeed = p.vFeed := by
  unfold MotionItem32.optimizeAt MotionItem32.optimize
  simp only [hx, if_true]
  refine ⟨_, rfl, ⟨?_, rfl, h.still, h.end_, h.aMax, h.dMax, h.jMax⟩, rfl, rfl⟩
  show Profile32.s _ (num 0) = num 0
  unfold Profile32.s
  rw [if_pos]
  · exact h.doneLength
  · show (num 0).le p.doneDuration = true
    rw [h.doneDuration, le_num]; simp

/-- The controller is stopped, its queue empty and its clock at zero; `w` is the width of a sample. -/
structure Idle32 {M : Machine} {fpu : Fpu} (w : ℝ) (c : MotionCtrl (M.kit32 fpu)) : Prop where
  state : c.state = .stopped
  level : c.buffer.level = 0
  head : c.buffer.head < 32
  width : c.time.minStepPulseWidth = num w
  now : c.time.timeInMotion = num 0
  index : c.time.sampleIndex = 0
  offset : c.time.sampleZeroOffset = num 0

/-- The controller executes its only motion, after `k` samples. -/
structure Alone32 {M : Machine} {fpu : Fpu} (w : ℝ) (x : Path32) (p : Profile32) (k : Nat)
    (c : MotionCtrl (M.kit32 fpu)) : Prop where
  state : c.state = .running
  level : c.buffer.level = 1
  head : c.buffer.head < 32
  traj : c.buffer.getHead.traj = x
  prof : c.buffer.getHead.prof = p
  width : c.time.minStepPulseWidth = num w
  index : c.time.sampleIndex = k
  offset : c.time.sampleZeroOffset = num 0

/-- Appending a motion to the idle controller and starting it. -/
theorem Idle32.begin {M : Machine} {fpu : Fpu} {w : ℝ} {c : MotionCtrl (M.kit32 fpu)} (h : Idle32 w c)
    (r : SimplifiedMotion) :
    ∃ (x : Path32) (p : Profile32), Alone32 w (MotionItem32.setPath x r)
      (MotionItem32.optimizeAt M c.overrides .maximizeSpeed (num 0) (MotionItem32.setPath x r)
        (MotionItem32.setProfile M x p r c.overrides .minimizeSpeed)) 0 (MotionCtrl.start (c.append r)) ∧
      (MotionCtrl.start (c.append r)).machinePosition = c.machinePosition ∧
      (MotionCtrl.start (c.append r)).buffer.getHead.request = some r := by
  have hl : c.buffer.isFull = false := by simp [MotionBuffer.isFull, h.level, MotionBuffer.length]
  have hst : c.strategy = .minimizeSpeed := by simp [strategy, h.state]
  have hi : (c.buffer.head + 0) % MotionBuffer.length = c.buffer.head := by
    rw [Nat.add_zero]; exact Nat.mod_eq_of_lt h.head
  refine ⟨(c.buffer.cells c.buffer.head).traj, (c.buffer.cells c.buffer.head).prof, ?_⟩
  have ha : c.append r = { c with
      buffer := ⟨fun j => if j = c.buffer.head then
        ⟨some r, MotionItem32.setPath (c.buffer.cells c.buffer.head).traj r,
          MotionItem32.setProfile M (c.buffer.cells c.buffer.head).traj (c.buffer.cells c.buffer.head).prof r c.overrides
            .minimizeSpeed⟩ else c.buffer.cells j, c.buffer.head, 1⟩ } := by
    unfold MotionCtrl.append
    simp only [hl, Bool.not_false, if_true, MotionBuffer.push, h.level, hi, hst]
    rfl
  rw [ha]
  unfold MotionCtrl.start
  simp only [MotionBuffer.isEmpty, zero_ne_one, decide_false, Bool.not_false, if_true]
  unfold MotionCtrl.optimize
  simp only [pushEvent, one_ne_zero, if_false, if_true]
  refine ⟨⟨rfl, rfl, h.head, ?_, ?_, h.width, h.index, h.offset⟩, trivial, ?_⟩
  · simp only [MotionBuffer.getHead, MotionBuffer.updProf, if_true]; rfl
  · simp only [MotionBuffer.getHead, MotionBuffer.updProf, if_true, strategy]
    rw [h.now]
    rfl
  · simp only [MotionBuffer.getHead, MotionBuffer.updProf, if_true]; rfl

/-- The time after `k` samples from the start. -/
noncomputable def reading32 (fpu : Fpu) (w : ℝ) (k : Nat) : ℝ := mulAddR fpu (rnd k) w 0

/-- A tick while a motion is executed: either the time is within its duration and the motion is sampled, or it ends. -/
theorem Alone32.tick {M : Machine} {fpu : Fpu} {w D : ℝ} {x : Path32} {p : Profile32} {k : Nat}
    {c c' : MotionCtrl (M.kit32 fpu)} {t} (h : Alone32 w x p k c) (hk : k + 1 < 2 ^ 32) (hD : p.duration = num D)
    (hs : p.tStop = ⟨posInf⟩) (ht : c.tick = some (c', t)) :
    (reading32 fpu w (k + 1) ≤ D → Alone32 w x p (k + 1) c' ∧ c'.time.timeInMotion = num (reading32 fpu w (k + 1)) ∧
      t.active ≠ none) ∧
    (D < reading32 fpu w (k + 1) → Idle32 w c' ∧ t.active = none ∧ c'.machinePosition = c.machinePosition) := by
  have hidx : u32add c.time.sampleIndex 1 = k + 1 := by rw [h.index]; simp only [u32add]; omega
  have htime : c.time.next.timeInMotion = num (reading32 fpu w (k + 1)) := by
    show (M.kit32 fpu).sample (u32add c.time.sampleIndex 1) _ _ = _
    rw [hidx, h.width, h.offset]
    exact mulAdd_num _ _ _ _
  have hrun : c.isRunning = true := by simp [isRunning, h.state]
  unfold MotionCtrl.tick at ht
  simp only [hrun, if_true] at ht
  have hstop : ({ c with signals := c.signals.next } : MotionCtrl (M.kit32 fpu)).sampleAndCheckStop =
      { c with signals := c.signals.next, time := c.time.next } := by
    unfold sampleAndCheckStop
    have : (c.time.next.isBeyond ((M.kit32 fpu).tStop c.buffer.getHead.prof)) = false := by
      show Single.lt (Profile32.tStop c.buffer.getHead.prof) c.time.next.timeInMotion = false
      rw [htime, h.prof, hs]; rfl
    simp only [this, Bool.false_eq_true, if_false]
  rw [hstop] at ht
  have hbey : c.time.next.isBeyond ((M.kit32 fpu).duration c.buffer.getHead.prof) = decide (D < reading32 fpu w (k + 1)) := by
    show Single.lt (Profile32.duration c.buffer.getHead.prof) c.time.next.timeInMotion = _
    rw [htime, h.prof, hD, lt_num]
  rw [settle] at ht
  simp only [hbey, decide_eq_true_eq, h.level, Option.map_eq_some_iff, Prod.exists, Prod.mk.injEq] at ht
  constructor
  · intro hle
    rw [if_neg (not_lt.2 hle)] at ht
    simp only [Option.some.injEq, Prod.mk.injEq] at ht
    obtain ⟨c₀, cmd, act, ⟨rfl, rfl, rfl⟩, rfl, rfl⟩ := ht
    refine ⟨⟨h.state, h.level, h.head, h.traj, h.prof, h.width, hidx, h.offset⟩, htime, by simp⟩
  · intro hlt
    rw [if_pos hlt, if_neg (by omega)] at ht
    simp only [Option.some.injEq, Prod.mk.injEq] at ht
    obtain ⟨c₀, cmd, act, ⟨rfl, rfl, rfl⟩, rfl, rfl⟩ := ht
    refine ⟨⟨rfl, ?_, ?_, h.width, rfl, rfl, rfl⟩, rfl, rfl⟩
    · show u32sub c.buffer.level 1 = 0
      rw [h.level]; rfl
    · exact Nat.mod_lt _ (by decide)

/-- A tick of the idle controller. -/
theorem Idle32.tick {M : Machine} {fpu : Fpu} {w : ℝ} {c c' : MotionCtrl (M.kit32 fpu)} {t} (h : Idle32 w c)
    (ht : c.tick = some (c', t)) : Idle32 w c' ∧ t.active = none ∧ c'.machinePosition = c.machinePosition := by
  have hrun : c.isRunning = false := by simp [isRunning, h.state]
  unfold MotionCtrl.tick at ht
  simp only [hrun, Bool.false_eq_true, if_false, Option.some.injEq, Prod.mk.injEq] at ht
  obtain ⟨rfl, rfl⟩ := ht
  exact ⟨⟨h.state, h.level, h.head, h.width, h.now, h.index, h.offset⟩, rfl, rfl⟩

end Moovr
