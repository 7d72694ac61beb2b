import Verif.Lemmas.Resume
/-!
# Motions whose profile is not a number

If a stop ends at the very end of the path, no distance is left for the cruise at speed 0, whose duration is then 0 / 0. When the
motion is resumed, the distance travelled is computed from it.
-/
namespace Moovr
open Num AccDec ExecSpec MotionCtrl

theorem Num.nan_add (x : Num) : nan + x = nan := by cases x <;> rfl
theorem Num.add_nan (x : Num) : x + nan = nan := by cases x <;> rfl
theorem Num.nan_sub (x : Num) : nan - x = nan := by cases x <;> rfl
theorem Num.sub_nan (x : Num) : x - nan = nan := by cases x <;> rfl
theorem Num.nan_mul (x : Num) : nan * x = nan := by cases x <;> rfl
theorem Num.mul_nan (x : Num) : x * nan = nan := by cases x <;> rfl
theorem Num.nan_div (x : Num) : nan / x = nan := by cases x <;> rfl
theorem Num.nan_lt (x : Num) : Num.lt nan x = false := by cases x <;> rfl
theorem Num.lt_nan (x : Num) : Num.lt x nan = false := by cases x <;> rfl
theorem Num.nan_le (x : Num) : Num.le nan x = false := by cases x <;> rfl
theorem Num.le_nan (x : Num) : Num.le x nan = false := by cases x <;> rfl

theorem AccDec.s_nan (p : AccDec Num) : p.s nan = nan := by
  have h1 : ∀ x : Num, Arith.lt nan x = false := nan_lt
  have h2 : ∀ x : Num, Arith.lt x nan = false := lt_nan
  unfold AccDec.s
  simp only [h1, h2, nan_sub, mul_nan, nan_mul, add_nan, sub_nan, ite_self, Bool.false_eq_true, if_false]

/-- A profile that has come to rest at the very end of the path, and is asked for the distance travelled later. -/
theorem Planned.s_nan {i : PlanIn} {q : Profile} {l rr : AccDec ℝ} (h : Planned i q l rr 0 0) {t : ℝ} (h0 : 0 ≤ l.duration)
    (ht : i.doneT + l.duration < t) : (q.rebase (fin t)).doneLength = nan := by
  show Profile.s { q with left := q.left.setvStart (q.v (fin t)) } (fin t) = nan
  unfold Profile.s
  have e : (q.left.setvStart (q.v (fin t))).duration = fin l.duration := by
    show q.left.duration = _
    rw [h.left]; rfl
  have hmid := h.midDuration
  rw [zero_div_zero] at hmid
  simp only [e, hmid, h.doneT, fin_sub, le_fin, le_nan, sub_nan, AccDec.s_nan, add_nan]
  rw [if_neg (by simp; linarith), if_neg (by simp; linarith)]
  simp

/-- What the planner makes of a distance that is not a number. -/
theorem Profile.plan_nan {p : Profile} (hd : p.doneLength = nan) {length ov : Num} {minLen : ℝ} (hf : (p.vFeed * ov).Pos)
    (hv : p.vMax.Pos) : (p.plan length ov minLen .maximizeSpeed).duration = nan ∧
      (p.plan length ov minLen .maximizeSpeed).tStop = posInf := by
  have hmid : ∃ w : Num, w.Pos ∧ (p.chooseSpeed length ov minLen .maximizeSpeed).1 = w := by
    refine ⟨if p.vMax.lt (p.vFeed * ov) then p.vMax else p.vFeed * ov, by split <;> assumption, ?_⟩
    have h1 : Profile.vTri p.left.vStart p.right.vEnd p.aMax p.dMax (length - p.doneLength) .maximizeSpeed = nan := by
      simp only [Profile.vTri, hd, sub_nan, mul_nan, nan_mul, nan_div]; rfl
    have h2 : Profile.vTri p.left.vStart p.right.vEnd p.aMax p.dMax (length - p.doneLength) .minimizeSpeed = fin 0 := by
      simp only [Profile.vTri, hd, sub_nan, mul_nan, nan_mul, nan_sub, nan_add, le_nan]; rfl
    have h3 : ∀ w : Num, w.Pos → Num.lt w (fin 0) = false := by
      intro w hw
      cases w with
      | fin x => rw [lt_fin]; simpa [Num.Pos] using le_of_lt hw
      | posInf => rfl
      | negInf => exact hw.elim
      | nan => rfl
    unfold Profile.chooseSpeed
    simp only [h1, h2, nan_lt, Bool.false_eq_true, if_false]
    rw [h3 _ (by split <;> assumption)]
    simp
  obtain ⟨w, hw, e⟩ := hmid
  unfold Profile.plan
  simp only [e]
  have key : ∀ q : Profile, q.doneLength = nan → (q.finish length w).duration = nan ∧ (q.finish length w).tStop = posInf := by
    intro q hq
    constructor
    · simp only [Profile.finish, hq, sub_nan, nan_sub, nan_div, add_nan, nan_add]
    · simp only [Profile.finish]
      have : w.eq (fin 0) = false := by
        cases w with
        | fin x => rw [eq_fin]; simpa [Num.Pos] using hw.ne'
        | posInf => rfl
        | negInf => rfl
        | nan => rfl
      rw [this]; simp
  split
  · exact key _ hd
  · exact key _ hd

/-- A motion that cannot end. -/
structure Endless (M : Machine) (c : MotionCtrl M.kit) : Prop where
  state : c.state = .running
  level : c.buffer.level = 1
  duration : c.buffer.getHead.prof.duration = nan
  tStop : c.buffer.getHead.prof.tStop = posInf

theorem Endless.tick {M : Machine} {c c' : MotionCtrl M.kit} {x} (h : Endless M c) (ht : c.tick = some (c', x)) :
    Endless M c' ∧ x.events = [] := by
  have hrun : c.isRunning = true := by simp [isRunning, h.state]
  unfold MotionCtrl.tick at ht
  simp only at ht
  rw [if_pos hrun] at ht
  have hs : sampleAndCheckStop { c with signals := c.signals.next } = { c with signals := c.signals.next, time := c.time.next } := by
    unfold sampleAndCheckStop
    simp only
    have e : M.kit.tStop c.buffer.getHead.prof = posInf := h.tStop
    rw [if_neg]
    rw [e]
    intro hh
    have : Num.lt posInf c.time.next.timeInMotion = false := by cases c.time.next.timeInMotion <;> rfl
    exact Bool.noConfusion (this.symm.trans hh)
  rw [hs] at ht
  have hset : settle (c.buffer.level + 1) { c with signals := c.signals.next, time := c.time.next } =
      some ((({ c with signals := c.signals.next, time := c.time.next } : MotionCtrl M.kit)).move.1,
        (({ c with signals := c.signals.next, time := c.time.next } : MotionCtrl M.kit)).move.2,
        some c.buffer.getHead.request) := by
    unfold settle
    rw [if_neg]
    have e : M.kit.duration c.buffer.getHead.prof = nan := h.duration
    intro hh
    simp only at hh
    rw [e] at hh
    exact Bool.noConfusion ((nan_lt c.time.next.timeInMotion).symm.trans hh)
  simp only at ht
  rw [hset] at ht
  simp only [Option.map_some, Option.some.injEq, Prod.mk.injEq] at ht
  obtain ⟨rfl, rfl⟩ := ht
  exact ⟨⟨h.state, h.level, h.duration, h.tStop⟩, by simp [move]⟩

theorem Endless.calcLoop {M : Machine} (fuel : Nat) : ∀ {c c' : MotionCtrl M.kit} {e ts}, Endless M c →
    MotionCtrl.calcLoop fuel c = some (c', e, ts) → Endless M c' ∧ ∀ x ∈ ts, x.events = [] := by
  induction fuel with
  | zero => intro c c' e ts _ h; simp [MotionCtrl.calcLoop] at h
  | succ fuel ih =>
    intro c c' e ts h hc
    rw [MotionCtrl.calcLoop] at hc
    cases hx : c.tick with
    | none => rw [hx] at hc; simp at hc
    | some y =>
      rw [hx] at hc
      obtain ⟨c₁, x⟩ := y
      obtain ⟨k1, k2⟩ := h.tick hx
      simp only at hc
      split at hc
      · simp only [Option.some.injEq, Prod.mk.injEq] at hc
        obtain ⟨rfl, _, rfl⟩ := hc
        exact ⟨⟨k1.state, k1.level, k1.duration, k1.tStop⟩, by simpa using k2⟩
      · simp only [Option.map_eq_some_iff, Prod.exists, Prod.mk.injEq] at hc
        obtain ⟨c'', e'', ts', hc, rfl, rfl, rfl⟩ := hc
        obtain ⟨k3, k4⟩ := ih k1 hc
        exact ⟨k3, by simpa [k2] using k4⟩

theorem Endless.run {M : Machine} (n : Nat) : ∀ {c c' : MotionCtrl M.kit} {log}, Endless M c →
    c.run (List.replicate n .calculate) = some (c', log) → Endless M c' ∧ ∀ x ∈ log, ∀ y ∈ x.2.ticks, y.events = [] := by
  induction n with
  | zero =>
    intro c c' log h hr
    simp only [List.replicate_zero, MotionCtrl.run, Option.some.injEq, Prod.mk.injEq] at hr
    obtain ⟨rfl, rfl⟩ := hr
    exact ⟨h, by simp⟩
  | succ n ih =>
    intro c c' log h hr
    rw [List.replicate_succ, MotionCtrl.run] at hr
    split at hr
    · simp at hr
    · rename_i c₁ y hx
      simp only [Option.map_eq_some_iff, Prod.exists, Prod.mk.injEq] at hr
      obtain ⟨c₂, g, h1, rfl, rfl⟩ := hr
      simp only [call, calcNext, Option.map_eq_some_iff, Prod.exists, Prod.mk.injEq] at hx
      obtain ⟨c₀, e, ts, h2, rfl, rfl⟩ := hx
      obtain ⟨k1, k2⟩ := h.calcLoop _ h2
      obtain ⟨k3, k4⟩ := ih k1 h1
      refine ⟨k3, ?_⟩
      intro x hx
      rcases List.mem_cons.1 hx with rfl | hx
      · exact k2
      · exact k4 x hx

/-- Resuming a single motion that was stopped at the very end of its path. -/
theorem endless_of_stop {M : Machine} {δ : ℝ} {E : Nat → ℝ} {j : Job} {u : ℝ} {i : PlanIn} {l rr : AccDec ℝ} {t : ℝ}
    {c : MotionCtrl M.kit} (h : Braking M δ E j [] u i l rr 0 t c) (hst : c.state = .stopped)
    (ho : (j.r.vFeed * c.overrides.feedOverride).Pos) : Endless M c.start := by
  have ht : u + l.duration < t := by
    rcases h.phase with ⟨-, h2⟩ | ⟨h1, -, -⟩
    · rw [h2] at hst; simp at hst
    · exact h1
  have hl := (stop_facts h.front.base h.front.plan).1
  have hlev : c.buffer.level = 1 := h.tail.level
  have hemp : (!c.buffer.isEmpty) = true := by simp [MotionBuffer.isEmpty, hlev]
  have hnan := Planned.s_nan h.front.plan hl (t := t) (by rw [h.front.doneT]; exact ht)
  have hmv : c.buffer.getHead.traj.type.moves = true := h.front.holds.type
  obtain ⟨a1, a2⟩ := Profile.plan_nan hnan (length := c.buffer.getHead.traj.trajectory.length) (ov := c.overrides.feedOverride)
    (minLen := M.minLengthSProfile) (by show (c.buffer.getHead.prof.vFeed * _).Pos; rw [h.front.base.vFeed]; exact ho)
    h.front.base.vMax
  obtain ⟨c₁, hc₁⟩ : ∃ c₁, c₁ = ({ c.pushEvent .motionStarted with state := .running } : MotionCtrl M.kit) := ⟨_, rfl⟩
  have e : c.start = c₁.optimize := by rw [hc₁]; unfold start; rw [if_pos hemp]
  have hb : c₁.buffer = c.buffer := by rw [hc₁]; rfl
  have ho₁ : c₁.overrides = c.overrides := by rw [hc₁]; rfl
  have ht₁ : c₁.time = c.time := by rw [hc₁]; rfl
  have hst₁ : c₁.strategy = .maximizeSpeed := by rw [hc₁]; rfl
  have hss := sameButProf_optimize c₁
  have htail := h.tail
  rw [← hb] at htail
  obtain ⟨o1, o2, o3⟩ := optimize_tail htail (by simp)
  have hnow : c₁.time.timeInMotion = fin t := by rw [ht₁, h.clock.now]
  rw [if_pos rfl] at o3
  have ex : replan₁ c₁ c₁.buffer.getHead = { c.buffer.getHead with
      prof := (c.buffer.getHead.prof.rebase (fin t)).plan c.buffer.getHead.traj.trajectory.length c.overrides.feedOverride
        M.minLengthSProfile .maximizeSpeed } := by
    unfold replan₁
    rw [hb, ho₁, hst₁, hnow]
    exact congrArg (fun p : Profile => ({ c.buffer.getHead with prof := p } : Motion M.kit)) (optimizeAt_eq hmv _ _)
  rw [e]
  refine ⟨by rw [hss.state, hc₁], by rw [o1.level]; rfl, ?_, ?_⟩
  · rw [o3, ex]; exact a1
  · rw [o3, ex]; exact a2

end Moovr
