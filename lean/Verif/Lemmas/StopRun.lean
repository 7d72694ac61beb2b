import Verif.Lemmas.StopQueue
/-!
# A motion that is being stopped
-/
namespace Moovr
open Num ExecSpec MotionCtrl AccDec MotionSpec PulseSpec

theorem Base.endAtRest {M : Machine} {r : SimplifiedMotion} {i : PlanIn} {q : Profile} (h : Base M r i q) :
    M.kit.endAtRest q = q := by
  show ({ q with right := { q.right with vEnd := fin 0 } } : Profile) = q
  have e := h.of.vE
  rw [h.vE] at e
  rw [← e]

theorem pos_of_le {w : ℝ} {f : Num} (hw : 0 < w) (h : (fin w).le f = true) : f.Pos := by
  cases f with
  | fin z => rw [le_fin, decide_eq_true_eq] at h; exact lt_of_lt_of_le hw h
  | posInf => trivial
  | negInf => simp [Num.le] at h
  | nan => simp [Num.le] at h

/-- The first motion in the queue, being stopped since time `u`. -/
structure Stops (M : Machine) (x : Motion M.kit) (j : Job) (u : ℝ) (i : PlanIn) (l rr : AccDec ℝ) (m : ℝ) : Prop where
  holds : Holds M j.r x
  exe : Executable M.n j.r
  base : Base M j.r i x.prof
  plan : Planned i x.prof l rr 0 m
  doneT : i.doneT = u
  doneL : i.doneL = j.S u
  vS : i.vS = j.V u
  length : i.doneL + i.L = j.L
  vMax : (fin i.vS).le x.prof.vMax = true
  feed : (fin i.vS).le j.f = true
  pos : j.f.Pos
  sound : j.Sound M
  range : 0 ≤ u ∧ u ≤ j.T

/-- What is known about the running motion at time `u`. -/
theorem Runs.at {M : Machine} {x : Motion M.kit} {j : Job} (h : Runs M x j) {u : ℝ} (hb : x.prof.doneDuration.le (fin u) = true)
    (hT : u ≤ j.T) :
    ∃ i l rr w m B, Base M j.r i x.prof ∧ Planned i x.prof l rr w m ∧ 0 < w ∧ Snapshot i x.prof u (j.S u) (j.V u) ∧
      j.V u ≤ B ∧ (fin B).le x.prof.vMax = true ∧ (fin B).le j.f = true ∧ i.doneL + i.L = j.L ∧ w ≤ B ∧ 0 ≤ i.doneT ∧
      Planned.tEnd i l rr w m = j.T ∧ i.doneT ≤ u ∧ ∀ t, i.doneT ≤ t → j.V t = Planned.vFun i l rr w m t := by
  obtain ⟨i, l, rr, w, m, B, hbase, hp, hw, hB, hS, hwv, hwf, hd0, hlen⟩ := h.under
  have hdur := h.duration
  rw [hp.dur_eq hw] at hdur
  have hTe : Planned.tEnd i l rr w m = j.T := Num.fin.inj hdur
  obtain ⟨S, V, hsnap⟩ := hp.snapshot hbase.feasible hw (t := u) (by rw [h.duration, le_fin, decide_eq_true_eq]; exact hT)
  have e1 : S = j.S u := by have := h.s u hb; rw [hsnap.s] at this; exact Num.fin.inj this
  have e2 : V = j.V u := by have := h.v u hb; rw [hsnap.v] at this; exact Num.fin.inj this
  rw [e1, e2] at hsnap
  have hbe : i.doneT ≤ u := by rw [hp.doneT, le_fin, decide_eq_true_eq] at hb; exact hb
  have hV : ∀ t, i.doneT ≤ t → j.V t = Planned.vFun i l rr w m t := by
    intro t ht
    have := h.v t (by rw [hp.doneT, le_fin, decide_eq_true_eq]; exact ht)
    rw [hp.v_eq hw] at this
    exact (Num.fin.inj this).symm
  refine ⟨i, l, rr, w, m, B, hbase, hp, hw, hsnap, ?_, hwv, hwf, hlen, hB, hd0, hTe, hbe, hV⟩
  rw [hV u hbe]
  refine (hp.v_bounds (by rw [hTe]; exact hT)).2.trans (max_le (max_le hS ?_) hB)
  rw [hbase.vE]; exact hw.le.trans hB

/-- After the acceleration the first phase of the plan is over, if the motion was planned from rest. -/
theorem Runs.pastLeft {M : Machine} {x : Motion M.kit} {j : Job} (h : Runs M x j) {u : ℝ}
    (hb : x.prof.doneDuration = fin 0) (h0 : 0 ≤ u) (hT : u ≤ j.T) (hs : j.Settled u) : x.prof.PastLeft (fin u) := by
  obtain ⟨i, l, rr, w, m, B, hbase, hp, hw, hsnap, hVw, hwv, hwf, hlen, hB, hd0, hTe, hbe, hV⟩ := h.at
    (by rw [hb, le_fin, decide_eq_true_eq]; exact h0) hT
  have hdT : i.doneT = 0 := by rw [hp.doneT] at hb; exact Num.fin.inj hb
  have hS : i.vS ≤ w := by
    have e := hp.v_start
    rw [hdT, ← hV 0 hdT.le, h.ok.atRest.1] at e
    rw [← e]; exact hw.le
  have hg := hp.lOk.good
  have hld := hg.dur_nonneg
  unfold Profile.PastLeft
  rw [hp.doneT, hp.left, toNum_duration, fin_sub, le_fin, le_fin, decide_eq_true_eq, decide_eq_false_iff_not]
  rcases hs with rfl | ⟨u', hu', hanti⟩
  · exact .inl hd0
  · by_contra hcon
    rw [not_or, not_le, not_not] at hcon
    obtain ⟨c1, c2⟩ := hcon
    have hlt : l.vStart < l.vEnd := by
      rw [hp.lOk.vStart, hp.lOk.vEnd]
      rcases hS.lt_or_eq with h | h
      · exact h
      · exfalso
        have := hp.lOk.brief h.ge
        rw [h, sub_self, zero_div, zero_div, Real.sqrt_zero, max_self, mul_zero] at this
        linarith
    set x := max u' i.doneT with hx
    have hxu : x < u := max_lt hu' c1
    have hle : i.doneT + l.duration ≤ j.T := by
      rw [← hTe]; unfold Planned.tEnd; linarith [hp.mw, hp.rOk.good.dur_nonneg]
    have := hanti x (i.doneT + l.duration) (le_max_left _ _) (by linarith) hle
    rw [hV x (le_max_right _ _), hV _ (by linarith)] at this
    have ev : Planned.vFun i l rr w m (i.doneT + l.duration) = w := by
      unfold Planned.vFun
      rw [if_neg (by linarith), if_pos le_rfl, add_sub_cancel_left, hg.v_dur, hp.lOk.vEnd]
    have ex : Planned.vFun i l rr w m x < w := by
      have := hg.v_lt hlt (t := x - i.doneT) (by linarith [le_max_right u' i.doneT]) (by linarith)
      rw [hp.lOk.vEnd] at this
      unfold Planned.vFun
      split
      · rw [hg.v_zero, hp.lOk.vStart]; rw [hp.lOk.vStart, hp.lOk.vEnd] at hlt; exact hlt
      · rw [if_pos (by linarith)]; exact this
    linarith

/-- The stop plan belongs to a front cell of the right kind. -/
theorem Runs.stops {M : Machine} {x : Motion M.kit} {j : Job} (h : Runs M x j) {u : ℝ} (hb : x.prof.doneDuration.le (fin u) = true)
    (h0 : 0 ≤ u) (hT : u ≤ j.T) (hpl : x.prof.PastLeft (fin u)) {ov : Num} (ho : (j.r.vFeed * ov).Pos) :
    let q := (x.prof.rebase (fin u)).plan j.r.trajectory.length ov M.minLengthSProfile .minimizeSpeed
    (∃ i l rr m, Stops M { x with prof := q } j u i l rr m) ∧
    ∃ i l rr m, Stops M { x with prof := q.plan j.r.trajectory.length ov M.minLengthSProfile .minimizeSpeed } j u i l rr m := by
  obtain ⟨i, l, rr, w, m, B, hbase, hp, hw, hsnap, hVw, hwv, hwf, hlen, hB, -⟩ := h.at hb hT
  have hb1 := hbase.rebase hp hsnap hpl
  have hVv : (fin (j.V u)).le x.prof.vMax = true := by
    have := hwv
    revert this
    cases x.prof.vMax <;> simp [Num.le]
    intro; linarith
  have hVf : (fin (j.V u)).le j.f = true := by
    have := hwf
    revert this
    cases j.f <;> simp [Num.le]
    intro; linarith
  have mk : ∀ {q : Profile} {l' rr' : AccDec ℝ} {m' : ℝ}, Base M j.r (i.at u (j.S u) (j.V u)) q →
      Planned (i.at u (j.S u) (j.V u)) q l' rr' 0 m' → q.vMax = x.prof.vMax →
      Stops M { x with prof := q } j u (i.at u (j.S u) (j.V u)) l' rr' m' := by
    intro q l' rr' m' hq hp' ev
    refine ⟨h.holds.withProf _, h.exe, hq, hp', rfl, rfl, rfl, ?_, ?_, hVf, pos_of_le (hw.trans_le hB) hwf, h.ok, h0, hT⟩
    · show j.S u + (i.doneL + i.L - j.S u) = _
      rw [hlen]; ring
    · show (fin (j.V u)).le q.vMax = true
      rw [ev]; exact hVv
  have vmax : ∀ {q : Profile}, Base M j.r (i.at u (j.S u) (j.V u)) q →
      (q.plan j.r.trajectory.length ov M.minLengthSProfile .minimizeSpeed).vMax = q.vMax := by
    intro q hq
    obtain ⟨-, -, -, -, -, -, -, -, -, ev⟩ := plan_planned hq.of hq.feasible (feedOverride := ov)
      (by rw [hq.vFeed]; exact ho.nonNeg) hq.vMax.nonNeg M.minLengthSProfile .minimizeSpeed
    exact ev
  obtain ⟨l₁, rr₁, m₁, hp₁, hq₁⟩ := hb1.stop ho
  obtain ⟨l₂, rr₂, m₂, hp₂, hq₂⟩ := hq₁.stop ho
  exact ⟨⟨_, _, _, _, mk hq₁ hp₁ (vmax hb1)⟩, ⟨_, _, _, _, mk hq₂ hp₂ ((vmax hq₁).trans (vmax hb1))⟩⟩

/-- `stop()` while the first motion is in progress. -/
theorem stop_line {M : Machine} {δ : ℝ} {c : MotionCtrl M.kit} {j : Job} {js : List Job} {u : ℝ} (h : Line M c.buffer j js u)
    (hc : Clock M δ c.time u) (h0 : 0 ≤ u) (hT : u ≤ j.T) (hpl : c.buffer.getHead.prof.PastLeft (fin u))
    (ho : ∀ r ∈ (j :: js).map Job.r, (r.vFeed * c.overrides.feedOverride).Pos) :
    (∃ i l rr m, Stops M c.stop.buffer.getHead j u i l rr m) ∧ Tail M c.stop.buffer (js.map Job.r) ∧
    c.stop.time = c.time ∧ c.stop.state = .stopping ∧ c.stop.machinePosition = c.machinePosition ∧
    c.stop.overrides = c.overrides ∧ c.stop.events = c.events ++ [.stopRequested] ∧
    c.stop.buffer.getHead.traj = c.buffer.getHead.traj := by
  obtain ⟨c₁, hc₁⟩ : ∃ c₁, c₁ = ({ c.pushEvent .stopRequested with state := .stopping } : MotionCtrl M.kit) := ⟨_, rfl⟩
  have e : c.stop = c₁.optimize := by rw [hc₁]; rfl
  have hb : c₁.buffer = c.buffer := by rw [hc₁]; rfl
  have ho₁ : c₁.overrides = c.overrides := by rw [hc₁]; rfl
  have ht₁ : c₁.time = c.time := by rw [hc₁]; rfl
  have hst : c₁.strategy = .minimizeSpeed := by rw [hc₁]; rfl
  have hss := sameButProf_optimize c₁
  have htail := h.tail
  rw [← hb] at htail
  obtain ⟨o1, o2, o3⟩ := optimize_tail htail (by
    rw [ho₁]; intro r hr; exact ho r (by rw [List.map_cons]; exact List.mem_cons_of_mem _ hr))
  have hr := h.queue.getHead
  have hroot : ∀ y : Num, c₁.time.timeInMotion = fin u := fun _ => by rw [ht₁, hc.now]
  obtain ⟨s1, s2⟩ := hr.stops h.begun h0 hT hpl (ov := c.overrides.feedOverride)
    (ho j.r (by rw [List.map_cons]; exact List.mem_cons_self))
  obtain ⟨i', l', rr', w', m', B', hbase, -⟩ := hr.under
  have htraj : c.buffer.getHead.traj.trajectory.length = j.r.trajectory.length := hr.holds.length
  rw [e]
  refine ⟨?_, o1, by rw [hss.time, ht₁], by rw [hss.state, hc₁], by rw [hss.pos, hc₁]; rfl, by rw [hss.ovr, ho₁],
    by rw [hss.events, hc₁]; rfl, ?_⟩
  · rw [o3]
    split
    · have ex : replan₁ c₁ c₁.buffer.getHead = { c.buffer.getHead with
          prof := (c.buffer.getHead.prof.rebase (fin u)).plan j.r.trajectory.length c.overrides.feedOverride
            M.minLengthSProfile .minimizeSpeed } := by
        unfold replan₁
        rw [hb, ho₁, hst, hroot nan]
        exact congrArg (fun p : Profile => ({ c.buffer.getHead with prof := p } : Motion M.kit))
          ((optimizeAt_eq hr.holds.type _ _).trans (by rw [htraj]))
      rw [ex]; exact s1
    · have ex : replan c₁ c₁.buffer.getHead = { c.buffer.getHead with
          prof := ((c.buffer.getHead.prof.rebase (fin u)).plan j.r.trajectory.length c.overrides.feedOverride
            M.minLengthSProfile .minimizeSpeed).plan j.r.trajectory.length c.overrides.feedOverride
            M.minLengthSProfile .minimizeSpeed } := by
        unfold replan
        rw [hb, ho₁, hst, hroot nan]
        have e1 : M.kit.endAtRest c.buffer.getHead.prof = c.buffer.getHead.prof := hbase.endAtRest
        rw [e1]
        have e2 : MotionItem.optimizeAt M c.overrides .minimizeSpeed (fin u) c.buffer.getHead.traj c.buffer.getHead.prof =
            (c.buffer.getHead.prof.rebase (fin u)).plan j.r.trajectory.length c.overrides.feedOverride
              M.minLengthSProfile .minimizeSpeed := (optimizeAt_eq hr.holds.type _ _).trans (by rw [htraj])
        have e3 : ∀ q : Profile, MotionItem.optimize M c.overrides .minimizeSpeed c.buffer.getHead.traj q =
            q.plan j.r.trajectory.length c.overrides.feedOverride M.minLengthSProfile .minimizeSpeed := by
          intro q
          unfold MotionItem.optimize
          rw [if_pos hr.holds.type, htraj]
        exact congrArg (fun p : Profile => ({ c.buffer.getHead with prof := p } : Motion M.kit))
          ((e3 _).trans (by rw [← e2]; rfl))
      rw [ex]; exact s2
  · rw [o3, hb]
    split <;> rfl

/-- The stop as a time law. -/
noncomputable def brakeOf (i : PlanIn) (l : AccDec ℝ) : Brake := ⟨i.doneT + l.duration, stopS i l, stopV i l⟩

theorem Stops.brake {M : Machine} (hM : M.Ok) {x : Motion M.kit} {j : Job} {u : ℝ} {i : PlanIn} {l rr : AccDec ℝ} {m : ℝ}
    (h : Stops M x j u i l rr m) : (brakeOf i l).Ok M j u := by
  obtain ⟨f1, f2, f3, f4, f5⟩ := stop_facts h.base h.plan
  have hm := h.plan.m0
  have hlaw := law_of_stop hM h.exe h.pos h.base h.plan h.vMax h.feed (i.doneT + l.duration)
  have hdT := h.doneT; have hdL := h.doneL; have hvS := h.vS; have hlen := h.length
  have hend : stopS i l (i.doneT + l.duration) = i.doneL + l.length := stopS_after h.plan le_rfl
  rw [hdT] at hlaw
  refine ⟨by show u ≤ i.doneT + l.duration; linarith, by show Law M j.r j.f (stopS i l) (stopV i l) u (i.doneT + l.duration); rw [hdT]; exact hlaw, ⟨?_, ?_⟩,
    stopV_after h.plan le_rfl, ?_, ?_, ?_⟩
  · have := stopS_start h.plan; rw [hdT, hdL] at this; exact this
  · have := stopV_start h.plan; rw [hdT, hvS] at this; exact this
  · show stopS i l (i.doneT + l.duration) ≤ _
    rw [hend]; linarith
  · show 2 * (stopS i l (i.doneT + l.duration) - _) = _ * (i.doneT + l.duration - u)
    rw [hend, hdT, hdL, add_sub_cancel_left, add_sub_cancel_left, f2, hvS]
  · intro v a hall
    show i.doneT + l.duration - u ≤ _
    rw [hdT, add_sub_cancel_left, ← hvS]
    exact f5 v a hall

/-- The stop takes at most twice the remaining time. -/
theorem ExecSpec.Brake.Ok.soon {M : Machine} (hM : M.Ok) {j : Job} {u : ℝ} {k : Brake} (h : k.Ok M j u) (hj : j.Sound M)
    (h0 : 0 ≤ u) (hT : u ≤ j.T) (hs : j.Settled u) {v a : ℝ} (hall : Allowed M j.r v a) : k.E - u ≤ 2 * (j.T - u) := by
  have hd := h.distance; have hw := h.within; have ha := h.after
  have hq := h.quick v a hall
  rcases lt_trichotomy (j.V u) 0 with hV | hV | hV
  · rw [Real.sqrt_eq_zero_of_nonpos, max_eq_left, mul_zero] at hq
    · linarith
    · exact div_nonpos_of_nonpos_of_nonneg hV.le hall.a0.le
    · exact div_nonpos_of_nonpos_of_nonneg hV.le hM.jMax.le
  · rw [hV, zero_div, zero_div, Real.sqrt_zero, max_self, mul_zero] at hq
    linarith
  · have hanti : ∀ y, u ≤ y → y ≤ j.T → j.V y ≤ j.V u := by
      rcases hs with rfl | ⟨u', hu', ha⟩
      · rw [hj.atRest.1] at hV; exact absurd hV (lt_irrefl _)
      · intro y h1 h2; exact ha u y hu'.le h1 h2
    have : j.S j.T - j.S u ≤ j.V u * (j.T - u) := by
      refine (convex_Icc u j.T).image_sub_le_mul_sub_of_deriv_le (f := j.S) (C := j.V u) hj.smooth.continuousOn ?_ ?_
        u (Set.left_mem_Icc.2 hT) j.T (Set.right_mem_Icc.2 hT) hT
      · intro y hy
        rw [interior_Icc] at hy
        exact (hj.rate y (by linarith [hy.1]) hy.2).differentiableAt.differentiableWithinAt
      · intro y hy
        rw [interior_Icc] at hy
        rw [(hj.rate y (by linarith [hy.1]) hy.2).deriv]
        exact hanti y hy.1.le hy.2.le
    rw [hj.finish] at this
    have : j.V u * (k.E - u) ≤ j.V u * (2 * (j.T - u)) := by linarith
    exact le_of_mul_le_mul_left this hV

/-! ## Ticks while the motion is being stopped -/

/-- The first motion is being stopped since `u`, or has been; the clock shows `t`. -/
structure Braking (M : Machine) (δ : ℝ) (E : Nat → ℝ) (j : Job) (rs : List SimplifiedMotion) (u : ℝ) (i : PlanIn)
    (l rr : AccDec ℝ) (m : ℝ) (t : ℝ) (c : MotionCtrl M.kit) : Prop where
  front : Stops M c.buffer.getHead j u i l rr m
  tail : Tail M c.buffer rs
  clock : Clock M δ c.time t
  since : u ≤ t
  phase : (t ≤ u + l.duration ∧ c.state = .stopping) ∨ (u + l.duration < t ∧ t ≤ u + l.duration + δ ∧ c.state = .stopped)
  near : (t ≤ u + l.duration ∨ 0 < m) → ∀ axis, axis < M.n →
    |place j.r axis (stopS i l t) * M.stepsPerMm axis - c.machinePosition axis| ≤ 1 / 2 + M.hysteresis + E axis ∧
    (0 < t → c.buffer.getHead.traj.trajectory.isMoving axis = true →
      |place j.r axis (stopS i l t) * M.stepsPerMm axis - c.machinePosition axis| ≤ 1 / 2 + M.hysteresis)

theorem tick_stopping {M : Machine} {δ : ℝ} {j : Job} {u t : ℝ} {i : PlanIn} {l rr : AccDec ℝ} {m : ℝ} {c c' : MotionCtrl M.kit} {x}
    (h : Stops M c.buffer.getHead j u i l rr m) (hc : Clock M δ c.time t) (hst : c.state = .stopping)
    (hi : c.time.sampleIndex + 1 < 2 ^ 32) (ht : c.tick = some (c', x)) :
    c'.buffer = c.buffer ∧ Clock M δ c'.time (t + δ) ∧ x.active ≠ none ∧
    c'.state = (if u + l.duration < t + δ then .stopped else .stopping) ∧
    x.events = (if u + l.duration < t + δ then [.motionStopped] else []) := by
  have hts : M.kit.tStop c.buffer.getHead.prof = fin (u + l.duration) := by
    have := h.plan.tStop
    rw [if_pos rfl, h.doneT] at this
    exact this
  have hdur : ∀ y : Num, Num.lt (M.kit.duration c.buffer.getHead.prof) y = false := by
    intro y
    have e : M.kit.duration c.buffer.getHead.prof = fin (i.doneT + l.duration) + fin m / fin 0 + fin rr.duration :=
      h.plan.duration
    rw [e]
    rcases h.plan.m0.lt_or_eq with hm | hm
    · rw [fin_div_zero_pos hm]; cases y <;> rfl
    · rw [← hm, zero_div_zero]; cases y <;> rfl
  have hn := hc.next hi
  unfold MotionCtrl.tick at ht
  simp only at ht
  have hrun : c.isRunning = true := by simp [isRunning, hst]
  rw [if_pos hrun] at ht
  have hs : sampleAndCheckStop { c with signals := c.signals.next } =
      (if u + l.duration < t + δ then
        { c with signals := c.signals.next, time := c.time.next, state := .stopped, events := c.events ++ [.motionStopped] }
      else { c with signals := c.signals.next, time := c.time.next }) := by
    unfold sampleAndCheckStop
    simp only
    rw [hts, isBeyond_fin hn.now]
    by_cases hb : u + l.duration < t + δ
    · simp only [hb, decide_true, if_true]; rfl
    · simp only [hb, decide_false, if_false, Bool.false_eq_true]
  rw [hs] at ht
  have hset : ∀ (c₁ : MotionCtrl M.kit) (fuel : Nat), c₁.buffer = c.buffer →
      settle (fuel + 1) c₁ = some (c₁.move.1, c₁.move.2, some c₁.buffer.getHead.request) := by
    intro c₁ fuel hb
    unfold settle
    rw [if_neg]
    rw [hb]
    intro hh
    exact Bool.noConfusion ((hdur c₁.time.timeInMotion).symm.trans hh)
  by_cases hb : u + l.duration < t + δ
  · simp only [hb, if_true] at ht ⊢
    rw [hset _ c.buffer.level ?hbuf] at ht
    case hbuf => rfl
    simp only [Option.map_some, Option.some.injEq, Prod.mk.injEq] at ht
    obtain ⟨rfl, rfl⟩ := ht
    refine ⟨rfl, hn, by simp, rfl, by simp [move]⟩
  · simp only [hb, if_false] at ht ⊢
    rw [hset _ c.buffer.level ?hbuf] at ht
    case hbuf => rfl
    simp only [Option.map_some, Option.some.injEq, Prod.mk.injEq] at ht
    obtain ⟨rfl, rfl⟩ := ht
    refine ⟨rfl, hn, by simp, hst, by simp [move]⟩

theorem Braking.tick_index {M : Machine} (hM : M.Ok) {δ : ℝ} {E : Nat → ℝ} {j : Job} {rs : List SimplifiedMotion} {u t : ℝ} {i : PlanIn}
    {l rr : AccDec ℝ} {m : ℝ} {c c' : MotionCtrl M.kit} {x} (hs : Suited M δ E)
    (hrange : ∀ axis, axis < M.n → ∀ s, 0 ≤ s → s ≤ j.L → M.InRange (place j.r axis s * M.stepsPerMm axis))
    (hidx : t ≤ u + l.duration → c.time.sampleIndex + 1 < 2 ^ 32) (h : Braking M δ E j rs u i l rr m t c) (ht : c.tick = some (c', x)) :
    Braking M δ E j rs u i l rr m (if t ≤ u + l.duration then t + δ else t) c' ∧
    x.events = (if t ≤ u + l.duration ∧ u + l.duration < t + δ then [.motionStopped] else []) := by
  have hδ := hs.width
  rcases h.phase with ⟨h1, h2⟩ | ⟨h1, h1', h2⟩
  · -- stopping
    rw [if_pos h1]
    simp only [h1, true_and]
    obtain ⟨a1, a2, a3, a4, a5⟩ := tick_stopping h.front h.clock h2 (hidx h1) ht
    refine ⟨⟨by rw [a1]; exact h.front, by rw [a1]; exact h.tail, a2, by linarith [h.since], ?_, ?_⟩, a5⟩
    · by_cases hb : u + l.duration < t + δ
      · rw [if_pos hb] at a4; exact .inr ⟨hb, by linarith, a4⟩
      · rw [if_neg hb] at a4; exact .inl ⟨not_lt.1 hb, a4⟩
    · intro hm axis ha
      obtain ⟨n1, -⟩ := h.near (.inl h1) axis ha
      have hlaw := law_of_stop hM h.front.exe h.front.pos h.front.base h.front.plan h.front.vMax h.front.feed (t + δ)
      rw [h.front.doneT] at hlaw
      have hd := hlaw.speed axis ha t (t + δ) h.since (by linarith) le_rfl
      have hd' : |place j.r axis (stopS i l (t + δ)) * M.stepsPerMm axis - place j.r axis (stopS i l t) * M.stepsPerMm axis| ≤
          M.perTick δ axis := by
        rw [← sub_mul, abs_mul, abs_of_nonneg (hs.steps axis ha)]
        have := mul_le_mul_of_nonneg_right hd (hs.steps axis ha)
        unfold Machine.perTick
        rwa [add_sub_cancel_left] at this
      by_cases hmv : c.buffer.getHead.traj.trajectory.isMoving axis = true
      · have he : |place j.r axis (stopS i l (t + δ)) * M.stepsPerMm axis - c.machinePosition axis| ≤
            1 / 2 + M.hysteresis + (E axis + M.perTick δ axis) := by
          rw [abs_le] at *
          constructor <;> linarith [n1.1, n1.2, hd'.1, hd'.2]
        have hcomm : Props.commanded M c' axis = fin (place j.r axis (stopS i l (t + δ))) := by
          unfold Props.commanded
          have e : c'.buffer.getHead.prof.s c'.time.timeInMotion = fin (stopS i l (t + δ)) := by
            rw [a1, a2.now]
            exact stop_s_eq h.front.plan (by rw [h.front.doneT]; linarith [h.since]) (by rw [h.front.doneT]; exact hm)
          rw [e, a1]
          have := (position_place h.front.exe ha (stopS i l (t + δ))).1
          rw [h.front.holds.traj]; exact this
        have hL : stopS i l (t + δ) ≤ j.L := by
          have h3 := stop_facts h.front.base h.front.plan
          have hm0 := h.front.plan.m0
          have h4 := law_of_stop hM h.front.exe h.front.pos h.front.base h.front.plan h.front.vMax h.front.feed
            (max (t + δ) (i.doneT + l.duration))
          have h5 := h4.forward (t + δ) (max (t + δ) (i.doneT + l.duration)) (by rw [h.front.doneT]; linarith [h.since])
            (le_max_left _ _) le_rfl
          rw [stopS_after h.front.plan (le_max_right _ _)] at h5
          have := h.front.length
          linarith [h3.2.2.1]
        have h0 : 0 ≤ stopS i l (t + δ) := by
          have h5 := hlaw.forward u (t + δ) le_rfl (by linarith [h.since]) le_rfl
          have h6 := stopS_start h.front.plan
          rw [h.front.doneT, h.front.doneL] at h6
          rw [h6] at h5
          have h7 := h.front.sound.forward 0 u le_rfl h.front.range.1 h.front.range.2
          rw [h.front.sound.start] at h7
          linarith
        have hfin := near_of_step ht hcomm (hrange axis ha _ h0 hL) ⟨a3, ha, by rw [a1]; exact hmv⟩ he (hs.rate axis ha)
          hs.hysteresis
        exact ⟨by linarith [hs.carry axis ha], fun _ _ => hfin⟩
      · have hst : place j.r axis (stopS i l (t + δ)) = place j.r axis (stopS i l t) := by
          have hh : c.buffer.getHead.traj.trajectory.isMoving axis = false := by simpa using hmv
          rw [h.front.holds.traj] at hh
          exact (position_place h.front.exe ha _).2 hh _
        have hidle : c'.machinePosition axis = c.machinePosition axis := by
          obtain ⟨p1, -, p3, -⟩ := Props.one_step_per_tick ht axis
          rw [p1, p3 (fun h' => hmv (by have := h'.2.2; rwa [a1] at this))]; simp [stepsOf]
        rw [hidle, hst]
        exact ⟨n1, fun _ hh => absurd hh (by rw [a1]; exact hmv)⟩
  · -- stopped
    have hn : ¬ t ≤ u + l.duration := not_le.2 h1
    rw [if_neg hn]
    simp only [hn, false_and, if_false]
    have hr : c.isRunning = false := by simp [isRunning, h2]
    unfold MotionCtrl.tick at ht
    simp only [hr, Bool.false_eq_true, if_false, Option.some.injEq, Prod.mk.injEq] at ht
    obtain ⟨rfl, rfl⟩ := ht
    exact ⟨⟨h.front, h.tail, h.clock, h.since, h.phase, h.near⟩, rfl⟩

theorem Braking.tick {M : Machine} (hM : M.Ok) {δ : ℝ} {E : Nat → ℝ} {j : Job} {rs : List SimplifiedMotion} {u t : ℝ} {i : PlanIn}
    {l rr : AccDec ℝ} {m : ℝ} {c c' : MotionCtrl M.kit} {x} (hs : Suited M δ E)
    (hrange : ∀ axis, axis < M.n → ∀ s, 0 ≤ s → s ≤ j.L → M.InRange (place j.r axis s * M.stepsPerMm axis))
    (hshort : u + l.duration + δ < 2 ^ 32 * δ) (h : Braking M δ E j rs u i l rr m t c) (ht : c.tick = some (c', x)) :
    Braking M δ E j rs u i l rr m (if t ≤ u + l.duration then t + δ else t) c' ∧
    x.events = (if t ≤ u + l.duration ∧ u + l.duration < t + δ then [.motionStopped] else []) :=
  h.tick_index hM hs hrange (fun h1 => h.clock.index hs.width h1 hshort) ht

/-! ## Histories -/

/-- The motion has been stopping for the time `x`. -/
def Halting (M : Machine) (δ : ℝ) (E : Nat → ℝ) (j : Job) (rs : List SimplifiedMotion) (u : ℝ) (i : PlanIn)
    (l rr : AccDec ℝ) (m : ℝ) (x : ℝ) (c : MotionCtrl M.kit) : Prop :=
  ∃ t, Braking M δ E j rs u i l rr m t c ∧ t ≤ u + x ∧ (t < u + x → u + l.duration < t)

section
variable {M : Machine} {δ : ℝ} {E : Nat → ℝ} {j : Job} {rs : List SimplifiedMotion} {u : ℝ} {i : PlanIn} {l rr : AccDec ℝ} {m : ℝ}

theorem Halting.tick (hM : M.Ok) (hs : Suited M δ E)
    (hrange : ∀ axis, axis < M.n → ∀ s, 0 ≤ s → s ≤ j.L → M.InRange (place j.r axis s * M.stepsPerMm axis))
    (hshort : u + l.duration + δ < 2 ^ 32 * δ) {x : ℝ} {c c' : MotionCtrl M.kit} {y}
    (h : Halting M δ E j rs u i l rr m x c) (ht : c.tick = some (c', y)) :
    Halting M δ E j rs u i l rr m (x + δ) c' ∧
    y.events = if u + x ≤ u + l.duration ∧ u + l.duration < u + (x + δ) then [.motionStopped] else [] := by
  obtain ⟨t, hb, h1, h2⟩ := h
  have hδ := hs.width
  obtain ⟨b1, b2⟩ := hb.tick hM hs hrange hshort ht
  by_cases hc : t ≤ u + l.duration
  · rw [if_pos hc] at b1
    have e : t = u + x := le_antisymm h1 (not_lt.1 fun h => by linarith [h2 h])
    refine ⟨⟨_, b1, by linarith, fun h => by linarith⟩, ?_⟩
    rw [b2, e, add_assoc]
  · rw [if_neg hc] at b1
    refine ⟨⟨_, b1, by linarith, fun _ => not_le.1 hc⟩, ?_⟩
    rw [b2, if_neg (fun h => hc h.1), if_neg (fun h => hc (by linarith [h.1]))]

theorem Halting.signals {x : ℝ} {c : MotionCtrl M.kit} (h : Halting M δ E j rs u i l rr m x c) (s) :
    Halting M δ E j rs u i l rr m x { c with signals := s } := by
  obtain ⟨t, hb, h1, h2⟩ := h
  exact ⟨t, ⟨hb.front, hb.tail, hb.clock, hb.since, hb.phase, hb.near⟩, h1, h2⟩

theorem Halting.overrides {x : ℝ} {c : MotionCtrl M.kit} (h : Halting M δ E j rs u i l rr m x c) (o) :
    Halting M δ E j rs u i l rr m x { c with overrides := o } := by
  obtain ⟨t, hb, h1, h2⟩ := h
  exact ⟨t, ⟨hb.front, hb.tail, hb.clock, hb.since, hb.phase, hb.near⟩, h1, h2⟩

/-- One event in two consecutive intervals. -/
theorem once_append {α : Type} {e x a b : ℝ} (ha : 0 ≤ a) (hb : 0 ≤ b) (z : α) :
    (if x ≤ e ∧ e < x + a then [z] else []) ++ (if x + a ≤ e ∧ e < x + (a + b) then [z] else []) =
      if x ≤ e ∧ e < x + (a + b) then [z] else [] := by
  by_cases h1 : x ≤ e <;> by_cases h2 : e < x + a <;> by_cases h3 : e < x + (a + b) <;>
    simp [h1, h2, h3, not_le.2, not_lt.1] <;> first | linarith | (intro; linarith) | skip

theorem Halting.calcLoop (hM : M.Ok) (hs : Suited M δ E)
    (hrange : ∀ axis, axis < M.n → ∀ s, 0 ≤ s → s ≤ j.L → M.InRange (place j.r axis s * M.stepsPerMm axis))
    (hshort : u + l.duration + δ < 2 ^ 32 * δ) (fuel : Nat) {x : ℝ} {c c' : MotionCtrl M.kit} {e ts}
    (h : Halting M δ E j rs u i l rr m x c) (hc : MotionCtrl.calcLoop fuel c = some (c', e, ts)) :
    Halting M δ E j rs u i l rr m (x + ts.length * δ) c' ∧
    ts.flatMap (fun y => y.events) =
      if u + x ≤ u + l.duration ∧ u + l.duration < u + x + ts.length * δ then [.motionStopped] else [] := by
  have hδ := hs.width
  induction fuel generalizing x c c' e ts with
  | zero => simp [MotionCtrl.calcLoop] at hc
  | succ fuel ih =>
    unfold MotionCtrl.calcLoop at hc
    split at hc
    · simp at hc
    · rename_i c₁ y hx
      obtain ⟨h1, h1'⟩ := h.tick hM hs hrange hshort hx
      split at hc
      · simp only [Option.some.injEq, Prod.mk.injEq] at hc
        obtain ⟨rfl, rfl, rfl⟩ := hc
        refine ⟨by simpa using h1.signals _, ?_⟩
        simp [h1', add_assoc]
      · simp only [Option.map_eq_some_iff, Prod.exists, Prod.mk.injEq] at hc
        obtain ⟨c₂, e₂, ts₂, h2, rfl, rfl, rfl⟩ := hc
        obtain ⟨a1, a2⟩ := ih h1 h2
        rw [List.length_cons]
        push_cast
        constructor
        · rw [show x + ((ts₂.length : ℝ) + 1) * δ = x + δ + ts₂.length * δ by ring]
          exact a1
        · rw [List.flatMap_cons, a2, h1', show u + x + ((ts₂.length : ℝ) + 1) * δ = u + x + (δ + ts₂.length * δ) by ring,
            ← add_assoc u x δ]
          have := once_append (e := u + l.duration) (x := u + x) (a := δ) (b := ts₂.length * δ) hδ.le (by positivity)
            Event.motionStopped
          rw [← this, add_assoc (u + x) δ]

theorem Tail.append (hM : M.Ok) {c : MotionCtrl M.kit} (h : Tail M c.buffer rs) {r : SimplifiedMotion} (hr : Executable M.n r)
    (ho : (r.vFeed * c.overrides.feedOverride).Pos) (hl : c.buffer.level < 32) :
    Tail M (c.append r).buffer (rs ++ [r]) ∧ (c.append r).buffer.getHead = c.buffer.getHead ∧ (c.append r).time = c.time ∧
      (c.append r).state = c.state ∧ (c.append r).machinePosition = c.machinePosition ∧
      (c.append r).overrides = c.overrides ∧ (c.append r).events = c.events := by
  obtain ⟨q0, q2, q3, q4, q5, q6, q7, q8, q9⟩ := append_cells hM h.head hr.moves ho hl
  have hlv := h.level
  have hhead : (c.append r).buffer.getHead = c.buffer.getHead := by
    have := q2 0 (by omega)
    rw [Nat.add_zero, Nat.add_zero, q4, Nat.mod_eq_of_lt h.head] at this
    show (c.append r).buffer.cells (c.append r).buffer.head = _
    rw [q4]; exact this
  refine ⟨⟨by rw [q4]; exact h.head, by rw [q0]; simp; omega, by simp; omega, fun k hk => ?_⟩, hhead, q5, q6, q8, q7, q9⟩
  by_cases hk' : k < rs.length
  · rw [q2 (k + 1) (by omega), List.getElem_append_left hk']
    exact h.waits k hk'
  · have hke : k = rs.length := by
      simp only [List.length_append, List.length_singleton] at hk; omega
    subst hke
    rw [List.getElem_append_right (le_refl _)]
    simp only [Nat.sub_self, List.getElem_singleton]
    rw [hlv] at q3
    exact ⟨_, _, q3⟩

theorem Halting.append (hM : M.Ok) {x : ℝ} {c : MotionCtrl M.kit} (h : Halting M δ E j rs u i l rr m x c) {r : SimplifiedMotion}
    (hr : Executable M.n r) (ho : (r.vFeed * c.overrides.feedOverride).Pos) (hl : c.buffer.level < 32) :
    Halting M δ E j (rs ++ [r]) u i l rr m x (c.append r) := by
  obtain ⟨t, hb, h1, h2⟩ := h
  obtain ⟨a1, a2, a3, a4, a5, -⟩ := hb.tail.append hM hr ho hl
  refine ⟨t, ⟨a2 ▸ hb.front, a1, a3 ▸ hb.clock, hb.since, a4 ▸ hb.phase, fun hm axis ha => ?_⟩, h1, h2⟩
  rw [a2, a5]; exact hb.near hm axis ha

/-- Where a stop begins. -/
theorem halting_stop {js : List Job} {c : MotionCtrl M.kit} (h : Running M δ E j js u c)
    (hpl : c.buffer.getHead.prof.PastLeft (fin u))
    (ho : ∀ r ∈ (j :: js).map Job.r, (r.vFeed * c.overrides.feedOverride).Pos) :
    ∃ i l rr m, Halting M δ E j (js.map Job.r) u i l rr m 0 c.stop := by
  obtain ⟨⟨i, l, rr, m, s1⟩, s2, s3, s4, s5, s6, -, s8⟩ := stop_line h.line h.clock h.nonneg h.le hpl ho
  have hl := (stop_facts s1.base s1.plan).1
  refine ⟨i, l, rr, m, u, ⟨s1, s2, s3 ▸ h.clock, le_rfl, .inl ⟨by linarith, s4⟩, fun _ axis ha => ?_⟩, by linarith,
    fun h => by linarith⟩
  have e := stopS_start s1.plan
  rw [s1.doneT, s1.doneL] at e
  rw [e, s5, s8]
  exact h.near axis ha

end

end Moovr
