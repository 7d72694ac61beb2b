import Verif.Lemmas.Replan
import Verif.Props.Plan
/-!
# Properties of re-planning a motion in progress (C37, C38, C68)

`motion::optimize(overrides, strategy, tNow)` stores the current speed as the start speed of the first phase and only then
computes the distance travelled, so in the first phase that distance is computed with the wrong start speed. Re-planning is
correct at any other time (`Profile.PastLeft`).
-/
namespace Moovr.Props
open Num AccDec Set

/-- **C37**, partial: re-planning at a time outside the first phase keeps position and speed, for every strategy and
overrides; the new plan again starts from feasible inputs, so the properties of `Verif.Props.Plan` hold for it as well.
Missing: times in the first phase (`replan_violated`). -/
theorem replan_continuous_partial {i : PlanIn} {p : Profile} {length : Num} (ho : i.Of p length) (h : i.Feasible)
    (hv0 : i.vE = 0) {ov : Num} (hfeed : (p.vFeed * ov).NonNeg) (hv : p.vMax.NonNeg) (minLen : ℝ) (st : Strategy)
    {q : Profile} (hq : q = p.plan length ov minLen st) (hs : q.tStop = posInf) {t : ℝ}
    (ht : (fin t).le q.duration = true) (hl : q.PastLeft (fin t))
    (M : Machine) {x : Path} (hx : x.type.moves = true) (hxl : x.trajectory.length = length) {o : Overrides}
    (hfeed' : (p.vFeed * o.feedOverride).NonNeg) (st' : Strategy) :
    (MotionItem.optimizeAt M o st' (fin t) x q).s (fin t) = q.s (fin t) ∧
    (MotionItem.optimizeAt M o st' (fin t) x q).v (fin t) = q.v (fin t) ∧
    ∃ (p' : Profile) (i' : PlanIn), i'.Of p' length ∧ i'.Feasible ∧ i'.vE = 0 ∧ i'.doneT = t ∧
      i'.doneL + i'.L = i.doneL + i.L ∧ q.s (fin t) = fin i'.doneL ∧ q.v (fin t) = fin i'.vS ∧ i'.d = i.d ∧
      i'.a = i.a ∧ p'.vFeed = p.vFeed ∧ p'.vMax = p.vMax ∧
      MotionItem.optimizeAt M o st' (fin t) x q = p'.plan length o.feedOverride M.minLengthSProfile st' := by
  obtain ⟨l, r, w, m, hp, -, -, -, ef, ev⟩ := plan_planned ho h hfeed hv minLen st
  rw [← hq] at hp ef ev
  have hw : 0 < w := by
    rcases hp.w0.lt_or_eq with h | h
    · exact h
    · rw [hp.tStop, if_pos h.symm] at hs; cases hs
  obtain ⟨S, V, hS⟩ := hp.snapshot h hw ht
  have ho' := hS.of ho hp hl
  have hf' := hS.feasible h hv0
  have e1 : (q.rebase (fin t)).vFeed = p.vFeed := ef
  have e2 : (q.rebase (fin t)).vMax = p.vMax := ev
  rw [optimizeAt_eq hx, hxl]
  obtain ⟨l', r', w', m', hp', -⟩ := plan_planned ho' hf' (feedOverride := o.feedOverride) (by rw [e1]; exact hfeed')
    (by rw [e2]; exact hv) M.minLengthSProfile st'
  have h0 := hp'.lOk.good.dur_nonneg
  have et : (i.at t S V).doneT = t := rfl
  refine ⟨?_, ?_, _, _, ho', hf', hv0, rfl, ?_, hS.s, hS.v, rfl, rfl, e1, e2, rfl⟩
  · rw [hp'.s_left (by rw [et]; linarith), if_pos (by rw [et]), hS.s]; rfl
  · rw [hp'.v_left (by rw [et]; linarith), if_pos (by rw [et]), hS.v]; rfl
  · simp [PlanIn.at]

/-- **C38**, planning: from any feasible situation of a motion that ends at rest, the minimize-speed strategy comes to rest at
`tStop`, within the trajectory, never reversing, never speeding up, within the deceleration limit. -/
theorem stop_plan_rests {i : PlanIn} {p : Profile} {length : Num} (ho : i.Of p length) (h : i.Feasible) (hv0 : i.vE = 0)
    {ov : Num} (hfeed : (p.vFeed * ov).NonNeg) (hv : p.vMax.NonNeg) (minLen : ℝ) :
    let q := p.plan length ov minLen .minimizeSpeed
    ∃ ts S : ℝ, q.tStop = fin ts ∧ i.doneT ≤ ts ∧ q.v (fin ts) = fin 0 ∧ q.s (fin ts) = fin S ∧
      i.doneL ≤ S ∧ S ≤ i.doneL + i.L ∧
      ∀ t, i.doneT ≤ t → t ≤ ts → ∃ s v a : ℝ, q.s (fin t) = fin s ∧ q.v (fin t) = fin v ∧ q.a (fin t) = fin a ∧
        i.doneL ≤ s ∧ s ≤ S ∧ 0 ≤ v ∧ v ≤ i.vS ∧ i.d ≤ a ∧ a ≤ 0 := by
  obtain ⟨l, r, m, hp⟩ := stop_planned ho h hv0 hfeed hv minLen
  intro q
  change Planned i q l r 0 m at hp
  have h0 := hp.lOk.good.dur_nonneg
  have hL := hp.lOk.good.len_nonneg
  have hR := hp.rOk.good.len_nonneg
  have hm := hp.m0
  have tot := hp.total
  refine ⟨i.doneT + l.duration, i.doneL + l.length, ?_, by linarith, ?_, ?_, by linarith, by linarith, ?_⟩
  · rw [hp.tStop, if_pos rfl]
  · rw [hp.v_left le_rfl]
    congr 1
    split_ifs with hc
    · have e : l.duration = 0 := by linarith
      have := hp.lOk.good.v_zero
      rw [← e, hp.lOk.good.v_dur, hp.lOk.vEnd, hp.lOk.vStart] at this
      exact this.symm
    · rw [add_sub_cancel_left, hp.lOk.good.v_dur, hp.lOk.vEnd]
  · rw [hp.s_left le_rfl]
    congr 1
    split_ifs with hc
    · have e : l.duration = 0 := by linarith
      have := hp.lOk.good.s_zero
      rw [← e, hp.lOk.good.s_dur] at this
      linarith
    · rw [add_sub_cancel_left, hp.lOk.good.s_dur]
  · intro t h1 h2
    have hb := hp.lOk.good.v_bounds (t := t - i.doneT) (by linarith) (by linarith)
    have hsb := hp.lOk.good.s_bounds (t := t - i.doneT) (by linarith) (by linarith)
    have hab := hp.lOk.good.a_bounds (t := t - i.doneT) (by linarith) (by linarith)
    have ha0 := hp.lOk.good.a_bounds (t := 0) le_rfl h0
    have hle : l.vEnd ≤ l.vStart := by rw [hp.lOk.vStart, hp.lOk.vEnd]; exact h.vS
    have hn := hp.lOk.good.a_nonpos hle (t := t - i.doneT) (by linarith) (by linarith)
    have hn0 := hp.lOk.good.a_nonpos hle (t := 0) le_rfl h0
    rw [hp.lOk.vStart, hp.lOk.vEnd] at hb
    have e1 := min_eq_right h.vS
    have e2 := max_eq_left h.vS
    rw [e1, e2] at hb
    have la := hp.lOk.aMax; have ld := hp.lOk.dMax
    refine ⟨_, _, _, hp.s_left h2, hp.v_left h2, hp.a_left h2, ?_, ?_, ?_, ?_, ?_, ?_⟩ <;> split_ifs with hc <;>
      first | linarith [h.vS, hb.1, hb.2, hsb.1, hsb.2, hab.1, hab.2, ha0.1, ha0.2] | exact le_rfl

/-- **C38**, partial: a stop request at any time outside the first phase of a motion planned to end at rest brings the motion
to rest within its trajectory. Missing: stop requests in the first phase (`stop_violated`). -/
theorem stop_request_partial {i : PlanIn} {p : Profile} {length : Num} (ho : i.Of p length) (h : i.Feasible)
    (hv0 : i.vE = 0) {ov : Num} (hfeed : (p.vFeed * ov).NonNeg) (hv : p.vMax.NonNeg) (minLen : ℝ) (st : Strategy)
    {q : Profile} (hq : q = p.plan length ov minLen st) (hs : q.tStop = posInf) {t : ℝ}
    (ht : (fin t).le q.duration = true) (hl : q.PastLeft (fin t))
    (M : Machine) {x : Path} (hx : x.type.moves = true) (hxl : x.trajectory.length = length) {o : Overrides}
    (hfeed' : (p.vFeed * o.feedOverride).NonNeg) :
    let q' := MotionItem.optimizeAt M o .minimizeSpeed (fin t) x q
    ∃ ts S : ℝ, q'.tStop = fin ts ∧ t ≤ ts ∧ q'.v (fin ts) = fin 0 ∧ q'.s (fin ts) = fin S ∧ (fin S).le length = true ∧
      ∀ u, t ≤ u → u ≤ ts → ∃ s v a : ℝ, q'.s (fin u) = fin s ∧ q'.v (fin u) = fin v ∧ q'.a (fin u) = fin a ∧
        (q.s (fin t)).le (fin s) = true ∧ (fin s).le length = true ∧ 0 ≤ v ∧ (fin v).le (q.v (fin t)) = true ∧
        p.dMax.le (fin a) = true ∧ a ≤ 0 := by
  obtain ⟨e1, e2, p', i', ho', hf', hv', hT, hL, hs0, hv1, hd, -, hvf, hvm, e⟩ :=
    replan_continuous_partial ho h hv0 hfeed hv minLen st hq hs ht hl M hx hxl hfeed' .minimizeSpeed
  intro q'
  obtain ⟨ts, S, a1, a2, a3, a4, a5, a6, a7⟩ := stop_plan_rests ho' hf' hv' (ov := o.feedOverride)
    (by rw [hvf]; exact hfeed') (by rw [hvm]; exact hv) M.minLengthSProfile
  rw [← e] at a1 a3 a4 a7
  have hlen := ho.length
  refine ⟨ts, S, a1, hT ▸ a2, a3, a4, ?_, ?_⟩
  · rw [hlen, le_fin, ← hL]; simpa using a6
  · intro u hu1 hu2
    obtain ⟨s, v, a, b1, b2, b3, b4, b5, b6, b7, b8, b9⟩ := a7 u (by rw [hT]; exact hu1) hu2
    refine ⟨s, v, a, b1, b2, b3, ?_, ?_, b6, ?_, ?_, b9⟩
    · rw [hs0, le_fin]; simpa using b4
    · rw [hlen, le_fin, ← hL]; simpa using b5.trans a6
    · rw [hv1, le_fin]; simpa using b7
    · rw [ho.d, le_fin, ← hd]; simpa using b8

/-- **C68**, partial: after a stop short of the end point, the motion stays where it is for any time, and restarting it
(`optimize` at a time after the stop) continues from that position at speed zero, from feasible inputs with the remaining
length, so that it again covers its whole length (`plan_covers_length`). Missing: stops that end exactly at the end point
(`restart_violated`). -/
theorem restart_partial {i : PlanIn} {p : Profile} {length : Num} (ho : i.Of p length) (h : i.Feasible) (hv0 : i.vE = 0)
    {ov : Num} (hfeed : (p.vFeed * ov).NonNeg) (hv : p.vMax.NonNeg) (minLen : ℝ)
    {q : Profile} (hq : q = p.plan length ov minLen .minimizeSpeed) (hs : (q.s q.tStop).lt length = true) {t : ℝ}
    (ht : q.tStop.lt (fin t) = true)
    (M : Machine) {x : Path} (hx : x.type.moves = true) (hxl : x.trajectory.length = length) {o : Overrides}
    (hfeed' : (p.vFeed * o.feedOverride).NonNeg) (st : Strategy) :
    q.duration = posInf ∧ q.s (fin t) = q.s q.tStop ∧ q.v (fin t) = fin 0 ∧
    (MotionItem.optimizeAt M o st (fin t) x q).s (fin t) = q.s (fin t) ∧
    (MotionItem.optimizeAt M o st (fin t) x q).v (fin t) = fin 0 ∧
    ∃ (p' : Profile) (i' : PlanIn), i'.Of p' length ∧ i'.Feasible ∧ i'.vS = 0 ∧ i'.vE = 0 ∧ 0 < i'.L ∧ i'.doneT = t ∧
      p'.vFeed = p.vFeed ∧ p'.vMax = p.vMax ∧
      MotionItem.optimizeAt M o st (fin t) x q = p'.plan length o.feedOverride M.minLengthSProfile st := by
  obtain ⟨l, r, m, hp⟩ := stop_planned ho h hv0 hfeed hv minLen
  obtain ⟨-, -, -, -, -, -, -, -, ef, ev⟩ := plan_planned ho h hfeed hv minLen .minimizeSpeed
  rw [← hq] at hp ef ev
  have h0 := hp.lOk.good.dur_nonneg
  have hT : q.tStop = fin (i.doneT + l.duration) := by rw [hp.tStop, if_pos rfl]
  have hsT : q.s q.tStop = fin (i.doneL + l.length) := by
    rw [hT, hp.s_left le_rfl]
    congr 1
    split_ifs with hc
    · have e : l.duration = 0 := by linarith
      have := hp.lOk.good.s_zero
      rw [← e, hp.lOk.good.s_dur] at this
      linarith
    · rw [add_sub_cancel_left, hp.lOk.good.s_dur]
  have hR : r.length = 0 := by
    rw [hp.rOk.good.length]
    simp only [SCurve.len, curve_vS, curve_vE, hp.rOk.vStart, hp.rOk.vEnd, hv0]
    ring
  have hm : 0 < m := by
    rw [hsT, ho.length, lt_fin, decide_eq_true_eq] at hs
    have := hp.total
    linarith
  rw [hT, lt_fin, decide_eq_true_eq] at ht
  obtain ⟨es, evv⟩ := hp.stopped hm ht
  have hS : Snapshot i q t (i.doneL + l.length) 0 := by
    have tot := hp.total
    refine ⟨es, evv, le_rfl, by linarith, ?_⟩
    rw [hv0, ← tot]
    nlinarith [h.d]
  have hl : q.PastLeft (fin t) := by
    right
    rw [hp.doneT, hp.left, toNum_duration, fin_sub, le_fin, decide_eq_false_iff_not]
    linarith
  have ho' := hS.of ho hp hl
  have hf' := hS.feasible h hv0
  have e1 : (q.rebase (fin t)).vFeed = p.vFeed := ef
  have e2 : (q.rebase (fin t)).vMax = p.vMax := ev
  rw [optimizeAt_eq hx, hxl]
  obtain ⟨l', r', w', m', hp', -⟩ := plan_planned ho' hf' (feedOverride := o.feedOverride) (by rw [e1]; exact hfeed')
    (by rw [e2]; exact hv) M.minLengthSProfile st
  have h0' := hp'.lOk.good.dur_nonneg
  have et : (i.at t (i.doneL + l.length) 0).doneT = t := rfl
  refine ⟨?_, es.trans hsT.symm, evv, ?_, ?_, _, _, ho', hf', rfl, hv0, ?_, rfl, e1, e2, rfl⟩
  · rw [hp.duration, fin_div_zero_pos hm]; rfl
  · rw [hp'.s_left (by rw [et]; linarith), if_pos (by rw [et]), es]; rfl
  · rw [hp'.v_left (by rw [et]; linarith), if_pos (by rw [et])]; rfl
  · have tot := hp.total
    show 0 < i.doneL + i.L - (i.doneL + l.length)
    linarith

/-! ## Counterexamples

The plan of `Verif.Lemmas.PlanExample`: length 1, one second of acceleration to speed 1, one second of deceleration. -/

open Example in
theorem example_at (t : ℝ) (h0 : 0 < t) (h1 : t ≤ 1) : plan.s (fin t) = fin (t ^ 2 / 2) ∧ plan.v (fin t) = fin t := by
  have c1 : ¬ t ≤ 0 := by linarith
  constructor
  · unfold Profile.s
    simp only [plan, le_fin, c1, toNum_duration, up, toNum_s, fin_sub, sub_zero, h1, decide_true, decide_false, if_true,
      Bool.false_eq_true, if_false, fin_add]
    congr 1
    simp [AccDec.s, not_lt.2 h0.le, not_lt.2 h1]
    ring
  · unfold Profile.v
    simp only [plan, le_fin, c1, toNum_duration, up, toNum_v, fin_sub, sub_zero, h1, decide_true, decide_false, if_true,
      Bool.false_eq_true, if_false]
    congr 1
    simp [AccDec.v, not_lt.2 h0.le, not_lt.2 h1]

open Example in
theorem example_rebase : plan.rebase (fin (9 / 10)) =
    { plan with left := { up with vStart := 9 / 10 }.toNum, doneLength := fin (243 / 200), doneDuration := fin (9 / 10) } := by
  have hv := (example_at (9 / 10) (by norm_num) (by norm_num)).2
  unfold Profile.rebase
  simp only [hv]
  have e : plan.left.setvStart (fin (9 / 10)) = { up with vStart := 9 / 10 }.toNum := rfl
  rw [e]
  congr 1
  unfold Profile.s
  simp only [plan, le_fin, toNum_duration, toNum_s, fin_sub, fin_add, up]
  norm_num [AccDec.s]

open Example in
/-- The plan made by a stop request after 0.9 s. -/
theorem example_stop (x : Path) : ∃ c : ℝ, c ^ 2 = 31 / 50 ∧ 0 < c ∧ c < 9 / 10 ∧
    MotionItem.optimizeAt machine ⟨fin 1, fin 1⟩ .minimizeSpeed (fin (9 / 10)) (MotionItem.setPath x request) plan =
      ⟨fin (243 / 200), fin (9 / 10),
        ({ up with vStart := 9 / 10, vEnd := c, s2 := 19 / 200, length := 19 / 200, d2 := 9 / 10 - c,
                   duration := 9 / 10 - c } : AccDec ℝ).toNum,
        ⟨fin c, fin (-31 / 50), fin (-c)⟩,
        ({ down with vStart := c, s2 := 31 / 100, length := 31 / 100, d2 := c, duration := c } : AccDec ℝ).toNum,
        fin 2, fin 10, fin 1, fin (-1), fin 1, fin (9 / 5 - c), posInf⟩ := by
  have hc2 : √(31 / 50 : ℝ) ^ 2 = 31 / 50 := Real.sq_sqrt (by norm_num)
  have hc0 : 0 < √(31 / 50 : ℝ) := Real.sqrt_pos.2 (by norm_num)
  obtain ⟨c, hc⟩ : ∃ c, c = √(31 / 50 : ℝ) := ⟨_, rfl⟩
  have hmin : Profile.vTri (fin (9 / 10)) (fin 0) (fin 1) (fin (-1)) (fin 1 - fin (243 / 200)) .minimizeSpeed = fin c := by
    simp only [Profile.vTri, fin_mul, fin_sub, fin_add, le_fin]
    rw [if_pos (by norm_num), fin_div (by norm_num), sqrt_fin (by norm_num), hc]
    norm_num
  rw [← hc] at hc2 hc0
  have hc9 : c < 9 / 10 := by nlinarith
  refine ⟨c, hc2, hc0, hc9, ?_⟩
  rw [optimizeAt_eq rfl, example_rebase]
  have e1 : (MotionItem.setPath x request).trajectory.length = fin 1 := rfl
  have e2 : machine.minLengthSProfile = 0 := rfl
  rw [e1, e2]
  unfold Profile.plan
  have hch : ∀ P : Profile, P.left.vStart = fin (9 / 10) → P.right.vEnd = fin 0 → P.aMax = fin 1 → P.dMax = fin (-1) →
      P.doneLength = fin (243 / 200) → P.chooseSpeed (fin 1) (fin 1) 0 .minimizeSpeed = (fin c, .firstOrder) := by
    intro P h1 h2 h3 h4 h5
    unfold Profile.chooseSpeed
    simp only [h1, h2, h3, h4, h5, hmin, lt_fin]
    simp [hc0]
  rw [hch _ rfl rfl rfl rfl rfl]
  have f1 : ¬ (9 / 10 : ℝ) < c := by linarith
  have f2 : ¬ c < 0 := by linarith
  have f3 : c ≠ 0 := hc0.ne'
  have f4 : (c - 9 / 10) / -1 = 9 / 10 - c := by ring
  have f5 : (0 - c) / -1 = c := by ring
  have f6 : (9 / 10 + c) * (9 / 10 - c) * (1 / 2) = 19 / 200 := by linear_combination (-1 / 2) * hc2
  have f7 : (c + 0) * c * (1 / 2) = 31 / 100 := by linear_combination (1 / 2) * hc2
  have f8 : ((1 : ℝ) - 243 / 200 - (19 / 200 + 31 / 100)) / c = -c := by
    rw [div_eq_iff f3]; linear_combination hc2
  simp only [Profile.setPhases, Profile.finish, AccDec.calculate, AccDec.calculateFirst, AccDec.setMax, AccDec.setvStart,
    AccDec.setvEnd, Cruise.set, arith_lt_fin, lt_real, lit_real, arith_lit, fin_sub, fin_add, fin_mul, plan, up,
    down, toNum, eq_fin, f1, f2, if_false, fin_div (show (-1 : ℝ) ≠ 0 by norm_num), f4, f5]
  norm_num [f1, f2, f3, fin_div, lt_fin, f4, f5, f6, f7, f8]
  have g1 : c * c * (1 / 2) = 31 / 100 := by linear_combination (1 / 2) * hc2
  have g2 : (-(43 / 200) - (19 / 200 + 31 / 100)) / c = -c := by rw [div_eq_iff f3]; linear_combination hc2
  rw [g1, g2]
  refine ⟨⟨by norm_num, rfl⟩, rfl, by ring⟩

open Example in
/-- **C37** is violated: a stop request during acceleration makes the position jump from 0.405 to 1.215, beyond the end of
the motion at 1. -/
theorem replan_violated : ∃ (M : Machine) (x : Path) (p : Profile) (r : SimplifiedMotion) (o : Overrides) (t : ℝ),
    M.Ok ∧ Moves M.n r 1 ∧
    let q := MotionItem.setProfile M x p r o .maximizeSpeed
    (fin t).le q.duration = true ∧ q.s (fin t) = fin (81 / 200) ∧
    (MotionItem.optimizeAt M o .minimizeSpeed (fin t) (MotionItem.setPath x r) q).s (fin t) = fin (243 / 200) := by
  refine ⟨machine, .zero 1, .zero, request, ⟨fin 1, fin 1⟩, 9 / 10, machine_ok, request_moves, ?_⟩
  obtain ⟨c, -, -, -, e⟩ := example_stop (.zero 1)
  rw [Example.setProfile_eq]
  refine ⟨?_, ?_, ?_⟩
  · rw [show plan.duration = fin 2 from rfl, le_fin]; norm_num
  · rw [(example_at (9 / 10) (by norm_num) (by norm_num)).1]; norm_num
  · rw [e]
    simp [Profile.s]

open Example in
/-- **C38** is violated: after that stop request the motion does not stop; it is over when it is 0.31 beyond its end point,
still moving with a positive speed. -/
theorem stop_violated : ∃ (M : Machine) (x : Path) (p : Profile) (r : SimplifiedMotion) (o : Overrides) (t T v : ℝ),
    M.Ok ∧ Moves M.n r 1 ∧
    let q := MotionItem.setProfile M x p r o .maximizeSpeed
    let q' := MotionItem.optimizeAt M o .minimizeSpeed (fin t) (MotionItem.setPath x r) q
    (fin t).le q.duration = true ∧ q.right.vEnd = fin 0 ∧ q'.tStop = posInf ∧ q'.duration = fin T ∧
    q'.s (fin T) = fin (131 / 100) ∧ q'.v (fin T) = fin v ∧ 0 < v := by
  obtain ⟨c, hc2, hc0, hc9, e⟩ := example_stop (.zero 1)
  refine ⟨machine, .zero 1, .zero, request, ⟨fin 1, fin 1⟩, 9 / 10, 9 / 5 - c, c, machine_ok, request_moves, ?_⟩
  rw [Example.setProfile_eq]
  dsimp only
  rw [e]
  have g1 : ¬ (9 / 5 - c ≤ 9 / 10) := by linarith
  have g2 : 9 / 5 - c - 9 / 10 = 9 / 10 - c := by ring
  have g3 : ¬ (9 / 10 < c) := by linarith
  have g4 : ¬ (9 / 10 - c < 0) := by linarith
  refine ⟨?_, rfl, rfl, rfl, ?_, ?_, hc0⟩
  · rw [show plan.duration = fin 2 from rfl, le_fin]; norm_num
  · unfold Profile.s
    simp only [le_fin, g1, decide_false, Bool.false_eq_true, if_false, fin_sub, g2, toNum_duration, le_refl, decide_true,
      if_true, toNum_s, fin_add]
    congr 1
    simp [AccDec.s, g3, g4, up]
    linear_combination (-1 / 2) * hc2
  · unfold Profile.v
    simp only [le_fin, g1, decide_false, Bool.false_eq_true, if_false, fin_sub, g2, toNum_duration, le_refl, decide_true,
      if_true, toNum_v]
    congr 1
    simp [AccDec.v, g3, g4, up]

theorem nan_add (x : Num) : nan + x = nan := by cases x <;> rfl
theorem add_nan (x : Num) : x + nan = nan := by cases x <;> rfl
theorem fin_mul_nan (x : ℝ) : fin x * nan = nan := rfl

theorem toNum_s_nan (p : AccDec ℝ) : p.toNum.s nan = nan := by
  have h1 : Arith.lt nan p.toNum.d1d3 = false := rfl
  have h2 : Arith.lt (p.toNum.d1d3 + p.toNum.d2) nan = false := rfl
  have h3 : nan - p.toNum.d1d3 = nan := rfl
  unfold AccDec.s
  simp only [h1, h2, h3, Bool.false_eq_true, if_false]
  split_ifs
  · show _ + _ * nan * nan * _ = nan
    rw [show p.toNum.aMax * nan * nan * Arith.lit (1 / 2) = nan from rfl, add_nan]
  · rw [show p.toNum.dMax * nan * nan * Arith.lit (1 / 2) = nan from rfl, add_nan]

open Example in
theorem example_late : plan.s (fin (3 / 2)) = fin (7 / 8) ∧ plan.v (fin (3 / 2)) = fin (1 / 2) ∧
    plan.PastLeft (fin (3 / 2)) := by
  refine ⟨?_, ?_, ?_⟩
  · unfold Profile.s
    simp only [plan, le_fin, toNum_duration, up, down, toNum_length, toNum_s, fin_sub, fin_add]
    norm_num [AccDec.s]
  · unfold Profile.v
    simp only [plan, le_fin, toNum_duration, up, down, toNum_v, fin_sub]
    norm_num [AccDec.v]
  · right
    simp only [plan, toNum_duration, up, fin_sub, le_fin]
    norm_num

open Example in
/-- **C68** is violated: a stop request during the final deceleration stops at the end point, but leaves a plan whose duration
is NaN, so that the motion never completes, and whose position is NaN at all later times. -/
theorem restart_violated : ∃ (M : Machine) (x : Path) (p : Profile) (r : SimplifiedMotion) (o : Overrides) (t : ℝ),
    M.Ok ∧ Moves M.n r 1 ∧
    let q := MotionItem.setProfile M x p r o .maximizeSpeed
    let q' := MotionItem.optimizeAt M o .minimizeSpeed (fin t) (MotionItem.setPath x r) q
    q.PastLeft (fin t) ∧ (fin t).le q.duration = true ∧ q'.duration = nan ∧
    ∃ ts, q'.tStop = fin ts ∧ q'.s (fin ts) = fin 1 ∧ ∀ u, ts < u → q'.s (fin u) = nan := by
  refine ⟨machine, .zero 1, .zero, request, ⟨fin 1, fin 1⟩, 3 / 2, machine_ok, request_moves, ?_⟩
  rw [Example.setProfile_eq]
  dsimp only
  obtain ⟨e1, e2, e3⟩ := example_late
  rw [optimizeAt_eq rfl, show (MotionItem.setPath (.zero 1) request).trajectory.length = fin 1 from rfl]
  obtain ⟨i, hi⟩ : ∃ i : PlanIn, i = ⟨1 / 8, 7 / 8, 3 / 2, 1 / 2, 0, 1, -1, 1⟩ := ⟨_, rfl⟩
  have ho : i.Of (plan.rebase (fin (3 / 2))) (fin 1) := by
    rw [hi]
    refine ⟨by norm_num, ?_, rfl, e2, rfl, rfl, rfl, rfl⟩
    rw [Profile.rebase_s e3, e1]
  have hf : i.Feasible := by rw [hi]; constructor <;> norm_num
  have g1 : ((plan.rebase (fin (3 / 2))).vFeed * fin 1).NonNeg := by show (0 : ℝ) ≤ 2 * 1; norm_num
  have g2 : (plan.rebase (fin (3 / 2))).vMax.NonNeg := by show (0 : ℝ) ≤ 10; norm_num
  obtain ⟨l, r, m, hp⟩ := stop_planned ho hf (by rw [hi]) g1 g2 machine.minLengthSProfile
  have h0 := hp.lOk.good.dur_nonneg
  have hr := hp.rOk.good.len_nonneg
  have sl := hp.lOk.good.slow hp.lOk.dMax le_rfl h0
  rw [hp.lOk.good.v_zero, hp.lOk.good.s_zero, hp.lOk.vStart, hp.lOk.vEnd, hi] at sl
  have tot := hp.total
  rw [hi] at tot
  have hm0 := hp.m0
  norm_num at sl tot
  have hm : m = 0 := by linarith
  have hll : l.length = 1 / 8 := by linarith
  have hl0 : 0 < l.duration := by
    rcases h0.lt_or_eq with h | h
    · exact h
    · have := hp.lOk.good.s_zero
      rw [h, hp.lOk.good.s_dur] at this
      linarith
  have hdn : fin m / fin 0 = nan := by rw [hm, zero_div_zero]
  have hT : i.doneT = 3 / 2 := by rw [hi]
  refine ⟨e3, ?_, ?_, i.doneT + l.duration, ?_, ?_, ?_⟩
  · rw [show plan.duration = fin 2 from rfl, le_fin]; norm_num
  · rw [hp.duration, hdn, add_nan, nan_add]
  · rw [hp.tStop, if_pos rfl]
  · rw [hp.s_left le_rfl, if_neg (by linarith), add_sub_cancel_left, hp.lOk.good.s_dur, hll, hi]
    norm_num
  · intro u hu
    unfold Profile.s
    rw [hp.doneT, hp.doneL, hp.left, hp.right, hp.midDuration, hdn]
    have c1 : ¬ u ≤ i.doneT := by linarith
    have c2 : ¬ u - i.doneT ≤ l.duration := by linarith
    simp only [le_fin, toNum_duration, fin_sub, c1, c2, decide_false, Bool.false_eq_true, if_false]
    rw [show (fin (u - i.doneT - l.duration)).le nan = false from rfl]
    simp only [Bool.false_eq_true, if_false]
    rw [show fin (u - i.doneT - l.duration) - nan = nan from rfl, toNum_s_nan, add_nan]

/-! ## Examples -/

open Example in
/-- The stop request after 1.5 s of the example satisfies the hypotheses of `stop_request_partial`. -/
example :
    let q' := MotionItem.optimizeAt machine ⟨fin 1, fin 1⟩ .minimizeSpeed (fin (3 / 2)) (MotionItem.setPath (.zero 1) request) plan
    ∃ ts S : ℝ, q'.tStop = fin ts ∧ 3 / 2 ≤ ts ∧ q'.v (fin ts) = fin 0 ∧ q'.s (fin ts) = fin S := by
  obtain ⟨p', i, e, ho, hi, hL, h4, h5, h6, h7, h8, h9⟩ :=
    request_feasible machine_ok request_moves (.zero 1) .zero ⟨fin 1, fin 1⟩ .maximizeSpeed
  have hf : (p'.vFeed * fin 1).NonNeg := by rw [h8]; show (0 : ℝ) ≤ 2 * 1; norm_num
  rw [Example.setProfile_eq] at e
  obtain ⟨ts, S, a1, a2, a3, a4, -⟩ := stop_request_partial ho hi h7 hf h9.nonNeg machine.minLengthSProfile .maximizeSpeed
    e rfl (t := 3 / 2) (by rw [show plan.duration = fin 2 from rfl, le_fin]; norm_num) example_late.2.2 machine
    (x := MotionItem.setPath (.zero 1) request) rfl rfl (o := ⟨fin 1, fin 1⟩) hf
  exact ⟨ts, S, a1, a2, a3, a4⟩

end Moovr.Props
