import Verif.Lemmas.PlanExample
/-!
# Properties of motion planning (C34, C35, C36, C67)

`PlanIn.Of i p length` reads the planner's inputs from the profile `p`; `Feasible` says that the end speed can be reached
within the remaining length. Both hold for every new request (`request_feasible`) and are kept by re-planning
(`Verif.Props.Replan`).
-/
namespace Moovr.Props
open Num AccDec Set

/-- A new request is planned from feasible inputs, from rest to rest, whatever the queue cell held before. -/
theorem request_feasible {M : Machine} (hM : M.Ok) {r : SimplifiedMotion} {L : ℝ} (h : Moves M.n r L) (x : Path)
    (p : Profile) (o : Overrides) (st : Strategy) :
    ∃ (p' : Profile) (i : PlanIn),
      MotionItem.setProfile M x p r o st = p'.plan r.trajectory.length o.feedOverride M.minLengthSProfile st ∧
      i.Of p' r.trajectory.length ∧ i.Feasible ∧ i.L = L ∧ i.doneL = 0 ∧ i.doneT = 0 ∧ i.vS = 0 ∧ i.vE = 0 ∧
      p'.vFeed = r.vFeed ∧ p'.vMax.Pos := by
  obtain ⟨i, h1, h2, h3, h4, h5, h6, h7, _, h9, h10⟩ := reqProfile_of hM h p
  exact ⟨_, i, setProfile_eq h.type x p o st, h1, h2, h3, h4, h5, h6, h7, h9, h10⟩

/-- With the maximize-speed strategy the plan does not contain a stop. -/
theorem plan_no_stop {i : PlanIn} {p : Profile} {length : Num} (ho : i.Of p length) (h : i.Feasible) (hL : 0 < i.L)
    {ov : Num} (hfeed : (p.vFeed * ov).Pos) (hv : p.vMax.Pos) (minLen : ℝ) :
    (p.plan length ov minLen .maximizeSpeed).tStop = posInf := by
  obtain ⟨l, r, w, m, hp, -, -, hx, -, -⟩ := plan_planned ho h hfeed.nonNeg hv.nonNeg minLen .maximizeSpeed
  have hw := cruise_pos h hL hv hfeed (hx rfl)
  rw [hp.tStop, if_neg hw.ne']

theorem planned_pos {i : PlanIn} {q : Profile} {l r : AccDec ℝ} {w m : ℝ} (hp : Planned i q l r w m)
    (hs : q.tStop = posInf) : 0 < w := by
  rcases hp.w0.lt_or_eq with h | h
  · exact h
  · rw [hp.tStop, if_pos h.symm] at hs; cases hs

/-- **C34** For both strategies, unless the plan contains a stop: the phases have non-negative lengths and durations and add
up to the trajectory length; the motion has a finite duration `T`, at which the trajectory length has been travelled and the
speed is the end speed; it starts at the distance already done with the start speed. -/
theorem plan_covers_length {i : PlanIn} {p : Profile} {length : Num} (ho : i.Of p length) (h : i.Feasible)
    {ov : Num} (hfeed : (p.vFeed * ov).NonNeg) (hv : p.vMax.NonNeg) (minLen : ℝ) (st : Strategy)
    (hs : (p.plan length ov minLen st).tStop = posInf) :
    let q := p.plan length ov minLen st
    ∃ T sl tl sm tm sr tr : ℝ,
      q.left.length = fin sl ∧ q.left.duration = fin tl ∧ q.mid.length = fin sm ∧ q.mid.duration = fin tm ∧
      q.right.length = fin sr ∧ q.right.duration = fin tr ∧
      0 ≤ sl ∧ 0 ≤ tl ∧ 0 ≤ sm ∧ 0 ≤ tm ∧ 0 ≤ sr ∧ 0 ≤ tr ∧
      p.doneLength + q.left.length + q.mid.length + q.right.length = length ∧
      T = i.doneT + tl + tm + tr ∧ q.duration = fin T ∧
      q.s q.duration = length ∧ q.v q.duration = p.right.vEnd ∧
      q.s p.doneDuration = p.doneLength ∧ q.v p.doneDuration = p.left.vStart := by
  intro q
  obtain ⟨l, r, w, m, hp, -, -, -, -, -⟩ := plan_planned ho h hfeed hv minLen st
  have hw : 0 < w := planned_pos hp hs
  change Planned i q l r w m at hp
  have hT := hp.dur_eq hw
  refine ⟨Planned.tEnd i l r w m, l.length, l.duration, m, m / w, r.length, r.duration, ?_, ?_, hp.midLength, ?_, ?_, ?_,
    hp.lOk.good.len_nonneg, hp.lOk.good.dur_nonneg, hp.m0, hp.mw, hp.rOk.good.len_nonneg, hp.rOk.good.dur_nonneg, ?_, rfl,
    hT, ?_, ?_, ?_, ?_⟩
  · rw [hp.left, toNum_length]
  · rw [hp.left, toNum_duration]
  · rw [hp.midDuration, fin_div hw.ne']
  · rw [hp.right, toNum_length]
  · rw [hp.right, toNum_duration]
  · rw [hp.left, hp.right, hp.midLength, toNum_length, toNum_length, ho.doneL, ho.length]
    simp only [fin_add]; rw [← hp.total]; congr 1; ring
  · rw [hT, hp.s_eq hw, hp.s_end hw, ho.length]
  · rw [hT, hp.v_eq hw, hp.v_end hw, ho.vE]
  · rw [ho.doneT, hp.s_eq hw, hp.s_start, ho.doneL]
  · rw [ho.doneT, hp.v_eq hw, hp.v_start, ho.vS]

/-- **C34** for a new request: from standstill at distance 0 to standstill at the full length. -/
theorem request_covers_length {M : Machine} (hM : M.Ok) {r : SimplifiedMotion} {L : ℝ} (h : Moves M.n r L) (x : Path)
    (p : Profile) {o : Overrides} (hf : (r.vFeed * o.feedOverride).Pos) :
    let q := MotionItem.setProfile M x p r o .maximizeSpeed
    ∃ T, 0 < T ∧ q.duration = fin T ∧ q.tStop = posInf ∧ q.s (fin 0) = fin 0 ∧ q.v (fin 0) = fin 0 ∧
      q.s (fin T) = fin L ∧ q.v (fin T) = fin 0 := by
  obtain ⟨p', i, e, ho, hi, hL, h4, h5, h6, h7, h8, h9⟩ := request_feasible hM h x p o .maximizeSpeed
  intro q
  have hf' : (p'.vFeed * o.feedOverride).Pos := by rw [h8]; exact hf
  have hs := plan_no_stop ho hi (by rw [hL]; exact h.pos) hf' h9 M.minLengthSProfile
  obtain ⟨T, sl, tl, sm, tm, sr, tr, -, -, -, -, -, -, -, a1, -, a2, -, a3, -, eT, eD, b1, b2, b3, b4⟩ :=
    plan_covers_length ho hi hf'.nonNeg h9.nonNeg M.minLengthSProfile .maximizeSpeed hs
  rw [eD] at b1 b2
  rw [ho.doneT, h5] at b3 b4
  rw [ho.doneL, h4] at b3
  rw [ho.vS, h6] at b4
  replace b1 := b1.trans ho.length
  rw [h4, hL, zero_add] at b1
  rw [ho.vE, h7] at b2
  have hT0 : 0 ≤ T := by rw [eT, h5]; linarith
  have hTn : T ≠ 0 := by
    rintro rfl
    rw [b1] at b3
    exact h.pos.ne' (fin_injective b3)
  rw [← e] at *
  exact ⟨T, lt_of_le_of_ne hT0 hTn.symm, eD, hs, b3, b4, b1, b2⟩

/-- **C35** At every time of the motion the speed is not negative and at most the larger of start and end speed, or at most
the machine's limit and the requested feed times override; the acceleration stays within the path's limits. -/
theorem plan_speed_limit {i : PlanIn} {p : Profile} {length : Num} (ho : i.Of p length) (h : i.Feasible)
    {ov : Num} (hfeed : (p.vFeed * ov).NonNeg) (hv : p.vMax.NonNeg) (minLen : ℝ) (st : Strategy)
    (hs : (p.plan length ov minLen st).tStop = posInf) {t : ℝ}
    (ht : (fin t).le (p.plan length ov minLen st).duration = true) :
    ∃ v a : ℝ, (p.plan length ov minLen st).v (fin t) = fin v ∧ (p.plan length ov minLen st).a (fin t) = fin a ∧ 0 ≤ v ∧
      (v ≤ max i.vS i.vE ∨ st = .maximizeSpeed ∧ (fin v).le p.vMax = true ∧ (fin v).le (p.vFeed * ov) = true) ∧
      i.d ≤ a ∧ a ≤ i.a := by
  obtain ⟨l, r, w, m, hp, hcap, -, -, -, -⟩ := plan_planned ho h hfeed hv minLen st
  have hw : 0 < w := planned_pos hp hs
  generalize p.plan length ov minLen st = q at *
  rw [hp.dur_eq hw, le_fin, decide_eq_true_eq] at ht
  obtain ⟨b1, b2⟩ := hp.a_bounds h ht
  obtain ⟨c1, c2⟩ := hp.v_bounds ht
  refine ⟨_, _, hp.v_eq hw t, hp.a_eq hw t, le_trans (le_min (le_min h.vS h.vE) hw.le) c1, ?_, b1, b2⟩
  rcases le_max_iff.1 c2 with c2 | c2
  · exact Or.inl c2
  · rcases hcap with hc | ⟨hc1, hc2, hc3⟩
    · exact Or.inl (c2.trans hc)
    · exact Or.inr ⟨hc1, fin_le_trans c2 hc3, fin_le_trans c2 hc2⟩

/-- **C36** Distance and speed are continuous, the distance never decreases, and the speed is its rate of change at every
time after the plan was made. -/
theorem plan_forward {i : PlanIn} {p : Profile} {length : Num} (ho : i.Of p length) (h : i.Feasible)
    {ov : Num} (hfeed : (p.vFeed * ov).NonNeg) (hv : p.vMax.NonNeg) (minLen : ℝ) (st : Strategy)
    (hs : (p.plan length ov minLen st).tStop = posInf) :
    let q := p.plan length ov minLen st
    ∃ S V : ℝ → ℝ, ∃ T, (∀ t, q.s (fin t) = fin (S t)) ∧ (∀ t, q.v (fin t) = fin (V t)) ∧ q.duration = fin T ∧
      Continuous S ∧ Continuous V ∧ MonotoneOn S (Iic T) ∧ ∀ t, i.doneT < t → HasDerivAt S (V t) t := by
  obtain ⟨l, r, w, m, hp, -, -, -, -, -⟩ := plan_planned ho h hfeed hv minLen st
  have hw : 0 < w := planned_pos hp hs
  exact ⟨_, _, _, hp.s_eq hw, hp.v_eq hw, hp.dur_eq hw, hp.continuous_sFun hw, hp.continuous_vFun, hp.monotone_sFun h hw,
    fun t ht => hp.deriv_sFun hw ht⟩

/-- **C67** With the maximize-speed strategy the motion reaches a speed that is the machine's limit, or the requested feed,
or cannot be exceeded within the remaining length by any constant-acceleration profile. -/
theorem plan_full_speed {i : PlanIn} {p : Profile} {length : Num} (ho : i.Of p length) (h : i.Feasible) (hL : 0 < i.L)
    {ov : Num} (hfeed : (p.vFeed * ov).Pos) (hv : p.vMax.Pos) (minLen : ℝ) :
    let q := p.plan length ov minLen .maximizeSpeed
    ∃ t w : ℝ, (fin t).le q.duration = true ∧ q.v (fin t) = fin w ∧
      (p.vMax.le (fin w) = true ∨ (p.vFeed * ov).le (fin w) = true ∨ ∀ u, i.Reaches u → u ≤ w) := by
  obtain ⟨l, r, w, m, hp, -, -, hx, -, -⟩ := plan_planned ho h hfeed.nonNeg hv.nonNeg minLen .maximizeSpeed
  have hw := cruise_pos h hL hv hfeed (hx rfl)
  intro q
  change Planned i q l r w m at hp
  have htt : i.doneT + l.duration ≤ Planned.tEnd i l r w m := by
    have := hp.mw; have := hp.rOk.good.dur_nonneg; unfold Planned.tEnd; linarith
  refine ⟨i.doneT + l.duration, w, ?_, ?_, ?_⟩
  · rw [hp.dur_eq hw, le_fin, decide_eq_true_eq]; exact htt
  · rw [hp.v_eq hw]
    congr 1
    unfold Planned.vFun
    have h0 := hp.lOk.good.dur_nonneg
    by_cases hc : i.doneT + l.duration ≤ i.doneT
    · have : l.duration = 0 := by linarith
      rw [if_pos hc, ← this, hp.lOk.good.v_dur, hp.lOk.vEnd]
    · rw [if_neg hc, if_pos le_rfl, add_sub_cancel_left, hp.lOk.good.v_dur, hp.lOk.vEnd]
  · obtain ⟨x, hxw, rfl | e | e⟩ := hx rfl
    · refine Or.inr (Or.inr fun u hu => le_trans (Real.le_sqrt_of_sq_le ?_) hxw)
      obtain ⟨_, _, h3⟩ := hu
      have ha := h.a; have hd := h.d
      unfold PlanIn.hi
      rw [le_div_iff₀ h.den]
      have e2 : (i.vE ^ 2 - u ^ 2) / (2 * i.d) = (u ^ 2 - i.vE ^ 2) / (2 * -i.d) := by
        rw [mul_neg, div_neg, ← neg_div, neg_sub]
      rw [e2, div_add_div _ _ (by linarith) (by linarith), div_le_iff₀ (by nlinarith)] at h3
      nlinarith
    · exact Or.inl (by rw [← e, le_fin]; simpa using hxw)
    · exact Or.inr (Or.inl (by rw [← e, le_fin]; simpa using hxw))

/-! ## Examples -/

open Example in
/-- The example is planned as expected: it takes two seconds and passes 0.5 at speed 1 after one second. -/
example : let q := MotionItem.setProfile machine (.zero 1) .zero request ⟨fin 1, fin 1⟩ .maximizeSpeed
    q.duration = fin 2 ∧ q.s (fin 1) = fin (1 / 2) ∧ q.v (fin 1) = fin 1 ∧ q.s (fin 2) = fin 1 ∧ q.v (fin 2) = fin 0 := by
  rw [Example.setProfile_eq]
  refine ⟨rfl, ?_, ?_, ?_, ?_⟩ <;>
    simp only [Profile.s, Profile.v, plan, le_fin, toNum_duration, up, down, toNum_length, toNum_s, toNum_v, fin_sub,
      fin_add] <;> norm_num [AccDec.s, AccDec.v]

open Example in
/-- The example satisfies the hypotheses of the theorems. -/
example : ∃ T, (MotionItem.setProfile machine (.zero 1) .zero request ⟨fin 1, fin 1⟩ .maximizeSpeed).duration = fin T := by
  obtain ⟨T, -, h, -⟩ := request_covers_length machine_ok request_moves (.zero 1) .zero (o := ⟨fin 1, fin 1⟩)
    (by show (0 : ℝ) < 2 * 1; norm_num)
  exact ⟨T, h⟩

end Moovr.Props
