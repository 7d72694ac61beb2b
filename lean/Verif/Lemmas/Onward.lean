import Verif.Lemmas.Resume
import Verif.Spec.Onward
/-!
# Planning a motion again while it is in progress
-/
namespace Moovr
open Num ExecSpec MotionCtrl AccDec MotionSpec

theorem le_larger_left {a b : Num} (ha : a.Pos) (hb : b.Pos) {w : ℝ} (h : (fin w).le a = true) : (fin w).le (larger a b) = true := by
  unfold larger
  split
  · cases a <;> cases b <;> simp_all [Num.Pos, Num.le]
    linarith
  · exact h

theorem le_max_num {a b : ℝ} {f : Num} (ha : (fin a).le f = true) (hb : (fin b).le f = true) : (fin (max a b)).le f = true := by
  rcases le_total a b with h | h
  · rw [max_eq_right h]; exact hb
  · rw [max_eq_left h]; exact ha

theorem num_le_of_le {a b : ℝ} {f : Num} (h : a ≤ b) (hb : (fin b).le f = true) : (fin a).le f = true := by
  revert hb
  cases f <;> simp [Num.le]
  intro; linarith

/-- If the motion can end at rest, its cruise speed is within the feed rate and the limits. -/
private theorem chosen_le {p : Profile} {i : PlanIn} {length : Num} (ho : i.Of p length) (h : i.Feasible) (hlo : √i.lo = 0)
    {ov : Num} (hfeed : (p.vFeed * ov).NonNeg) (hv : p.vMax.NonNeg) (minLen : ℝ) {w : ℝ}
    (e : (p.chooseSpeed length ov minLen .maximizeSpeed).1 = fin w) :
    (fin w).le (p.vFeed * ov) = true ∧ (fin w).le p.vMax = true := by
  unfold Profile.chooseSpeed at e
  simp only [ho.vTri_max h, ho.vTri_min h, hlo] at e
  generalize p.vFeed * ov = f at *
  generalize p.vMax = m at *
  have hs := Real.sqrt_nonneg i.hi
  rcases f with f | _ | _ | _ <;> simp only [Num.NonNeg] at hfeed <;>
    rcases m with m | _ | _ | _ <;> simp only [Num.NonNeg] at hv <;>
    simp only [Num.lt, Num.le, decide_eq_true_eq] at e ⊢ <;>
    split_ifs at e <;> simp_all [Num.lt, Num.le] <;> (try split_ifs at e) <;> (try simp only [Num.fin.injEq] at e) <;> subst e <;>
    (try constructor) <;> linarith

theorem plan_mid (p : Profile) (length ov : Num) (minLen : ℝ) (st : Strategy) :
    (p.plan length ov minLen st).mid.vMid = (p.chooseSpeed length ov minLen st).1 := by
  unfold Profile.plan
  simp only
  split <;> rfl

/-- A plan at maximum speed that begins with any speed. -/
theorem replanned {M : Machine} {r : SimplifiedMotion} {i : PlanIn} {p : Profile} (h : Base M r i p) (hL : 0 < i.L)
    {ov : Num} (hov : (r.vFeed * ov).Pos) :
    ∃ l rr w m, Planned i (p.plan r.trajectory.length ov M.minLengthSProfile .maximizeSpeed) l rr w m ∧ 0 < w ∧
      Base M r i (p.plan r.trajectory.length ov M.minLengthSProfile .maximizeSpeed) ∧
      (p.plan r.trajectory.length ov M.minLengthSProfile .maximizeSpeed).vMax = p.vMax ∧
      (fin w).le p.vMax = true ∧ (fin w).le (r.vFeed * ov) = true ∧
      (∀ v a, Allowed M r v a → (fin v).le (r.vFeed * ov) = true → v ^ 2 ≤ a * i.L → v ≤ w) ∧
      w * (Planned.tEnd i l rr w m - i.doneT) ≤ 2 * i.L := by
  have hf : (p.vFeed * ov).NonNeg := by rw [h.vFeed]; exact hov.nonNeg
  obtain ⟨l, rr, w, m, hpl, -, -, hfull, ef, ev⟩ := plan_planned h.of h.feasible (feedOverride := ov)
    hf h.vMax.nonNeg M.minLengthSProfile .maximizeSpeed
  have hw : 0 < w := cruise_pos h.feasible hL h.vMax (by rw [h.vFeed]; exact hov) (hfull rfl)
  have hlo : √i.lo = 0 := by
    apply Real.sqrt_eq_zero'.2
    apply div_nonpos_of_nonpos_of_nonneg _ h.feasible.den.le
    have := h.feasible.slow
    rw [h.vE] at this ⊢
    nlinarith [h.feasible.a]
  have hcap := chosen_le h.of h.feasible hlo hf h.vMax.nonNeg M.minLengthSProfile (w := w) (by rw [← plan_mid]; exact hpl.vMid)
  refine ⟨l, rr, w, m, hpl, hw, h.next (hpl.of h.of.length) h.feasible h.vE rfl rfl rfl ef ev, ev, hcap.2,
    by rw [← h.vFeed]; exact hcap.1, ?_, ?_⟩
  · intro v a hall hvf hva
    obtain ⟨b1, b2, b3⟩ := h.allowed v a hall
    obtain ⟨x, hxw, hx⟩ := hfull rfl
    refine le_trans ?_ hxw
    rcases hx with rfl | hx | hx
    · refine Real.le_sqrt_of_sq_le (hva.trans ?_)
      unfold PlanIn.hi
      rw [h.vE, le_div_iff₀ h.feasible.den]
      have ha := hall.a0
      have k1 : 0 ≤ (i.a - a) * -i.d := mul_nonneg (by linarith) (by linarith)
      have k2 : 0 ≤ (-i.d - a) * i.a := mul_nonneg (by linarith) (by linarith)
      have k3 : 0 ≤ i.vS * i.vS * -i.d := mul_nonneg (mul_self_nonneg _) (by linarith)
      nlinarith [mul_nonneg hL.le k1, mul_nonneg hL.le k2]
    · rw [← hx, le_fin, decide_eq_true_eq] at b1; exact b1
    · rw [← h.vFeed, ← hx, le_fin, decide_eq_true_eq] at hvf; exact hvf
  · have e1 : w * l.duration ≤ 2 * l.length := by
      rw [hpl.lOk.good.length]
      have hd := hpl.lOk.good.dur_nonneg
      rw [hpl.lOk.good.duration] at hd ⊢
      unfold SCurve.len SCurve.dur at *
      have e2 : l.curve.vS = i.vS := by rw [curve]; split <;> simp [hpl.lOk.vStart]
      have e3 : l.curve.vE = w := by rw [curve]; split <;> simp [hpl.lOk.vEnd]
      rw [e2, e3]
      have := mul_nonneg h.feasible.vS hd
      linarith
    have e1' : 2 * rr.length = w * rr.duration := by
      rw [hpl.rOk.good.length, hpl.rOk.good.duration]
      unfold SCurve.len SCurve.dur
      have e2 : rr.curve.vE = 0 := by rw [curve]; split <;> simp [hpl.rOk.vEnd, h.vE]
      have e3 : rr.curve.vS = w := by rw [curve]; split <;> simp [hpl.rOk.vStart]
      rw [e2, e3]; ring
    have e2 : w * (m / w) = m := by field_simp
    have := hpl.total; have := hpl.m0
    unfold Planned.tEnd
    linarith

/-- The speeds of a plan. -/
theorem Planned.course {i : PlanIn} {q : Profile} {l r : AccDec ℝ} {w m : ℝ} (h : Planned i q l r w m) (hw : 0 < w) (hE : i.vE ≤ w) :
    Planned.vFun i l r w m (i.doneT + l.duration) = w ∧
    (∀ x, i.doneT ≤ x → x ≤ i.doneT + l.duration → min i.vS w ≤ Planned.vFun i l r w m x ∧ Planned.vFun i l r w m x ≤ max i.vS w) ∧
    ∀ x, i.doneT + l.duration ≤ x → x ≤ Planned.tEnd i l r w m → Planned.vFun i l r w m x ≤ w := by
  have hl := h.lOk.good.dur_nonneg; have hr := h.rOk.good.dur_nonneg; have hm := h.mw
  have lv := h.lOk.good.v_dur; have rz := h.rOk.good.v_zero
  rw [h.lOk.vEnd] at lv; rw [h.rOk.vStart] at rz
  have e1 : ∀ x, i.doneT ≤ x → x ≤ i.doneT + l.duration → Planned.vFun i l r w m x = l.v (x - i.doneT) := by
    intro x h1 h2
    unfold Planned.vFun
    split_ifs with c1
    · rw [le_antisymm c1 h1, sub_self]
    · rfl
  refine ⟨by rw [e1 _ (by linarith) le_rfl, add_sub_cancel_left, lv], fun x h1 h2 => ?_, fun x h1 h2 => ?_⟩
  · have := h.lOk.good.v_bounds (t := x - i.doneT) (by linarith) (by linarith)
    rwa [h.lOk.vStart, h.lOk.vEnd, ← e1 x h1 h2] at this
  · rcases h1.eq_or_lt with rfl | h1
    · rw [e1 _ (by linarith) le_rfl, add_sub_cancel_left, lv]
    · unfold Planned.vFun
      rw [if_neg (by linarith), if_neg (by linarith)]
      split_ifs with c
      · exact le_rfl
      · unfold Planned.tEnd at h2
        have := (h.rOk.good.v_bounds (t := x - i.doneT - l.duration - m / w) (by linarith [not_le.1 c]) (by linarith)).2
        rw [h.rOk.vStart, h.rOk.vEnd, max_eq_left hE] at this
        exact this

/-- The time of the first phase of a plan. -/
theorem phase_brief {M : Machine} {r : SimplifiedMotion} {i : PlanIn} {p q : Profile} {l rr : AccDec ℝ} {w m : ℝ} (h : Base M r i p)
    (hpl : Planned i q l rr w m) {v a : ℝ} (hall : Allowed M r v a) :
    l.duration ≤ 2 * max (√(|w - i.vS| / M.jMax)) (|w - i.vS| / a) := by
  obtain ⟨-, b2, b3⟩ := h.allowed v a hall
  have ha := hall.a0
  rcases le_total i.vS w with hc | hc
  · have := hpl.lOk.brief' hc
    rw [h.jerk] at this
    rw [abs_of_nonneg (sub_nonneg.2 hc)]
    refine this.trans (mul_le_mul_of_nonneg_left (max_le_max le_rfl ?_) (by norm_num))
    exact div_le_div_of_nonneg_left (sub_nonneg.2 hc) ha b2
  · have := hpl.lOk.brief hc
    rw [h.jerk] at this
    rw [abs_sub_comm, abs_of_nonneg (sub_nonneg.2 hc)]
    refine this.trans (mul_le_mul_of_nonneg_left (max_le_max le_rfl ?_) (by norm_num))
    exact div_le_div_of_nonneg_left (sub_nonneg.2 hc) ha b3

/-- The front cell when it is planned again while the motion is in progress. -/
theorem Runs.replans {M : Machine} {x : Motion M.kit} {j : Job} (h : Runs M x j) {u : ℝ} (hb : x.prof.doneDuration.le (fin u) = true)
    (h0 : 0 ≤ u) (hT : u ≤ j.T) (hpl : x.prof.PastLeft (fin u)) (hroom : j.S u < j.L) {ov : Num} (ho : (j.r.vFeed * ov).Pos) :
    let q := (x.prof.rebase (fin u)).plan j.r.trajectory.length ov M.minLengthSProfile .maximizeSpeed
    (∃ j', Replans M j u (j.r.vFeed * ov) j' ∧ Runs M { x with prof := q } j' ∧ q.doneDuration = fin u) ∧
    ∃ j', Replans M j u (j.r.vFeed * ov) j' ∧
      Runs M { x with prof := q.plan j.r.trajectory.length ov M.minLengthSProfile .maximizeSpeed } j' ∧
      (q.plan j.r.trajectory.length ov M.minLengthSProfile .maximizeSpeed).doneDuration = fin u := by
  obtain ⟨i, l, rr, w₀, m, B₀, hbase, hp, hw₀, hsnap, hVB, hBv, hBf, hlen, hwB, -⟩ := h.at hb hT
  have hb0 := hbase.rebase hp hsnap hpl
  have hjf : j.f.Pos := pos_of_le (hw₀.trans_le hwB) hBf
  have hVv : (fin (j.V u)).le x.prof.vMax = true := num_le_of_le hVB hBv
  have hVf : (fin (j.V u)).le j.f = true := num_le_of_le hVB hBf
  obtain ⟨i₀, hi₀⟩ : ∃ i₀, i₀ = i.at u (j.S u) (j.V u) := ⟨_, rfl⟩
  have d1 : i₀.doneT = u := by rw [hi₀]; rfl
  have d2 : i₀.doneL = j.S u := by rw [hi₀]; rfl
  have d3 : i₀.vS = j.V u := by rw [hi₀]; rfl
  have d4 : i₀.L = j.L - j.S u := by rw [← hlen, hi₀]; rfl
  have hL : 0 < i₀.L := by rw [d4]; linarith
  rw [← hi₀] at hb0
  have mk : ∀ {p : Profile}, Base M j.r i₀ p → p.vMax = x.prof.vMax →
      (Base M j.r i₀ (p.plan j.r.trajectory.length ov M.minLengthSProfile .maximizeSpeed) ∧
        (p.plan j.r.trajectory.length ov M.minLengthSProfile .maximizeSpeed).vMax = x.prof.vMax) ∧
      ∃ j', Replans M j u (j.r.vFeed * ov) j' ∧
        Runs M { x with prof := p.plan j.r.trajectory.length ov M.minLengthSProfile .maximizeSpeed } j' ∧
        (p.plan j.r.trajectory.length ov M.minLengthSProfile .maximizeSpeed).doneDuration = fin u := by
    intro p hp pv
    obtain ⟨l', rr', w, m', hpl, hw, hb, ev, hwv, hwf, hfast, hwT⟩ := replanned hp hL ho
    refine ⟨⟨hb, ev.trans pv⟩, ?_⟩
    generalize p.plan j.r.trajectory.length ov M.minLengthSProfile .maximizeSpeed = q at *
    obtain ⟨F, hF⟩ : ∃ F, F = larger j.f (j.r.vFeed * ov) := ⟨_, rfl⟩
    obtain ⟨B, hB⟩ : ∃ B, B = max (j.V u) w := ⟨_, rfl⟩
    have hwB : w ≤ B := by rw [hB]; exact le_max_right _ _
    have hvB : i₀.vS ≤ B := by rw [d3, hB]; exact le_max_left _ _
    have hBv : (fin B).le q.vMax = true := by
      rw [hB]; exact le_max_num (by rw [ev, pv]; exact hVv) (by rw [ev]; exact hwv)
    have hBF : (fin B).le F = true := by
      rw [hB, hF]; exact le_max_num (le_larger_left hjf ho hVf) (le_larger hjf ho hwf)
    have hlawC := law_of_planned h.exe hb hpl hw hwB hvB hBv hBF
    have hlawA := h.ok.toLaw.mono (a' := 0) (b' := u) le_rfl hT
    rw [d1] at hlawC
    have sC : Planned.sFun i₀ l' rr' w m' u = j.S u := by have := hpl.s_start; rwa [d1, d2] at this
    have vC : Planned.vFun i₀ l' rr' w m' u = j.V u := by have := hpl.v_start; rwa [d1, d3] at this
    have fl : ∀ z', F = fin z' → ∃ z, j.f = fin z ∧ z ≤ z' := by rw [hF]; exact larger_left hjf ho
    have hlaw := (hlawA.faster fl).cut hlawC sC.symm vC.symm
    obtain ⟨S, hS⟩ : ∃ S, S = cut u j.S (Planned.sFun i₀ l' rr' w m') := ⟨_, rfl⟩
    obtain ⟨V, hV⟩ : ∃ V, V = cut u j.V (Planned.vFun i₀ l' rr' w m') := ⟨_, rfl⟩
    rw [← hS, ← hV] at hlaw
    have beforeS : ∀ y, y ≤ u → S y = j.S y ∧ V y = j.V y := fun y hy => by rw [hS, hV]; exact ⟨cut_left hy, cut_left hy⟩
    have afterS : ∀ y, u ≤ y → S y = Planned.sFun i₀ l' rr' w m' y ∧ V y = Planned.vFun i₀ l' rr' w m' y := fun y h1 => by
      rw [hS, hV, cut_right sC.symm h1, cut_right vC.symm h1]; exact ⟨rfl, rfl⟩
    obtain ⟨c1, c2, c3⟩ := hpl.course hw (by rw [hb.vE]; exact hw.le)
    rw [d1] at c1 c2 c3
    obtain ⟨T, hTe⟩ : ∃ T, T = Planned.tEnd i₀ l' rr' w m' := ⟨_, rfl⟩
    rw [← hTe] at hlaw hwT hlawC c3
    have hend : Planned.sFun i₀ l' rr' w m' T = j.L := by rw [hTe, hpl.s_end hw, d4, d2]; ring
    have hld := hpl.lOk.good.dur_nonneg
    have heT : u + l'.duration ≤ T := by
      have := hpl.rOk.good.dur_nonneg; have := hpl.mw
      rw [hTe]; unfold Planned.tEnd; rw [d1]; linarith
    have huT : u < T := by
      refine lt_of_le_of_ne (by linarith) fun e => ?_
      rw [← e, sC] at hend
      linarith
    have hsound : Job.Sound M ⟨j.r, F, T, S, V⟩ := by
      refine ⟨hlaw, ?_, ?_, ?_, ?_, ?_⟩
      · show 0 < T; linarith
      · show S 0 = 0; rw [(beforeS 0 h0).1]; exact h.ok.start
      · show S T = j.L; rw [(afterS T huT.le).1, hend]
      · show V 0 = 0; rw [(beforeS 0 h0).2]; exact h.ok.atRest.1
      · show V T = 0; rw [(afterS T huT.le).2, hTe, hpl.v_end hw, hb.vE]
    have hVe : V (u + l'.duration) = w := by rw [(afterS _ (by linarith)).2, c1]
    have hVle : ∀ y, u + l'.duration ≤ y → y ≤ T → V y ≤ w := fun y h1 h2 => by
      rw [(afterS y (by linarith)).2]; exact c3 y h1 h2
    refine ⟨⟨j.r, F, T, S, V⟩, ⟨rfl, hsound, beforeS, huT, ⟨u + l'.duration, by linarith, heT, ?_, ?_, ?_, ?_, ?_, ?_⟩, ?_⟩,
      ⟨h.holds.withProf _, h.exe, ?_, ?_, ?_, ?_, ?_, hsound⟩, ?_⟩
    · intro y h1 h2
      show min (j.V u) (V _) ≤ V y ∧ V y ≤ max (j.V u) (V _)
      rw [hVe, (afterS y h1).2, ← d3]
      exact c2 y h1 h2
    · intro v a hall
      show u + l'.duration - u ≤ 2 * max (√(|V _ - j.V u| / M.jMax)) (|V _ - j.V u| / a)
      rw [hVe, add_sub_cancel_left, ← d3]
      exact phase_brief hp hpl hall
    · intro y h1 h2
      show V y ≤ V _
      rw [hVe]; exact hVle y h1 h2
    · show (fin (V _)).le _ = true
      rw [hVe]; exact hwf
    · refine { hlaw.mono (a' := u + l'.duration) (b' := T) (by linarith) le_rfl with feed := ?_ }
      intro z hz y y' h1 h2 h3
      have hwz : w ≤ z := by rw [hz, le_fin, decide_eq_true_eq] at hwf; exact hwf
      refine (convex_Icc y y').image_sub_le_mul_sub_of_deriv_le (f := S) (C := z) hlaw.smooth.continuousOn ?_ ?_
        y (Set.left_mem_Icc.2 h2) y' (Set.right_mem_Icc.2 h2) h2
      · intro t ht
        rw [interior_Icc] at ht
        exact (hlaw.rate t (by linarith [ht.1]) (by have := ht.2; change y' ≤ T at h3; linarith)).differentiableAt.differentiableWithinAt
      · intro t ht
        rw [interior_Icc] at ht
        change y' ≤ T at h3
        rw [(hlaw.rate t (by linarith [ht.1]) (by linarith [ht.2])).deriv]
        exact (hVle t (by linarith [ht.1]) (by linarith [ht.2])).trans hwz
    · intro v a hall hvf hva
      show v ≤ V _
      rw [hVe]
      exact hfast v a hall hvf (by rw [d4]; exact hva)
    · intro v a hall hvf hva
      rw [d1, d4] at hwT
      exact (mul_le_mul_of_nonneg_right (hfast v a hall hvf (by rw [d4]; exact hva)) (by show 0 ≤ T - u; linarith)).trans hwT
    · refine ⟨i₀, l', rr', w, m', B, hb, hpl, hw, hwB, hvB, hBv, hBF, by rw [d1]; exact h0, ?_⟩
      show i₀.doneL + i₀.L = j.L
      rw [d4, d2]; ring
    · show q.duration = fin T
      rw [hTe]; exact hpl.dur_eq hw
    · show q.tStop = posInf
      rw [hpl.tStop, if_neg hw.ne']
    · intro y hy
      change q.doneDuration.le (fin y) = true at hy
      rw [hpl.doneT, d1, le_fin, decide_eq_true_eq] at hy
      show q.s (fin y) = fin (S y)
      rw [(afterS y hy).1]; exact hpl.s_eq hw y
    · intro y hy
      change q.doneDuration.le (fin y) = true at hy
      rw [hpl.doneT, d1, le_fin, decide_eq_true_eq] at hy
      show q.v (fin y) = fin (V y)
      rw [(afterS y hy).2]; exact hpl.v_eq hw y
    · rw [hpl.doneT, d1]
  obtain ⟨⟨hb1, pv⟩, r1⟩ := mk hb0 rfl
  exact ⟨r1, (mk hb1 pv).2⟩

/-- `start()` while the first motion is in progress. -/
theorem restart {M : Machine} {δ : ℝ} {E : Nat → ℝ} {j : Job} {js : List Job} {u : ℝ} {c : MotionCtrl M.kit}
    (h : Running M δ E j js u c) (hpl : c.buffer.getHead.prof.PastLeft (fin u)) (hroom : j.S u < j.L)
    (hr : ∀ r ∈ js.map Job.r, Executable M.n r) (ho : ∀ r ∈ j.r :: js.map Job.r, (r.vFeed * c.overrides.feedOverride).Pos) :
    ∃ j' js', Replans M j u (j.r.vFeed * c.overrides.feedOverride) j' ∧
      js'.map (fun j => (j.r, j.f)) = (js.map Job.r).map (fun r => (r, r.vFeed * c.overrides.feedOverride)) ∧ (∀ j ∈ js', j.Ok M) ∧
      Running M δ E j' js' u c.start ∧ c.start.overrides = c.overrides ∧
      c.start.events = c.events ++ [.motionStarted] := by
  have hemp : (!c.buffer.isEmpty) = true := by simp [MotionBuffer.isEmpty, h.line.tail.level]
  obtain ⟨c₁, hc₁⟩ : ∃ c₁, c₁ = ({ c.pushEvent .motionStarted with state := .running } : MotionCtrl M.kit) := ⟨_, rfl⟩
  have e : c.start = c₁.optimize := by rw [hc₁]; unfold start; rw [if_pos hemp]
  have hb : c₁.buffer = c.buffer := by rw [hc₁]; rfl
  have ho₁ : c₁.overrides = c.overrides := by rw [hc₁]; rfl
  have ht₁ : c₁.time = c.time := by rw [hc₁]; rfl
  have hst₁ : c₁.strategy = .maximizeSpeed := by rw [hc₁]; rfl
  have hss := sameButProf_optimize c₁
  have htail := h.line.tail
  rw [← hb] at htail
  obtain ⟨o1, o2, o3⟩ := optimize_tail htail (by
    rw [ho₁]; intro r hr; exact ho r (List.mem_cons_of_mem _ hr))
  have hnow : c₁.time.timeInMotion = fin u := by rw [ht₁, h.clock.now]
  have hfr := h.queue.getHead
  have htype := hfr.holds.type
  have htraj : c.buffer.getHead.traj.trajectory.length = j.r.trajectory.length := hfr.holds.length
  obtain ⟨i', l', rr', w', m', B', hbase, -⟩ := hfr.under
  obtain ⟨s1, s2⟩ := hfr.replans h.line.begun h.nonneg h.le hpl hroom (ov := c.overrides.feedOverride) (ho j.r List.mem_cons_self)
  have hfront : ∃ j', Replans M j u (j.r.vFeed * c.overrides.feedOverride) j' ∧
      Runs M c₁.optimize.buffer.getHead j' ∧ c₁.optimize.buffer.getHead.prof.doneDuration = fin u := by
    rw [o3]
    split
    · have ex : replan₁ c₁ c₁.buffer.getHead = { c.buffer.getHead with
          prof := (c.buffer.getHead.prof.rebase (fin u)).plan j.r.trajectory.length c.overrides.feedOverride
            M.minLengthSProfile .maximizeSpeed } := by
        unfold replan₁
        rw [hb, ho₁, hst₁, hnow]
        exact congrArg (fun p : Profile => ({ c.buffer.getHead with prof := p } : Motion M.kit))
          ((optimizeAt_eq htype _ _).trans (by rw [htraj]))
      rw [ex]; exact s1
    · have ex : replan c₁ c₁.buffer.getHead = { c.buffer.getHead with
          prof := ((c.buffer.getHead.prof.rebase (fin u)).plan j.r.trajectory.length c.overrides.feedOverride
            M.minLengthSProfile .maximizeSpeed).plan j.r.trajectory.length c.overrides.feedOverride
            M.minLengthSProfile .maximizeSpeed } := by
        unfold replan
        rw [hb, ho₁, hst₁, hnow]
        have e1 : M.kit.endAtRest c.buffer.getHead.prof = c.buffer.getHead.prof := hbase.endAtRest
        rw [e1]
        have e2 : MotionItem.optimizeAt M c.overrides .maximizeSpeed (fin u) c.buffer.getHead.traj c.buffer.getHead.prof =
            (c.buffer.getHead.prof.rebase (fin u)).plan j.r.trajectory.length c.overrides.feedOverride
              M.minLengthSProfile .maximizeSpeed := (optimizeAt_eq htype _ _).trans (by rw [htraj])
        have e3 : ∀ q : Profile, MotionItem.optimize M c.overrides .maximizeSpeed c.buffer.getHead.traj q =
            q.plan j.r.trajectory.length c.overrides.feedOverride M.minLengthSProfile .maximizeSpeed := by
          intro q
          unfold MotionItem.optimize
          rw [if_pos htype, htraj]
        exact congrArg (fun p : Profile => ({ c.buffer.getHead with prof := p } : Motion M.kit))
          ((e3 _).trans (by rw [← e2]; rfl))
      rw [ex]; exact s2
  obtain ⟨j', f1, f2, f3⟩ := hfront
  rw [hst₁, ho₁] at o2
  obtain ⟨js', g1, g2, g3, g4⟩ := tail_jobs o2 hr
  have hsame : c₁.optimize.buffer.getHead.traj = c.buffer.getHead.traj := by
    rw [o3, hb]; split <;> rfl
  have htl := o1.level; have hmax := o1.max
  rw [e]
  refine ⟨j', js', f1, g1, g4, ⟨by rw [hss.state, hc₁], ⟨⟨o1.head, by rw [htl, List.length_cons, g2], by rw [List.length_cons, g2]; omega, ?_⟩, ?_, ?_⟩,
    by rw [hss.time, ht₁]; exact h.clock, h.nonneg, f1.later.le, ?_⟩, by rw [hss.ovr, ho₁], by rw [hss.events, hc₁]; rfl⟩
  · intro k hk
    cases k with
    | zero =>
      rw [Nat.add_zero, Nat.mod_eq_of_lt o1.head]
      exact f2
    | succ k =>
      rw [List.getElem_cons_succ]
      exact (g3 k (by simpa using hk)).1
  · rw [f3, le_fin]; simp
  · intro k hk
    exact (g3 k hk).2
  · intro axis ha
    have hp : c₁.machinePosition = c.machinePosition := by rw [hc₁]; rfl
    rw [hss.pos, hsame, f1.request, (f1.before u le_rfl).1, hp]
    exact h.near axis ha

/-- The remaining way does not take longer than the whole one would. -/
theorem ExecSpec.Replans.soon {M : Machine} {j : Job} {t : ℝ} {f : Num} {j' : Job} (h : Replans M j t f j')
    (h0 : 0 ≤ j.S t) (hk : j.S t < j.L) {v a : ℝ} (hall : Allowed M j.r v a) (hf : (fin v).le f = true)
    (hva : v ^ 2 ≤ a * j.L) : j'.T ≤ t + 2 * j.L / v := by
  obtain ⟨D, hD⟩ : ∃ D, D = j.L - j.S t := ⟨_, rfl⟩
  have hD0 : 0 < D := by rw [hD]; linarith
  have hDL : D ≤ j.L := by rw [hD]; linarith
  have hL0 : 0 < j.L := by linarith
  have hb := h.brisk
  rw [← hD] at hb
  have hv := hall.v0; have ha := hall.a0
  by_cases hc : v ^ 2 ≤ a * D
  · have := hb v a hall hf hc
    have : j'.T - t ≤ 2 * j.L / v := by rw [le_div_iff₀ hv]; nlinarith
    linarith
  · rw [not_le] at hc
    obtain ⟨w, hw⟩ : ∃ w, w = √(a * D) := ⟨_, rfl⟩
    have hw0 : 0 < w := by rw [hw]; exact Real.sqrt_pos.2 (mul_pos ha hD0)
    have hw2 : w ^ 2 = a * D := by rw [hw]; exact Real.sq_sqrt (mul_pos ha hD0).le
    have hwv : w ≤ v := by nlinarith
    have hall' : Allowed M j.r w a := by
      refine ⟨hw0, ha, fun axis hx => ?_, hall.acc, hall.dec, fun axis hx hy => ?_⟩
      · exact (mul_le_mul_of_nonneg_right hwv (abs_nonneg _)).trans (hall.speed axis hx)
      · exact (pow_le_pow_left₀ hw0.le hwv 2).trans (hall.turn axis hx hy)
    have hf' : (fin w).le f = true := by
      revert hf
      cases f <;> simp [Num.le]
      intro; linarith
    have h1 := hb w a hall' hf' hw2.le
    have h2 : j'.T - t ≤ 2 * D / w := by rw [le_div_iff₀ hw0]; linarith
    have h3 : D / w ≤ j.L / v := by
      rw [div_le_div_iff₀ hw0 hv]
      -- `D v ≤ L w`, as `D² v² ≤ D² a L = D L w² ≤ L² w²`
      have : (D * v) ^ 2 ≤ (j.L * w) ^ 2 := by
        have k1 : D ^ 2 * v ^ 2 ≤ D ^ 2 * (a * j.L) := mul_le_mul_of_nonneg_left hva (by positivity)
        have k2 : D * (j.L * w ^ 2) ≤ j.L * (j.L * w ^ 2) := mul_le_mul_of_nonneg_right hDL (by positivity)
        rw [hw2] at k2
        rw [mul_pow, mul_pow, hw2]
        nlinarith
      exact le_of_sq_le_sq this (by positivity)
    have : 2 * D / w ≤ 2 * j.L / v := by
      rw [mul_div_assoc, mul_div_assoc]; linarith
    linarith

end Moovr
