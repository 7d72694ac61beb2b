import Verif.Lemmas.StopRun
/-!
# Resuming a motion that has been stopped
-/
namespace Moovr
open Num ExecSpec MotionCtrl AccDec MotionSpec

/-- The larger of two feed rates. -/
noncomputable def larger (a b : Num) : Num := if a.le b then b else a

theorem larger_left {a b : Num} (ha : a.Pos) (hb : b.Pos) : ∀ z', larger a b = fin z' → ∃ z, a = fin z ∧ z ≤ z' := by
  intro z' h
  unfold larger at h
  cases a <;> cases b <;> simp_all [Num.Pos, Num.le]
  split at h <;> simp_all

theorem larger_right {a b : Num} (ha : a.Pos) (hb : b.Pos) : ∀ z', larger a b = fin z' → ∃ z, b = fin z ∧ z ≤ z' := by
  intro z' h
  unfold larger at h
  cases a <;> cases b <;> simp_all [Num.Pos, Num.le]
  split at h <;> simp_all
  linarith

theorem le_larger {a b : Num} (ha : a.Pos) (hb : b.Pos) {w : ℝ} (h : (fin w).le b = true) : (fin w).le (larger a b) = true := by
  unfold larger
  cases a <;> cases b <;> simp_all [Num.Pos, Num.le]
  split <;> simp_all [Num.le]
  linarith

/-- The front cell when it is planned again after the stop. -/
theorem Stops.resumes {M : Machine} (hM : M.Ok) {x : Motion M.kit} {j : Job} {u : ℝ} {i : PlanIn} {l rr : AccDec ℝ} {m : ℝ}
    (h : Stops M x j u i l rr m) (hm : 0 < m) {t : ℝ} (ht : u + l.duration < t) {ov : Num} (ho : (j.r.vFeed * ov).Pos) :
    let q := (x.prof.rebase (fin t)).plan j.r.trajectory.length ov M.minLengthSProfile .maximizeSpeed
    (∃ j', Resumes M j (brakeOf i l) u t (j.r.vFeed * ov) j' ∧ Runs M { x with prof := q } j' ∧ q.doneDuration = fin t) ∧
    ∃ j', Resumes M j (brakeOf i l) u t (j.r.vFeed * ov) j' ∧
      Runs M { x with prof := q.plan j.r.trajectory.length ov M.minLengthSProfile .maximizeSpeed } j' ∧
      (q.plan j.r.trajectory.length ov M.minLengthSProfile .maximizeSpeed).doneDuration = fin t := by
  have hld := (stop_facts h.base h.plan).1
  have hlm := (stop_facts h.base h.plan).2.2.1
  have hdT := h.doneT
  have hlen := h.length
  obtain ⟨e1, e2⟩ := h.plan.stopped hm (t := t) (by rw [hdT]; exact ht)
  have hsnap : Snapshot i x.prof t (i.doneL + l.length) 0 := by
    refine ⟨e1, e2, le_rfl, by linarith, ?_⟩
    have hd := h.base.feasible.d
    have : 0 ≤ -i.d * (i.doneL + i.L - (i.doneL + l.length)) := mul_nonneg (by linarith) (by linarith)
    rw [h.base.vE]
    nlinarith
  have hpast : x.prof.PastLeft (fin t) := by
    right
    rw [h.plan.doneT, h.plan.left, toNum_duration, fin_sub, le_fin, decide_eq_false_iff_not, hdT]
    linarith
  have hb0 := h.base.rebase h.plan hsnap hpast
  obtain ⟨i₀, hi₀⟩ : ∃ i₀, i₀ = i.at t (i.doneL + l.length) 0 := ⟨_, rfl⟩
  have d1 : i₀.doneT = t := by rw [hi₀]; rfl
  have d2 : i₀.doneL = i.doneL + l.length := by rw [hi₀]; rfl
  have d3 : i₀.vS = 0 := by rw [hi₀]; rfl
  have d4 : i₀.L = j.L - i₀.doneL := by rw [d2, ← hlen, hi₀]; rfl
  have hL : 0 < i₀.L := by rw [d4, d2]; linarith
  rw [← hi₀] at hb0
  have mk : ∀ {p : Profile}, Base M j.r i₀ p →
      Base M j.r i₀ (p.plan j.r.trajectory.length ov M.minLengthSProfile .maximizeSpeed) ∧
      ∃ j', Resumes M j (brakeOf i l) u t (j.r.vFeed * ov) j' ∧
        Runs M { x with prof := p.plan j.r.trajectory.length ov M.minLengthSProfile .maximizeSpeed } j' ∧
        (p.plan j.r.trajectory.length ov M.minLengthSProfile .maximizeSpeed).doneDuration = fin t := by
    intro p hp
    obtain ⟨l', rr', w, m', hpl, hw, hb, hwv, hwf, hfast, hwT⟩ := maximized hp d3 hL ho
    refine ⟨hb, ?_⟩
    generalize p.plan j.r.trajectory.length ov M.minLengthSProfile .maximizeSpeed = q at *
    obtain ⟨F, hF⟩ : ∃ F, F = larger j.f (j.r.vFeed * ov) := ⟨_, rfl⟩
    have hlawC := law_of_planned h.exe hb hpl hw le_rfl (by rw [d3]; exact hw.le) hwv hwf
    have hlawB := law_of_stop hM h.exe h.pos h.base h.plan h.vMax h.feed t
    have hlawA := h.sound.toLaw.mono (a' := 0) (b' := u) le_rfl h.range.2
    rw [d1] at hlawC
    rw [hdT] at hlawB
    have sC : Planned.sFun i₀ l' rr' w m' t = i.doneL + l.length := by have := hpl.s_start; rwa [d1, d2] at this
    have vC : Planned.vFun i₀ l' rr' w m' t = 0 := by have := hpl.v_start; rwa [d1, d3] at this
    have sB : stopS i l t = i.doneL + l.length := stopS_after h.plan (by rw [hdT]; exact ht.le)
    have vB : stopV i l t = 0 := stopV_after h.plan (by rw [hdT]; exact ht.le)
    have sB0 : stopS i l u = j.S u := by have := stopS_start h.plan; rwa [hdT, h.doneL] at this
    have vB0 : stopV i l u = j.V u := by have := stopV_start h.plan; rwa [hdT, h.vS] at this
    have hut : u ≤ t := by linarith
    have eS2 : stopS i l t = Planned.sFun i₀ l' rr' w m' t := by rw [sB, sC]
    have eV2 : stopV i l t = Planned.vFun i₀ l' rr' w m' t := by rw [vB, vC]
    have eS1 : j.S u = cut t (stopS i l) (Planned.sFun i₀ l' rr' w m') u := by rw [cut_left hut, sB0]
    have eV1 : j.V u = cut t (stopV i l) (Planned.vFun i₀ l' rr' w m') u := by rw [cut_left hut, vB0]
    have fl : ∀ z', F = fin z' → ∃ z, j.f = fin z ∧ z ≤ z' := by rw [hF]; exact larger_left h.pos ho
    have fr : ∀ z', F = fin z' → ∃ z, j.r.vFeed * ov = fin z ∧ z ≤ z' := by rw [hF]; exact larger_right h.pos ho
    have hlaw := (hlawA.faster fl).cut ((hlawB.faster fl).cut (hlawC.faster fr) eS2 eV2) eS1 eV1
    obtain ⟨S, hS⟩ : ∃ S, S = cut u j.S (cut t (stopS i l) (Planned.sFun i₀ l' rr' w m')) := ⟨_, rfl⟩
    obtain ⟨V, hV⟩ : ∃ V, V = cut u j.V (cut t (stopV i l) (Planned.vFun i₀ l' rr' w m')) := ⟨_, rfl⟩
    rw [← hS, ← hV] at hlaw
    have beforeS : ∀ y, y ≤ u → S y = j.S y ∧ V y = j.V y := fun y hy => by rw [hS, hV]; exact ⟨cut_left hy, cut_left hy⟩
    have midS : ∀ y, u ≤ y → y ≤ t → S y = stopS i l y ∧ V y = stopV i l y := fun y h1 h2 => by
      rw [hS, hV, cut_right eS1 h1, cut_right eV1 h1, cut_left h2, cut_left h2]; exact ⟨rfl, rfl⟩
    have afterS : ∀ y, t ≤ y → S y = Planned.sFun i₀ l' rr' w m' y ∧ V y = Planned.vFun i₀ l' rr' w m' y := fun y h1 => by
      rw [hS, hV, cut_right eS1 (hut.trans h1), cut_right eV1 (hut.trans h1), cut_right eS2 h1, cut_right eV2 h1]
      exact ⟨rfl, rfl⟩
    obtain ⟨T, hT⟩ : ∃ T, T = Planned.tEnd i₀ l' rr' w m' := ⟨_, rfl⟩
    rw [← hT] at hlaw hwT hlawC
    have hend : Planned.sFun i₀ l' rr' w m' T = j.L := by rw [hT, hpl.s_end hw, d4]; ring
    have htT : t < T := by
      refine lt_of_le_of_ne ?_ fun e => ?_
      · have := hpl.lOk.good.dur_nonneg; have := hpl.rOk.good.dur_nonneg; have := hpl.mw
        rw [hT]; unfold Planned.tEnd; rw [d1]; linarith
      · rw [← e, sC, ← d2] at hend
        rw [d4, hend] at hL; linarith
    have hsound : Job.Sound M ⟨j.r, F, T, S, V⟩ := by
      refine ⟨hlaw, ?_, ?_, ?_, ?_, ?_⟩
      · show 0 < T; linarith [h.range.1]
      · show S 0 = 0; rw [(beforeS 0 h.range.1).1]; exact h.sound.start
      · show S T = j.L; rw [(afterS T htT.le).1, hend]
      · show V 0 = 0; rw [(beforeS 0 h.range.1).2]; exact h.sound.atRest.1
      · show V T = 0; rw [(afterS T htT.le).2, hT, hpl.v_end hw, hb.vE]
    have hE : (brakeOf i l).E = u + l.duration := by show i.doneT + _ = _; rw [hdT]
    have hSE : (brakeOf i l).S (brakeOf i l).E = i.doneL + l.length := stopS_after h.plan le_rfl
    refine ⟨⟨j.r, F, T, S, V⟩, ⟨rfl, hsound, beforeS, ?_, ?_, htT, ?_, ?_⟩, ⟨h.holds.withProf _, h.exe, ?_, ?_, ?_, ?_, ?_, hsound⟩, ?_⟩
    · intro y h1 h2
      rw [hE] at h2
      exact midS y h1 (by linarith)
    · intro y h1 h2
      obtain ⟨g1, g2⟩ := midS y (by rw [hE] at h1; linarith) h2
      show S y = _ ∧ V y = _
      rw [g1, g2, hSE]
      exact ⟨stopS_after h.plan h1, stopV_after h.plan h1⟩
    · refine { hlaw.mono (a' := t) (b' := T) (by linarith [h.range.1]) le_rfl with feed := ?_ }
      intro z hz y y' h1 h2 h3
      show S y' - S y ≤ _
      rw [(afterS y h1).1, (afterS y' (h1.trans h2)).1]
      exact hlawC.feed z hz y y' h1 h2 h3
    · intro v a hall hvf hva
      rw [hSE, ← d2, ← d4] at hva ⊢
      rw [d1] at hwT
      exact (mul_le_mul_of_nonneg_right (hfast v a hall hvf hva) (by show 0 ≤ T - t; linarith)).trans hwT
    · refine ⟨i₀, l', rr', w, m', w, hb, hpl, hw, le_rfl, by rw [d3]; exact hw.le, hwv, ?_, by rw [d1]; linarith [h.range.1], ?_⟩
      · show (fin w).le F = true
        rw [hF]; exact le_larger h.pos ho hwf
      · show i₀.doneL + i₀.L = j.L
        rw [d4]; ring
    · show q.duration = fin T
      rw [hT]; exact hpl.dur_eq hw
    · show q.tStop = posInf
      rw [hpl.tStop, if_neg hw.ne']
    · intro y hy
      change q.doneDuration.le (fin y) = true at hy
      rw [hpl.doneT, d1, le_fin, decide_eq_true_eq] at hy
      show q.s (fin y) = fin (S y)
      rw [(afterS y hy).1]; exact hpl.s_eq hw y
    · intro y hy
      change q.doneDuration.le (fin y) = true at hy
      rw [hpl.doneT, d1, le_fin, decide_eq_true_eq] at hy
      show q.v (fin y) = fin (V y)
      rw [(afterS y hy).2]; exact hpl.v_eq hw y
    · rw [hpl.doneT, d1]
  obtain ⟨hb1, r1⟩ := mk hb0
  exact ⟨r1, (mk hb1).2⟩

/-- The jobs of the motions behind the first one. -/
theorem tail_jobs {M : Machine} {b : MotionBuffer M.kit} {rs : List SimplifiedMotion} {ov : Num}
    (h : ∀ k (hk : k < rs.length), Ready M ov .maximizeSpeed (b.cells ((b.head + (k + 1)) % 32)) rs[k])
    (hr : ∀ r ∈ rs, Executable M.n r) :
    ∃ js : List Job, js.map (fun j => (j.r, j.f)) = rs.map (fun r => (r, r.vFeed * ov)) ∧ js.length = rs.length ∧
      (∀ k (hk : k < js.length), Runs M (b.cells ((b.head + (k + 1)) % 32)) js[k] ∧
        Waits M (b.cells ((b.head + (k + 1)) % 32)) js[k].r) ∧ ∀ j ∈ js, j.Ok M := by
  have : ∀ k (hk : k < rs.length), ∃ j : Job, j.r = rs[k] ∧ j.f = rs[k].vFeed * ov ∧
      Runs M (b.cells ((b.head + (k + 1)) % 32)) j ∧ j.Ok M := by
    intro k hk
    exact runs_of_restPlan (hr _ (List.getElem_mem hk)) (h k hk).1 (h k hk).2
  choose f hf using this
  refine ⟨List.ofFn fun k : Fin rs.length => f k k.2, ?_, by simp, ?_, ?_⟩
  · apply List.ext_getElem
    · simp
    · intro i h1 h2
      have h2' : i < rs.length := by simpa using h2
      simp [(hf i h2').1, (hf i h2').2.1]
  · intro k hk
    have hk' : k < rs.length := by simpa using hk
    rw [List.getElem_ofFn]
    refine ⟨(hf k hk').2.2.1, ?_⟩
    rw [(hf k hk').1]
    exact ⟨_, _, h k hk'⟩
  · intro j hj
    obtain ⟨k, hk, rfl⟩ := List.getElem_of_mem hj
    have hk' : k < rs.length := by simpa using hk
    simpa using (hf k hk').2.2.2

/-- `start()` after the motion has come to rest. -/
theorem resume {M : Machine} (hM : M.Ok) {δ : ℝ} {E : Nat → ℝ} {j : Job} {rs : List SimplifiedMotion} {u : ℝ} {i : PlanIn}
    {l rr : AccDec ℝ} {m t : ℝ} {c : MotionCtrl M.kit} (h : Braking M δ E j rs u i l rr m t c) (hst : c.state = .stopped)
    (hm : 0 < m) (hr : ∀ r ∈ rs, Executable M.n r) (ho : ∀ r ∈ j.r :: rs, (r.vFeed * c.overrides.feedOverride).Pos) :
    ∃ j' js, Resumes M j (brakeOf i l) u t (j.r.vFeed * c.overrides.feedOverride) j' ∧
      js.map (fun j => (j.r, j.f)) = rs.map (fun r => (r, r.vFeed * c.overrides.feedOverride)) ∧ (∀ j ∈ js, j.Ok M) ∧
      Running M δ E j' js t c.start ∧ c.start.overrides = c.overrides ∧
      c.start.events = c.events ++ [.motionStarted] := by
  have ht : u + l.duration < t := by
    rcases h.phase with ⟨-, h2⟩ | ⟨h1, -, -⟩
    · rw [h2] at hst; simp at hst
    · exact h1
  have hemp : (!c.buffer.isEmpty) = true := by simp [MotionBuffer.isEmpty, h.tail.level]
  obtain ⟨c₁, hc₁⟩ : ∃ c₁, c₁ = ({ c.pushEvent .motionStarted with state := .running } : MotionCtrl M.kit) := ⟨_, rfl⟩
  have e : c.start = c₁.optimize := by rw [hc₁]; unfold start; rw [if_pos hemp]
  have hb : c₁.buffer = c.buffer := by rw [hc₁]; rfl
  have ho₁ : c₁.overrides = c.overrides := by rw [hc₁]; rfl
  have ht₁ : c₁.time = c.time := by rw [hc₁]; rfl
  have hst₁ : c₁.strategy = .maximizeSpeed := by rw [hc₁]; rfl
  have hss := sameButProf_optimize c₁
  have htail := h.tail
  rw [← hb] at htail
  obtain ⟨o1, o2, o3⟩ := optimize_tail htail (by
    rw [ho₁]; intro r hr; exact ho r (List.mem_cons_of_mem _ hr))
  have hnow : c₁.time.timeInMotion = fin t := by rw [ht₁, h.clock.now]
  have htype := h.front.holds.type
  have htraj : c.buffer.getHead.traj.trajectory.length = j.r.trajectory.length := h.front.holds.length
  obtain ⟨s1, s2⟩ := h.front.resumes hM hm ht (ov := c.overrides.feedOverride) (ho j.r List.mem_cons_self)
  have hfront : ∃ j', Resumes M j (brakeOf i l) u t (j.r.vFeed * c.overrides.feedOverride) j' ∧
      Runs M c₁.optimize.buffer.getHead j' ∧ c₁.optimize.buffer.getHead.prof.doneDuration = fin t := by
    rw [o3]
    split
    · have ex : replan₁ c₁ c₁.buffer.getHead = { c.buffer.getHead with
          prof := (c.buffer.getHead.prof.rebase (fin t)).plan j.r.trajectory.length c.overrides.feedOverride
            M.minLengthSProfile .maximizeSpeed } := by
        unfold replan₁
        rw [hb, ho₁, hst₁, hnow]
        exact congrArg (fun p : Profile => ({ c.buffer.getHead with prof := p } : Motion M.kit))
          ((optimizeAt_eq htype _ _).trans (by rw [htraj]))
      rw [ex]; exact s1
    · have ex : replan c₁ c₁.buffer.getHead = { c.buffer.getHead with
          prof := ((c.buffer.getHead.prof.rebase (fin t)).plan j.r.trajectory.length c.overrides.feedOverride
            M.minLengthSProfile .maximizeSpeed).plan j.r.trajectory.length c.overrides.feedOverride
            M.minLengthSProfile .maximizeSpeed } := by
        unfold replan
        rw [hb, ho₁, hst₁, hnow]
        have e1 : M.kit.endAtRest c.buffer.getHead.prof = c.buffer.getHead.prof := h.front.base.endAtRest
        rw [e1]
        have e2 : MotionItem.optimizeAt M c.overrides .maximizeSpeed (fin t) c.buffer.getHead.traj c.buffer.getHead.prof =
            (c.buffer.getHead.prof.rebase (fin t)).plan j.r.trajectory.length c.overrides.feedOverride
              M.minLengthSProfile .maximizeSpeed := (optimizeAt_eq htype _ _).trans (by rw [htraj])
        have e3 : ∀ q : Profile, MotionItem.optimize M c.overrides .maximizeSpeed c.buffer.getHead.traj q =
            q.plan j.r.trajectory.length c.overrides.feedOverride M.minLengthSProfile .maximizeSpeed := by
          intro q
          unfold MotionItem.optimize
          rw [if_pos htype, htraj]
        exact congrArg (fun p : Profile => ({ c.buffer.getHead with prof := p } : Motion M.kit))
          ((e3 _).trans (by rw [← e2]; rfl))
      rw [ex]; exact s2
  obtain ⟨j', f1, f2, f3⟩ := hfront
  rw [hst₁, ho₁] at o2
  obtain ⟨js, g1, g2, g3, g4⟩ := tail_jobs o2 hr
  have hsame : c₁.optimize.buffer.getHead.traj = c.buffer.getHead.traj := by
    rw [o3, hb]; split <;> rfl
  have htl := o1.level; have hmax := o1.max
  rw [e]
  refine ⟨j', js, f1, g1, g4, ⟨by rw [hss.state, hc₁], ⟨⟨o1.head, by rw [htl]; simp [g2], by simp [g2]; omega, ?_⟩, ?_, ?_⟩,
    by rw [hss.time, ht₁]; exact h.clock, by linarith [h.front.range.1, (stop_facts h.front.base h.front.plan).1], f1.later.le, ?_⟩,
    by rw [hss.ovr, ho₁], by rw [hss.events, hc₁]; rfl⟩
  · intro k hk
    cases k with
    | zero =>
      rw [Nat.add_zero, Nat.mod_eq_of_lt o1.head]
      exact f2
    | succ k =>
      rw [List.getElem_cons_succ]
      exact (g3 k (by simpa using hk)).1
  · rw [f3, le_fin]; simp
  · intro k hk
    exact (g3 k hk).2
  · intro axis ha
    have := h.near (.inr hm) axis ha
    rw [hss.pos, hsame, f1.request]
    have es : j'.S t = stopS i l t := by
      have := (f1.still t (by show i.doneT + l.duration ≤ t; rw [h.front.doneT]; exact ht.le) le_rfl).1
      rw [this]
      show stopS i l (i.doneT + l.duration) = _
      rw [stopS_after h.front.plan le_rfl, stopS_after h.front.plan (by rw [h.front.doneT]; exact ht.le)]
    rw [es]
    have hp : c₁.machinePosition = c.machinePosition := by rw [hc₁]; rfl
    rw [hp]; exact this

/-- The remaining way does not take longer than the whole one would. -/
theorem ExecSpec.Resumes.soon {M : Machine} {j : Job} {k : Brake} {u t : ℝ} {f : Num} {j' : Job} (h : Resumes M j k u t f j')
    (h0 : 0 ≤ k.S k.E) (hk : k.S k.E < j.L) {v a : ℝ} (hall : Allowed M j.r v a) (hf : (fin v).le f = true)
    (hva : v ^ 2 ≤ a * j.L) : j'.T ≤ t + 2 * j.L / v := by
  obtain ⟨D, hD⟩ : ∃ D, D = j.L - k.S k.E := ⟨_, rfl⟩
  have hD0 : 0 < D := by rw [hD]; linarith
  have hDL : D ≤ j.L := by rw [hD]; linarith
  have hL0 : 0 < j.L := by linarith
  have hb := h.brisk
  rw [← hD] at hb
  have hv := hall.v0; have ha := hall.a0
  by_cases hc : v ^ 2 ≤ a * D
  · have := hb v a hall hf hc
    have : j'.T - t ≤ 2 * j.L / v := by rw [le_div_iff₀ hv]; nlinarith
    linarith
  · rw [not_le] at hc
    obtain ⟨w, hw⟩ : ∃ w, w = √(a * D) := ⟨_, rfl⟩
    have hw0 : 0 < w := by rw [hw]; exact Real.sqrt_pos.2 (mul_pos ha hD0)
    have hw2 : w ^ 2 = a * D := by rw [hw]; exact Real.sq_sqrt (mul_pos ha hD0).le
    have hwv : w ≤ v := by nlinarith
    have hall' : Allowed M j.r w a := by
      refine ⟨hw0, ha, fun axis hx => ?_, hall.acc, hall.dec, fun axis hx hy => ?_⟩
      · exact (mul_le_mul_of_nonneg_right hwv (abs_nonneg _)).trans (hall.speed axis hx)
      · exact (pow_le_pow_left₀ hw0.le hwv 2).trans (hall.turn axis hx hy)
    have hf' : (fin w).le f = true := by
      revert hf
      cases f <;> simp [Num.le]
      intro; linarith
    have h1 := hb w a hall' hf' hw2.le
    have h2 : j'.T - t ≤ 2 * D / w := by rw [le_div_iff₀ hw0]; linarith
    have h3 : D / w ≤ j.L / v := by
      rw [div_le_div_iff₀ hw0 hv]
      -- `D v ≤ L w`, as `D² v² ≤ D² a L = D L w² ≤ L² w²`
      have : (D * v) ^ 2 ≤ (j.L * w) ^ 2 := by
        have k1 : D ^ 2 * v ^ 2 ≤ D ^ 2 * (a * j.L) := mul_le_mul_of_nonneg_left hva (by positivity)
        have k2 : D * (j.L * w ^ 2) ≤ j.L * (j.L * w ^ 2) := mul_le_mul_of_nonneg_right hDL (by positivity)
        rw [hw2] at k2
        rw [mul_pow, mul_pow, hw2]
        nlinarith
      exact le_of_sq_le_sq this (by positivity)
    have : 2 * D / w ≤ 2 * j.L / v := by
      rw [mul_div_assoc, mul_div_assoc]; linarith
    linarith

end Moovr
