import Verif.Lemmas.Kept
import Verif.Props.Restart
import Verif.Props.Replan
/-!
# `start()` while a motion accelerates (C123)

The position that is asked of the machine jumps.
-/
namespace Moovr.Props
open Num AccDec ExecSpec MotionCtrl MotionSpec

namespace ExecuteExample
open Example

/-- Any profile from rest to rest for the motion of 1 mm gives the same plan. -/
theorem plan_eq {p : Profile} (h1 : p.doneLength = fin 0) (h2 : p.doneDuration = fin 0) (h3 : p.left.vStart = fin 0)
    (h4 : p.right.vEnd = fin 0) (h5 : p.vFeed = fin 2) (h6 : p.vMax = fin 10) (h7 : p.aMax = fin 1) (h8 : p.dMax = fin (-1))
    (h9 : p.jMax = fin 1) : p.plan (fin 1) (fin 1) 0 .maximizeSpeed = plan := by
  have hmax : Profile.vTri (fin 0) (fin 0) (fin 1) (fin (-1)) (fin 1 - fin 0) .maximizeSpeed = fin 1 := by
    simp only [Profile.vTri, fin_mul, fin_sub]
    rw [fin_div (by norm_num), sqrt_fin (by norm_num)]
    norm_num
  have hmin : Profile.vTri (fin 0) (fin 0) (fin 1) (fin (-1)) (fin 1 - fin 0) .minimizeSpeed = fin 0 := by
    simp only [Profile.vTri, fin_mul, fin_sub, fin_add, le_fin]
    norm_num
  have hc : p.chooseSpeed (fin 1) (fin 1) 0 .maximizeSpeed = (fin 1, .firstOrder) := by
    unfold Profile.chooseSpeed
    simp only [h1, h3, h4, h5, h6, h7, h8, hmax, hmin, fin_mul, lt_fin]
    norm_num
  unfold Profile.plan
  rw [hc]
  simp only [Profile.setPhases, Profile.finish, AccDec.calculate, AccDec.calculateFirst, AccDec.setMax, AccDec.setvStart,
    AccDec.setvEnd, Cruise.set, Cruise.zero, h1, h2, h3, h4, h5, h6, h7, h8, h9, arith_lt_fin, lt_real, lit_real, arith_lit, lt_fin,
    fin_sub, fin_add, fin_mul, plan, up, down, toNum, eq_fin]
  norm_num [fin_div, fin_sub, fin_add, fin_mul, eq_fin, lt_fin, lt_real, lit_real]

/-- The motion of 1 mm, appended to a controller at rest and then started. -/
theorem plan_again : ((MotionItem.setProfile machine (.zero 1) .zero request ⟨fin 1, fin 1⟩ .minimizeSpeed).rebase (fin 0)).plan
    (fin 1) (fin 1) 0 .maximizeSpeed = plan := by
  have e0 : MotionItem.setProfile machine (.zero 1) .zero request ⟨fin 1, fin 1⟩ .minimizeSpeed =
      (reqProfile machine .zero request).plan (fin 1) (fin 1) 0 .minimizeSpeed := Moovr.setProfile_eq rfl _ _ _ _
  have key : ∀ q : Profile, q.doneLength = fin 0 → q.doneDuration = fin 0 → q.v (fin 0) = fin 0 → q.right.vEnd = fin 0 →
      q.vFeed = fin 2 → q.vMax = fin 10 → q.aMax = fin 1 → q.dMax = fin (-1) → q.jMax = fin 1 →
      (q.rebase (fin 0)).plan (fin 1) (fin 1) 0 .maximizeSpeed = plan := by
    intro q h1 h2 h3 h4 h5 h6 h7 h8 h9
    refine plan_eq ?_ rfl h3 h4 h5 h6 h7 h8 h9
    have h0 : (fin 0).le q.doneDuration = true := by rw [h2, le_fin]; simp
    rw [Profile.rebase_s (Or.inl h0)]
    unfold Profile.s
    rw [if_pos h0, h1]
  obtain ⟨i, hr⟩ := rest_request machine_ok request_moves .zero
  have hfeed : ((reqProfile machine .zero request).vFeed * fin 1).NonNeg := by
    rw [reqProfile_eq]; show (fin 2 * fin 1).NonNeg; rw [fin_mul]; norm_num [Num.NonNeg]
  obtain ⟨l, rr, w, m, hp, -, -, -, ef, ev⟩ := plan_planned hr.of hr.feasible (feedOverride := fin 1) hfeed hr.vMax.nonNeg
    machine.minLengthSProfile .minimizeSpeed
  rw [e0]
  have hl0 := hp.lOk.good.dur_nonneg
  have ho := hr.of
  rw [reqProfile_eq] at ho
  refine key _ (hp.doneL.trans (by rw [hr.doneL])) (hp.doneT.trans (by rw [hr.doneT])) ?_ ?_ (ef.trans (by rw [reqProfile_eq]))
    (ev.trans (by rw [reqProfile_eq])) (hp.a.trans ho.a.symm) (hp.d.trans ho.d.symm) (hp.j.trans ho.j.symm)
  · refine (hp.v_left (t := 0) (by rw [hr.doneT]; linarith)).trans ?_
    rw [hr.doneT, if_pos le_rfl, hr.vS]
  · refine (congrArg AccDec.vEnd hp.right).trans ?_
    show fin rr.vEnd = _
    rw [hp.rOk.vEnd, hr.vE]

/-- The plan of a motion alone in the queue when `start()` is called. -/
theorem start_plan {c : MotionCtrl machine.kit} (hl : c.buffer.level = 1) :
    c.start.buffer.getHead.prof = MotionItem.optimizeAt machine c.overrides .maximizeSpeed c.time.timeInMotion
      c.buffer.getHead.traj c.buffer.getHead.prof ∧ c.start.buffer.getHead.traj = c.buffer.getHead.traj ∧
    c.start.buffer.head = c.buffer.head ∧ c.start.buffer.level = 1 ∧ c.start.time = c.time := by
  have hemp : (!c.buffer.isEmpty) = true := by simp [MotionBuffer.isEmpty, hl]
  unfold start
  rw [if_pos hemp]
  unfold optimize
  have e1 : ({ c.pushEvent .motionStarted with state := .running } : MotionCtrl machine.kit).buffer.level = 1 := hl
  rw [if_neg (by rw [e1]; decide), if_pos e1]
  simp only [MotionBuffer.getHead, MotionBuffer.updProf, pushEvent, strategy, if_true]
  exact ⟨rfl, trivial, trivial, hl, trivial⟩

theorem kept_calculate {P : Motion machine.kit → Prop} : ∀ (n : Nat) {c c' : MotionCtrl machine.kit} {log}, Kept P c →
    c.run (List.replicate n .calculate) = some (c', log) → Kept P c' := by
  intro n
  induction n with
  | zero =>
    intro c c' log h hrun
    simp only [List.replicate_zero, run, Option.some.injEq, Prod.mk.injEq] at hrun
    obtain ⟨rfl, -⟩ := hrun
    exact h
  | succ n ih =>
    intro c c' log h hrun
    rw [List.replicate_succ, run] at hrun
    split at hrun
    · simp at hrun
    · rename_i c₁ x hx
      simp only [Option.map_eq_some_iff, Prod.exists, Prod.mk.injEq] at hrun
      obtain ⟨c₂, l, h1, rfl, -⟩ := hrun
      refine ih ?_ h1
      simp only [call, calcNext, Option.map_eq_some_iff, Prod.exists, Prod.mk.injEq] at hx
      obtain ⟨c₀, e, ts, h2, rfl, -⟩ := hx
      exact h.calcLoop _ h2

/-- **C123** is violated when `start()` is called during the acceleration: the motion of 1 mm, with 8000 ticks per second. After half
a second the machine is to be at 0.125 mm; when `start()` has been called it is to be at 0.375 mm, at the same instant. -/
theorem adapts_violated : ∃ c log, (fresh machine.kit).run ([.configure 1 (fin (1 / 8000))] ++
      (([request].map (push machine) ++ [.start]) ++ List.replicate 4000 .calculate)) = some (c, log) ∧
    c.state = .running ∧ c.time.timeInMotion = fin (1 / 2) ∧ c.start.time.timeInMotion = fin (1 / 2) ∧
    c.buffer.getHead.prof.s (fin (1 / 2)) = fin (1 / 8) ∧ c.start.buffer.getHead.prof.s (fin (1 / 2)) = fin (3 / 8) := by
  obtain ⟨c₀, log, hrun, -⟩ := motion_history_returns (K := machine.kit)
    ([.configure 1 (fin (1 / 8000))] ++ (([request].map (push machine) ++ [.start]) ++ List.replicate 4000 .calculate))
  refine ⟨c₀, log, hrun, ?_⟩
  obtain ⟨cc, l₁, l₂, h1, h2, -⟩ := run_split (K := machine.kit) _ _ hrun
  obtain ⟨cs, l₃, l₄, h3, h4, -⟩ := run_split (K := machine.kit) _ _ h2
  simp only [run, call, Option.map_some, Option.some.injEq, Prod.mk.injEq] at h1
  obtain ⟨rfl, -⟩ := h1
  have hfeed : (fresh machine.kit |>.configure 1 (fin (1 / 8000))).overrides.feedOverride = fin 1 := rfl
  have hpos : (fresh machine.kit |>.configure 1 (fin (1 / 8000))).machinePosition = fun _ => 0 := rfl
  have hprog : ∀ n, program (M := machine) (fin 1) [request] (List.replicate n .calculate) = [(request, request.vFeed * fin 1)] := by
    intro n
    show [(request, request.vFeed * fin 1)] ++ requested (M := machine) _ _ = _
    rw [requested_calculate]; rfl
  have hf1 : request.vFeed * fin 1 = fin 2 := by show fin 2 * fin 1 = _; rw [fin_mul, mul_one]
  have hp : Performs machine (1 / 8000) (fun _ => 0) ((fresh machine.kit).configure 1 (fin (1 / 8000))) [request]
      (List.replicate 4000 .calculate) c₀ l₄ := by
    refine ⟨machine_ok, ⟨by norm_num, by norm_num [machine], fun _ _ => by norm_num [machine],
      fun _ _ => by norm_num [travel, machine]⟩, idle_configured machine 1 (1 / 8000), by simp, by simp,
      by simpa using executable_request, ?_, ?_, ⟨cs, l₃, h3, feeds_calculate _ _, h4⟩, ?_, ?_⟩
    · intro r hr
      rw [List.mem_singleton.1 hr, hfeed, hf1]; norm_num [Num.Pos]
    · intro axis ha; rw [hpos]; norm_num [machine, travel]
    · rw [hfeed, hprog]
      exact ⟨fun axis ha => by rw [far_axis axis ha]; exact place_request 0, trivial⟩
    · rw [hfeed]
      intro x hx
      rw [hprog, List.mem_singleton] at hx
      rw [hx]
      exact ⟨long (.inl rfl) (by norm_num), brief (.inl rfl) (by norm_num), reachable (.inl rfl)⟩
  have o₁ : OneTick (K := machine.kit) ⟨fin 1, fin 1⟩ ((fresh machine.kit).configure 1 (fin (1 / 8000))) :=
    ⟨⟨rfl, by show 1 % 4294967296 < 4294967296; norm_num⟩, rfl, rfl⟩
  have e3 : cs = (((fresh machine.kit).configure 1 (fin (1 / 8000))).append request).start := by
    simp only [List.map_cons, List.map_nil, List.cons_append, List.nil_append, push, run, call, Option.map_some,
      Option.some.injEq, Prod.mk.injEq] at h3
    exact h3.1.symm
  have o₂ := (o₁.append request).start
  rw [← e3] at o₂
  obtain ⟨n₀, o₃⟩ := o₂.run _ h4
  have n₀' : ((ticksOf l₄).length : ℝ) * (1 / 8000) = 1 / 2 := by rw [n₀]; norm_num
  -- the motion
  have hM := hp.machine
  have hm := hp.follow
  have hpos' : ∀ axis, axis < machine.n → 0 ≤ travel machine (1 / 8000) axis := fun axis ha =>
    mul_nonneg (mul_nonneg (hM.vMax axis ha).le hm.width.le) (hm.steps axis ha)
  have hs : Suited machine (1 / 8000) (travel machine (1 / 8000)) := ⟨hm.width, hm.hysteresis, hm.steps, hpos', fun axis ha => le_rfl,
    fun axis ha => by have := hm.rate axis ha; unfold Machine.perTick; unfold travel at this ⊢; linarith⟩
  obtain ⟨-, js, j1, j2, -, -, -, j5⟩ := executed hM hs hp.idle hp.some hp.fit hp.executable hp.feed hp.near h3 (feeds_calculate _ _) h4
  rw [hfeed, hprog] at j1
  obtain ⟨j, rfl⟩ : ∃ j, js = [j] := List.length_eq_one_iff.1 (by simpa using congrArg List.length j1)
  simp only [List.map_cons, List.map_nil, List.cons.injEq, Prod.mk.injEq, and_true] at j1
  obtain ⟨hr, hf⟩ := j1
  have hok := j2 j List.mem_cons_self
  have hex := j5 ⟨fun a ha => by
      rw [List.mem_singleton.1 ha]
      have := hp.motions (j.r, j.f) (by rw [hfeed, hprog, hr, hf]; exact List.mem_singleton.2 rfl)
      exact ⟨Job.short_of hok this.2.1, this.2.2⟩, by
      have := hp.connected
      rw [hfeed, hprog] at this
      simpa [hr] using this, .inr ⟨fun _ _ => rfl, fun a ha => by
      rw [List.mem_singleton.1 ha]
      have := hp.motions (j.r, j.f) (by rw [hfeed, hprog, hr, hf]; exact List.mem_singleton.2 rfl)
      exact Job.long_of hok.toSound this.1⟩⟩
  rw [hf1] at hf
  obtain ⟨hL, hT, hS, hV⟩ := request_law hok hr hf
  rw [n₀'] at hex
  have hrest : rest [j] (1 / 2) = ([j], 1 / 2) := by unfold rest; rw [if_pos (by rw [hT]; norm_num)]
  unfold Exec at hex
  rw [hrest] at hex
  simp only at hex
  have hnow := hex.clock.now
  have hlev : c₀.buffer.level = 1 := hex.queue.level
  -- the plan
  obtain ⟨ca, hca⟩ : ∃ ca, ca = ((fresh machine.kit).configure 1 (fin (1 / 8000))).append request := ⟨_, rfl⟩
  have a1 : ca.buffer.level = 1 ∧ ca.buffer.head = 0 := by rw [hca]; exact ⟨rfl, rfl⟩
  have a2 : ca.buffer.getHead.prof = MotionItem.setProfile machine (.zero 1) .zero request ⟨fin 1, fin 1⟩ .minimizeSpeed := by
    rw [hca]; rfl
  have a3 : ca.buffer.getHead.traj.type.moves = true ∧ ca.buffer.getHead.traj.trajectory.length = fin 1 := by
    rw [hca]; exact ⟨rfl, rfl⟩
  have a4 : ca.overrides = (⟨fin 1, fin 1⟩ : Overrides) ∧ ca.time.timeInMotion = fin 0 := by
    rw [hca]; exact ⟨rfl, rfl⟩
  obtain ⟨b1, b2, b3, b4, -⟩ := start_plan a1.1
  rw [← hca] at e3
  rw [← e3] at b1 b2 b3 b4
  have b1' : cs.buffer.getHead.prof = plan := by
    refine b1.trans ((optimizeAt_eq (M := machine) a3.1 _ _).trans ?_)
    have e1 : (ca.overrides : Overrides).feedOverride = fin 1 := by rw [a4.1]
    exact (congrArg₂ (fun (p : Profile) (t : Num) => (p.rebase t).plan ca.buffer.getHead.traj.trajectory.length
      (ca.overrides : Overrides).feedOverride machine.minLengthSProfile .maximizeSpeed) a2 a4.2).trans (by
        rw [a3.2, e1]; exact plan_again)
  have hk : Kept (K := machine.kit) (fun x => x.prof = plan ∧ x.traj.type.moves = true ∧ x.traj.trajectory.length = fin 1) cs := by
    refine ⟨⟨by rw [b3, a1.2]; decide, by rw [b4]; decide, fun _ => by rw [b4]⟩, fun k hk => ?_⟩
    have e : (cs.buffer.head + k) % 32 = cs.buffer.head := by rw [b3, a1.2]; rw [b4] at hk; omega
    rw [e]
    exact ⟨b1', by rw [show (cs.buffer.cells cs.buffer.head).traj = ca.buffer.getHead.traj from b2]; exact a3⟩
  have hk' := kept_calculate _ hk h4
  have := hk'.2 0 (by omega)
  rw [Nat.add_zero, Nat.mod_eq_of_lt hk'.1.head] at this
  obtain ⟨k1, k2, k3⟩ : c₀.buffer.getHead.prof = plan ∧ c₀.buffer.getHead.traj.type.moves = true ∧
    c₀.buffer.getHead.traj.trajectory.length = fin 1 := this
  obtain ⟨d1, -, -, -, d5⟩ := start_plan hlev
  refine ⟨hex.state, hnow, by rw [d5]; exact hnow, ?_, ?_⟩
  · rw [k1, (example_at (1 / 2) (by norm_num) (by norm_num)).1]; norm_num
  · have e : Profile.s c₀.start.buffer.getHead.prof (fin (1 / 2)) = Profile.s ((plan.rebase (fin (1 / 2))).plan
        c₀.buffer.getHead.traj.trajectory.length c₀.overrides.feedOverride machine.minLengthSProfile .maximizeSpeed) (fin (1 / 2)) :=
      congrArg (fun p : Profile => p.s (fin (1 / 2))) (d1.trans ((optimizeAt_eq (M := machine) k2 _ _).trans
        (congrArg₂ (fun (p : Profile) (t : Num) => (p.rebase t).plan c₀.buffer.getHead.traj.trajectory.length
          (c₀.overrides : Overrides).feedOverride machine.minLengthSProfile .maximizeSpeed) k1 hnow)))
    rw [e]
    have hv := (example_at (1 / 2) (by norm_num) (by norm_num)).2
    have hd : (plan.rebase (fin (1 / 2))).doneLength = fin (3 / 8) := by
      unfold Profile.rebase
      simp only [hv]
      have e : plan.left.setvStart (fin (1 / 2)) = { up with vStart := 1 / 2 }.toNum := rfl
      rw [e]
      unfold Profile.s
      simp only [plan, le_fin, toNum_duration, toNum_s, fin_sub, fin_add, up]
      norm_num [AccDec.s]
    have hq : ∀ (p : Profile) (a b : Num) (m : ℝ) (st : Strategy), (p.plan a b m st).doneLength = p.doneLength ∧
        (p.plan a b m st).doneDuration = p.doneDuration := by
      intro p a b m st
      unfold Profile.plan
      simp only
      split <;> exact ⟨rfl, rfl⟩
    obtain ⟨q1, q2⟩ := hq (plan.rebase (fin (1 / 2))) c₀.buffer.getHead.traj.trajectory.length c₀.overrides.feedOverride
      machine.minLengthSProfile .maximizeSpeed
    rw [hd] at q1
    unfold Profile.s
    rw [q2, q1]
    simp [Profile.rebase, le_fin]

end ExecuteExample
end Moovr.Props
