import Verif.Lemmas.HomingOwn
import Verif.Props.HomingSingle
/-!
# Property C120: homing steps one axis at a time, in single precision

The whole main program on a machine with `float` arithmetic in the motion controller: no tick has a step on an axis other than the one
of the homing move that was ordered last, also while the controller brakes.
-/
namespace Moovr.Props
open Num Float32 MotionSpec HomingSpec
open Single (num ofNum)

/-! ## Proof -/

/-- Only the axis of a homing move takes part in it. -/
theorem homingRequest32_still {M : Machine} {m : HomingMove} (ho : m.offset ≠ 0) (x : Path32) {i : Nat} (hi : i < M.n)
    (h : i ≠ m.axis) : (MotionItem32.setPath x (M.homingRequest32 m)).trajectory.isMoving i = false := by
  have hr : |(m.offset : ℝ)| ≠ 0 := abs_ne_zero.2 (by exact_mod_cast ho)
  have h1 : (Trajectory32.ofReq (M.homingRequest32 m).trajectory).deltaRealTime i = ofNum (fin 0 / fin |(m.offset : ℝ)|) := by
    show (if i = M.n ∨ i = M.n then _ else ofNum ((if i = m.axis then fin m.offset else fin 0) / fin |(m.offset : ℝ)|)) = _
    rw [if_neg (by omega), if_neg h]
  show (Trajectory32.ofReq (M.homingRequest32 m).trajectory).isMoving i = false
  unfold Trajectory32.isMoving
  rw [h1, fin_div hr, zero_div, show ofNum (fin 0) = num (rnd 0) from rfl, rnd_zero, Single.eq_num]
  simp

/-- For any motion arithmetic: where the schedule is orderly, a step is on the axis of the move that homing has ordered last, if only
that axis takes part in the motion that is made from it. -/
theorem homing_steps {K : MotionKit} (t : Target K) (p : Ports) (rounds : List Round) {b : Board K} (h : Board.run t p rounds = some b)
    (ho : Board.Orderly t (Board.setup t p) rounds) {i : Nat}
    (hstill : ∀ m ∈ orders b.acts, i ≠ m.axis → ∀ x q, K.isMoving (K.setTraj x q (t.request m)) i = false)
    {n : Nat} {c : MotionCtrl K} {log} (hrun : b.ctrl.run (List.replicate n .calculate) = some (c, log)) {k} (hk : k ∈ ticksOf log)
    (hstep : k.cmd i ≠ none) : ∃ m, (orders b.acts).getLast? = some m ∧ i = m.axis := by
  have hinv := Board.loops_phase _ rounds (Board.setup_phase _ p).1 ho h
  have hown := Board.loops_owned _ rounds (Board.setup_owned t p) h
  have hstop : b.ctrl.state ≠ .stopped := by
    intro hs
    refine hstep ((MotionCtrl.run_each (P := fun c => c.state = .stopped) (Q := fun t => t.cmd i = none) (fun _ _ h => h)
      (fun c c' t h ht => ?_) n hs hrun).2 k hk)
    have : c.tick = some ({ c with signals := c.signals.next }, ⟨fun _ => none, [], none⟩) := by
      unfold MotionCtrl.tick; simp [MotionCtrl.isRunning, h]
    rw [this] at ht
    simp only [Option.some.injEq, Prod.mk.injEq] at ht
    obtain ⟨rfl, rfl⟩ := ht
    exact ⟨h, rfl⟩
  have hlev := (Board.phase_level hinv.phase).resolve_left hstop
  obtain ⟨hq, -⟩ := homing_queue_partial _ p rounds h ho
  have hone : b.ctrl.requests = [b.ctrl.buffer.getHead.request] := by
    unfold MotionCtrl.requests
    rw [hlev]
    have := hown.head
    simp [Ring.contents, MotionBuffer.getHead, Nat.mod_eq_of_lt this]
  rcases hq with hq | ⟨m, hm, hq⟩
  · rw [hone] at hq; cases hq
  · refine ⟨m, hm, ?_⟩
    by_contra hia
    refine hstep ?_
    have hmov : K.isMoving b.ctrl.buffer.getHead.traj i = false := by
      rw [hone] at hq
      obtain ⟨x, q, hx⟩ := hown.queue b.ctrl.buffer.head (t.request m) (List.head_eq_of_cons_eq hq)
      unfold MotionBuffer.getHead
      rw [hx]
      exact hstill m (List.mem_of_getLast? hm) hia x q
    exact MotionCtrl.single_still hlev hmov (fun _ => rfl) hrun k hk

/-! ## C120 -/

/-- **C120, where the schedule is orderly.** After any history of the main program, whatever the number of calculations that follow: a
tick with a step on an axis steps the axis of the move that homing has ordered last. Missing: schedules that are not orderly (as C77). -/
theorem homing_one_step_single_partial {M : Machine} (fpu : Fpu) {cfg : HomingConfig} (hc : ConfigOk M cfg) (maxTicks : Nat)
    (width : Single) (p : Ports) (rounds : List Round) {b : Board (M.kit32 fpu)}
    (h : Board.run (M.target32 fpu cfg maxTicks width) p rounds = some b)
    (ho : Board.Orderly (M.target32 fpu cfg maxTicks width) (Board.setup (M.target32 fpu cfg maxTicks width) p) rounds)
    {n : Nat} {c : MotionCtrl (M.kit32 fpu)} {log} (hrun : b.ctrl.run (List.replicate n .calculate) = some (c, log))
    {k} (hk : k ∈ ticksOf log) {i : Nat} (hi : i < M.n) (hstep : k.cmd i ≠ none) :
    ∃ m, (orders b.acts).getLast? = some m ∧ i = m.axis :=
  homing_steps _ p rounds h ho (fun m hm hne x _ =>
    homingRequest32_still (orders_ok (M.target32 fpu cfg maxTicks width) hc p rounds h hm).2.1 x hi hne) hrun hk hstep

/-- **C120, the position counters.** If in an iteration the position of an axis changes, then it is the axis of the move that homing has
ordered last. Missing: as above. -/
theorem homing_one_axis_single_partial {M : Machine} (fpu : Fpu) {cfg : HomingConfig} (hc : ConfigOk M cfg) (maxTicks : Nat)
    (width : Single) (p : Ports) (rounds : List Round) {r : Round} {b b' : Board (M.kit32 fpu)}
    (h : Board.run (M.target32 fpu cfg maxTicks width) p rounds = some b)
    (ho : Board.Orderly (M.target32 fpu cfg maxTicks width) (Board.setup (M.target32 fpu cfg maxTicks width) p) rounds)
    (hl : b.loop (M.target32 fpu cfg maxTicks width) r = some b') {i : Nat} (hi : i < M.n)
    (hne : b'.ctrl.machinePosition i ≠ b.ctrl.machinePosition i) : ∃ m, (orders b.acts).getLast? = some m ∧ i = m.axis := by
  obtain ⟨b₁, hb₁, hpos⟩ := loop_position _ hl
  obtain ⟨log, hlog⟩ := Board.fill_run _ hb₁
  rw [hpos, calculates_position _ i hlog] at hne
  by_contra hno
  refine hne ?_
  rw [net_zero fun k hk => ?_, add_zero]
  by_contra hstep
  exact hno (homing_one_step_single_partial fpu hc maxTicks width p rounds h ho hlog hk hi hstep)

/-- The same of the exact arithmetic: C87 for each tick. -/
theorem homing_one_step_partial {M : Machine} {cfg : HomingConfig} (hc : ConfigOk M cfg) (maxTicks : Nat) (width : Num) (p : Ports)
    (rounds : List Round) {b : Board M.kit} (h : Board.run (M.target cfg maxTicks width) p rounds = some b)
    (ho : Board.Orderly (M.target cfg maxTicks width) (Board.setup (M.target cfg maxTicks width) p) rounds)
    {n : Nat} {c : MotionCtrl M.kit} {log} (hrun : b.ctrl.run (List.replicate n .calculate) = some (c, log))
    {k} (hk : k ∈ ticksOf log) {i : Nat} (hi : i < M.n) (hstep : k.cmd i ≠ none) :
    ∃ m, (orders b.acts).getLast? = some m ∧ i = m.axis :=
  homing_steps _ p rounds h ho (fun m hm hne x _ =>
    homingRequest_still (orders_ok (M.target cfg maxTicks width) hc p rounds h hm).2.1 (x := x) hi hne) hrun hk hstep

/-- The shipped program after the first iterations, with the move of the Z axis ordered last (as at the start when all switches are open,
see the example of HomingReal): however many calculations follow, X and Y make no step. -/
example (fpu : Fpu) (p : Ports) (rounds : List Round) {b : Board (cnc3axis32.kit32 fpu)} (h : Board.run (shippedTarget32 fpu) p rounds = some b)
    (ho : Board.Orderly (shippedTarget32 fpu) (Board.setup (shippedTarget32 fpu) p) rounds) {m : HomingMove}
    (hm : (orders b.acts).getLast? = some m) (e : m.axis = 2) {n : Nat} {c log}
    (hrun : b.ctrl.run (List.replicate n .calculate) = some (c, log)) : ∀ k ∈ ticksOf log, k.cmd 0 = none ∧ k.cmd 1 = none := by
  have key : ∀ i, i < 3 → i ≠ 2 → ∀ k ∈ ticksOf log, k.cmd i = none := by
    intro i hi h2 k hk
    by_contra hstep
    obtain ⟨m', hm', rfl⟩ := homing_one_step_single_partial (M := cnc3axis32) fpu
      (cfg := .cnc3axis) ⟨rfl, by decide, cnc3axis_config.sMax, cnc3axis_config.offset, cnc3axis_config.fast, cnc3axis_config.slow⟩
      375 (num width32) p rounds h ho hrun hk hi hstep
    rw [hm, Option.some.injEq] at hm'
    subst hm'
    exact h2 e
  exact fun k hk => ⟨key 0 (by decide) (by decide) k hk, key 1 (by decide) (by decide) k hk⟩

end Moovr.Props
