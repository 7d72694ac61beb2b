import Verif.Lemmas.HomingReal
import Verif.Props.GCodeExecute
import Verif.Props.MainHistory
import Verif.Props.HomingMotion
/-!
# Homing moves on the real machine (C86, C87)

The whole main program (`Verif.Model.MainLoop`) with the real arithmetic of planner, clock and step decisions: what the axes do when
homing orders a move.
-/
namespace Moovr.Props
open Num ExecSpec HomingSpec MotionSpec
open MotionCtrl (Steady Single Faithful)

/-- After time `t` the controller makes, or has made, the homing move `m`: the axis of the move goes straight, in the ordered
direction, from the position at which it was ordered; `j` says how far it is at each time (`Job.Ok`: from rest to rest, within all
limits of the machine, without detour) and that the distance is the ordered one and the speed never higher than ordered; it takes
at most twice as long as at any constant speed that is allowed and can be reached; no other axis has made any step. -/
structure MakesMove (M : Machine) (δ : ℝ) (m : HomingMove) (j : Job) (t : ℝ) (c : MotionCtrl M.kit) : Prop where
  job : j.Ok M
  distance : j.L = |(m.offset : ℝ)|
  speed : ∀ a b, 0 ≤ a → a ≤ b → b ≤ j.T → j.S b - j.S a ≤ m.speed * (b - a)
  quick : ∀ v a : ℝ, 0 < v → v ≤ m.speed → v ≤ M.vMax m.axis → 0 < a → a ≤ M.aMax m.axis → a ≤ -M.dMax m.axis →
    v ^ 2 ≤ a * |(m.offset : ℝ)| → v * j.T ≤ 2 * |(m.offset : ℝ)|
  path : ∀ i, i < M.n → ∀ s, place j.r i s =
    m.position i / M.stepsPerMm i + (if i = m.axis then (m.offset : ℝ) / |(m.offset : ℝ)| * s else 0)
  follows : Executes M δ (fun i => m.position i / M.stepsPerMm i) [j] t c
  others : ∀ i, i < M.n → i ≠ m.axis → c.machinePosition i = m.position i

/-- A homing move that a machine can make: an existing axis, some distance, some speed; all positions fit the counter and the time
fits the counter of ticks. -/
structure Makeable (M : Machine) (δ : ℝ) (m : HomingMove) : Prop where
  axis : m.axis < M.n
  distance : m.offset ≠ 0
  speed : 0 < m.speed
  reachable : Reachable M (M.homingRequest m)
  brief : Brief M δ (M.homingRequest m) (fin m.speed)

/-- The distance and the speed that are configured for homing make sense, and the axes are the ones of the machine. -/
structure ConfigOk (M : Machine) (cfg : HomingConfig) : Prop where
  n : cfg.n = M.n
  three : cfg.n ≤ 3
  sMax : ∀ a, a < cfg.n → cfg.sMax a ≠ 0
  offset : ∀ a, a < cfg.n → cfg.homingOffset a ≠ 0
  fast : 0 < cfg.vHoming
  slow : 0 < cfg.vHomingSlow

/-! ## Proof -/

/-- Only the axis of a homing move takes part in it. -/
theorem homingRequest_direction {M : Machine} {m : HomingMove} (hd : m.offset ≠ 0) {i : Nat} (hi : i < M.n) :
    |(M.homingRequest m).direction i| = if i = m.axis then 1 else 0 := by
  unfold SimplifiedMotion.direction
  have a0 : (M.homingRequest m).trajectory.arcAxis0 = M.n := rfl
  have a1 : (M.homingRequest m).trajectory.arcAxis1 = M.n := rfl
  have h2 : (M.homingRequest m).trajectory.length = fin |(m.offset : ℝ)| := rfl
  have h3 : (M.homingRequest m).trajectory.delta i = if i = m.axis then fin m.offset else fin 0 := rfl
  have hne : |(m.offset : ℝ)| ≠ 0 := by rw [abs_ne_zero]; exact_mod_cast hd
  rw [if_neg (by omega), h2, h3]
  split_ifs with h
  · simp only; rw [abs_div, abs_abs, div_self hne]
  · simp

/-- A move ordered at standstill. -/
theorem order_executed {M : Machine} (hM : M.Ok) {δ : ℝ} (hf : CanFollow M δ 1) (hsteps : ∀ i, i < M.n → 0 < M.stepsPerMm i)
    {c : MotionCtrl M.kit} (hs : c.state = .stopped) (hc : Steady (fin δ) c) {m : HomingMove} (hm : Makeable M δ m)
    (hpos : m.position = c.machinePosition) {n : Nat} {c' : MotionCtrl M.kit} {log}
    (h : ((c.flushMotionBuffer.append (M.homingRequest m)).start).run (List.replicate n .calculate) = some (c', log)) :
    ∃ (j : Job) (ticks : Nat), n ≤ ticks ∧ MakesMove M δ m j (ticks * δ) c' := by
  have hr := homingRequest_executable hsteps hm.axis hm.distance
  have hfl : c.flushMotionBuffer = { c with time := c.time.reinit, buffer := c.buffer.flush } := by
    unfold MotionCtrl.flushMotionBuffer
    rw [if_pos (by simp [MotionCtrl.isRunning, hs])]
  have hidle : Idle M δ c.flushMotionBuffer := by
    rw [hfl]
    exact ⟨hs, rfl, by simp [MotionBuffer.flush], hc.width, rfl, rfl, rfl⟩
  have hovr : c.flushMotionBuffer.overrides.feedOverride = fin 1 := by rw [hfl]; exact hc.ovr
  have hmp : c.flushMotionBuffer.machinePosition = m.position := by rw [hfl, hpos]
  have hv : (M.homingRequest m).vFeed * c.flushMotionBuffer.overrides.feedOverride = fin m.speed := by
    rw [hovr]
    show fin m.speed * fin 1 = _
    simp
  have hvpos : (0 : ℝ) < m.speed := by exact_mod_cast hm.speed
  have hrun : c.flushMotionBuffer.run (push M (M.homingRequest m) :: .start :: List.replicate n .calculate) =
      some (c', (push M (M.homingRequest m), ⟨(c.flushMotionBuffer.append (M.homingRequest m)).events.drop c.flushMotionBuffer.events.length, none, []⟩) ::
        (.start, ⟨(c.flushMotionBuffer.append (M.homingRequest m)).start.events.drop
          (c.flushMotionBuffer.append (M.homingRequest m)).events.length, none, []⟩) :: log) := by
    rw [MotionCtrl.run]
    simp only [push, MotionCtrl.call]
    rw [MotionCtrl.run]
    simp only [MotionCtrl.call, h, Option.map_some]
  obtain ⟨j, j1, j2, j3, j4, -⟩ := motion_executed hM hf hidle hr (by rw [hv]; exact hvpos) (fun i hi => by
      rw [homingRequest_place hsteps hi, hmp]
      have : (m.position i / M.stepsPerMm i + if i = m.axis then (m.offset : ℝ) / |(m.offset : ℝ)| * 0 else 0) * M.stepsPerMm i -
          (m.position i : ℝ) = 0 := by
        have := (hsteps i hi).ne'
        split <;> field_simp <;> simp
      rw [this]
      have := hf.hysteresis
      simp
      linarith) hm.reachable (by rw [hv]; exact hm.brief) hrun
  have hge := (MotionCtrl.run_inv (P := fun _ _ => True) (fun _ _ _ _ => trivial) (fun _ _ _ _ _ _ => trivial) n (k := 0) trivial h).2
  have hL : j.L = |(m.offset : ℝ)| := by unfold Job.L; rw [j1]; rfl
  refine ⟨j, (ticksOf log).length, hge, j3, hL, ?_, ?_, ?_, ?_, ?_⟩
  · exact j3.feed _ (j2.trans hv)
  · intro v a v0 v1 v2 a0 a1 a2 hva
    rw [← hL] at hva ⊢
    refine j3.brisk v a ⟨v0, a0, ?_, ?_, ?_, fun i hi h => ?_⟩ (by rw [j2, hv, le_fin, decide_eq_true_eq]; exact v1) hva
    · intro i hi
      rw [j1, homingRequest_direction hm.distance hi]
      split
      · rename_i e; rw [e, mul_one]; exact v2
      · rw [mul_zero]; exact (hM.vMax i hi).le
    · intro i hi
      rw [j1, homingRequest_direction hm.distance hi]
      split
      · rename_i e; rw [e, mul_one]; exact a1
      · rw [mul_zero]; exact (hM.aMax i hi).le
    · intro i hi
      rw [j1, homingRequest_direction hm.distance hi]
      split
      · rename_i e; rw [e, mul_one]; exact a2
      · rw [mul_zero]; have := hM.dMax i hi; linarith
    · rw [j1] at h
      have b0 : (M.homingRequest m).trajectory.arcAxis0 = M.n := rfl
      have b1 : (M.homingRequest m).trajectory.arcAxis1 = M.n := rfl
      omega
  · intro i hi s; rw [j1]; exact homingRequest_place hsteps hi s
  · have ht : ∀ (x y : MCall M × Ret (Option M.kit.Req)), x.2.ticks = [] → y.2.ticks = [] →
        ticksOf (x :: y :: log) = ticksOf log := by
      intro x y hx hy
      simp [ticksOf, hx, hy]
    rw [ht _ _ rfl rfl] at j4
    refine ⟨j4.running, j4.done, fun i hi => ?_⟩
    have := j4.near i hi
    simp only [placeAt] at this ⊢
    exact this
  · intro i hi hne
    have hsame := MotionCtrl.sameButProf_optimize
      { (c.flushMotionBuffer.append (M.homingRequest m)).pushEvent .motionStarted with state := .running }
    have happ : c.flushMotionBuffer.append (M.homingRequest m) = { c.flushMotionBuffer with
        buffer := { cells := fun j => if j = 0 then ⟨some (M.homingRequest m), MotionItem.setPath (c.buffer.cells 0).traj (M.homingRequest m),
          MotionItem.setProfile M (c.buffer.cells 0).traj (c.buffer.cells 0).prof (M.homingRequest m) c.overrides c.flushMotionBuffer.strategy⟩ else c.buffer.cells j
                    head := 0, level := 1 } } := by
      rw [hfl]
      rfl
    have hst : (c.flushMotionBuffer.append (M.homingRequest m)).start =
        MotionCtrl.optimize { (c.flushMotionBuffer.append (M.homingRequest m)).pushEvent .motionStarted with state := .running } := by
      unfold MotionCtrl.start
      rw [if_pos (by rw [happ]; rfl)]
    rw [← hst] at hsame
    have hlev : (c.flushMotionBuffer.append (M.homingRequest m)).start.buffer.level = 1 := by
      rw [hsame.level]
      show (c.flushMotionBuffer.append (M.homingRequest m)).buffer.level = 1
      rw [happ]
    have hfaith : Faithful (c.flushMotionBuffer.append (M.homingRequest m)).start.buffer :=
      (MotionCtrl.steady_start (MotionCtrl.steady_append (MotionCtrl.steady_flush hc) (M.homingRequest m))).queue
    have hreq : (c.flushMotionBuffer.append (M.homingRequest m)).start.buffer.getHead.request = some (M.homingRequest m) := by
      have h1 := hsame.cells (c.flushMotionBuffer.append (M.homingRequest m)).start.buffer.head
      unfold MotionBuffer.getHead
      rw [h1, hsame.head]
      show ((c.flushMotionBuffer.append (M.homingRequest m)).buffer.cells
        (c.flushMotionBuffer.append (M.homingRequest m)).buffer.head).request = _
      rw [happ]
      rfl
    have hmov : M.kit.isMoving (c.flushMotionBuffer.append (M.homingRequest m)).start.buffer.getHead.traj i = false := by
      have h1 := hfaith (c.flushMotionBuffer.append (M.homingRequest m)).start.buffer.head
      unfold MotionBuffer.getHead at hreq ⊢
      rw [hreq] at h1
      obtain ⟨x, hx⟩ := h1
      rw [hx]
      exact homingRequest_still hm.distance hi hne
    refine (MotionCtrl.single_run hlev hmov (x := m.position i) ⟨fun _ => rfl, ?_⟩ h).pos
    rw [hsame.pos]
    show (c.flushMotionBuffer.append (M.homingRequest m)).machinePosition i = _
    rw [happ]
    exact congrFun hmp i

/-- Actions that are no commands leave the motion controller alone. -/
theorem foldl_quiet {K : MotionKit} (t : Target K) (l : List HomingAct) (hl : ∀ x ∈ l, ¬ IsCommand x) : ∀ b : Board K,
    (l.foldl (Board.exec t) b).ctrl = b.ctrl := by
  induction l with
  | nil => exact fun _ => rfl
  | cons x l ih =>
    intro b
    rw [List.foldl_cons, ih fun y hy => hl y (List.mem_cons_of_mem _ hy)]
    have := hl x List.mem_cons_self
    cases x <;> first | rfl | exact absurd trivial this

/-- The actions only become more. -/
theorem handle_acts {K : MotionKit} (t : Target K) (b : Board K) :
    ∃ new, (b.handle t).acts = b.acts ++ new ∧ ((∀ x ∈ new, ¬ IsCommand x) → (b.handle t).ctrl = b.ctrl) := by
  unfold Board.handle
  simp only
  split
  · refine ⟨_, foldl_acts t _ _, fun h => ?_⟩
    exact foldl_quiet t _ h _
  · exact ⟨[], by simp [Board.onQueue], fun _ => rfl⟩

/-- An iteration in which homing gives no command is a number of calculations. -/
theorem loop_quiet {K : MotionKit} (t : Target K) {b b' : Board K} {r : Round} (h : b.loop t r = some b') :
    ∃ new, b'.acts = b.acts ++ new ∧ ((∀ x ∈ new, ¬ IsCommand x) →
      ∃ log, b.ctrl.run (List.replicate r.calcs .calculate) = some (b'.ctrl, log)) := by
  unfold Board.loop at h
  split at h
  · cases h
  · rename_i b₁ hb₁
    simp only [Option.some.injEq] at h
    subst h
    have h2 : (if r.expired then b₁.sample r.ports else b₁).ctrl = b₁.ctrl ∧ (if r.expired then b₁.sample r.ports else b₁).acts = b.acts := by
      rw [← fill_acts _ hb₁]
      split
      · exact ⟨Board.sample_ctrl _ _, sample_acts _ _⟩
      · exact ⟨rfl, rfl⟩
    generalize (if r.expired then b₁.sample r.ports else b₁) = b₂ at h2
    obtain ⟨new, n1, n2⟩ := handle_acts t b₂
    refine ⟨new, by rw [n1, h2.2], fun hq => ?_⟩
    rw [n2 hq, h2.1]
    exact Board.fill_run _ hb₁

/-- Iterations in which homing gives no command are a number of calculations. -/
theorem loops_quiet {K : MotionKit} (t : Target K) (rs : List Round) : ∀ {b b' : Board K}, b.loops t rs = some b' →
    ∃ new, b'.acts = b.acts ++ new ∧ ((∀ x ∈ new, ¬ IsCommand x) →
      ∃ log, b.ctrl.run (List.replicate (rs.map Round.calcs).sum .calculate) = some (b'.ctrl, log)) := by
  induction rs with
  | nil =>
    intro b b' h
    simp only [Board.loops, Option.some.injEq] at h
    subst h
    exact ⟨[], by simp, fun _ => ⟨[], rfl⟩⟩
  | cons r rs ih =>
    intro b b' h
    unfold Board.loops at h
    split at h
    · cases h
    · rename_i b₁ hb₁
      obtain ⟨n₁, a1, a2⟩ := loop_quiet t hb₁
      obtain ⟨n₂, c1, c2⟩ := ih h
      refine ⟨n₁ ++ n₂, by rw [c1, a1, List.append_assoc], fun hq => ?_⟩
      obtain ⟨l₁, hl₁⟩ := a2 fun x hx => hq x (List.mem_append_left _ hx)
      obtain ⟨l₂, hl₂⟩ := c2 fun x hx => hq x (List.mem_append_right _ hx)
      rw [List.map_cons, List.sum_cons, List.replicate_add]
      exact ⟨_, run_join _ hl₁ hl₂⟩
/-- A further iteration. -/
theorem run_snoc {K : MotionKit} (t : Target K) (p : Ports) (rounds : List Round) {r : Round} {b b' : Board K}
    (h : Board.run t p rounds = some b) (hl : b.loop t r = some b') : Board.run t p (rounds ++ [r]) = some b' := by
  unfold Board.run at *
  generalize Board.setup t p = b₀ at h
  induction rounds generalizing b₀ with
  | nil =>
    simp only [Board.loops, Option.some.injEq] at h
    subst h
    simp [Board.loops, hl]
  | cons r' rs ih =>
    rw [List.cons_append]
    unfold Board.loops at h ⊢
    split at h
    · cases h
    · exact ih _ h

/-- The moves that homing orders. -/
theorem orders_kinds {K : MotionKit} (t : Target K) (hn : t.cfg.n ≤ 3) (p : Ports) (rounds : List Round) {b : Board K}
    (h : Board.run t p rounds = some b) {m : HomingMove} (hm : m ∈ orders b.acts) : m.axis < t.cfg.n ∧
      (|m.offset| = |t.cfg.sMax m.axis| ∨ |m.offset| = |t.cfg.homingOffset m.axis|) ∧
      (m.speed = t.cfg.vHoming ∨ m.speed = t.cfg.vHomingSlow) := by
  obtain ⟨hist, -, h1, -⟩ := loop_homing t p rounds b h
  have h2 : (Homer.run t.cfg (.fresh t.cfg) hist).2 = b.acts := by rw [h1]
  have hmem : .append m ∈ b.acts := by
    unfold orders at hm
    rw [List.mem_filterMap] at hm
    obtain ⟨a, ha, he⟩ := hm
    cases a <;> simp at he
    subst he
    exact ha
  obtain ⟨pre, post, hsplit⟩ := List.append_of_mem hmem
  obtain ⟨⟨a, ha, before, -, hj, -⟩, -⟩ := homing_moves hn hist (h2.trans hsplit)
  have han : a < t.cfg.n := ((homing_axes a).1 ha).2.1
  have hsg : |sign t.cfg a| = 1 := by unfold sign; split <;> simp
  rcases hj with ⟨⟨rfl, h4, h5⟩, -⟩ | ⟨⟨rfl, h4, h5⟩, -⟩ | ⟨⟨rfl, h4, h5⟩, -⟩ | ⟨⟨rfl, h4, h5⟩, -⟩
  · exact ⟨han, .inl (by rw [h4, abs_mul, hsg, one_mul]), .inl h5⟩
  · exact ⟨han, .inl (by rw [h4, abs_neg, abs_mul, hsg, one_mul]), .inr h5⟩
  · exact ⟨han, .inl (by rw [h4, abs_neg, abs_mul, hsg, one_mul]), .inr h5⟩
  · exact ⟨han, .inr (by rw [h4, abs_neg, abs_mul, hsg, one_mul]), .inl h5⟩

theorem orders_ok {K : MotionKit} (t : Target K) {M : Machine} (hc : ConfigOk M t.cfg) (p : Ports) (rounds : List Round) {b : Board K}
    (h : Board.run t p rounds = some b) {m : HomingMove} (hm : m ∈ orders b.acts) : m.axis < M.n ∧ m.offset ≠ 0 ∧ 0 < m.speed := by
  obtain ⟨h1, h2, h3⟩ := orders_kinds t hc.three p rounds h hm
  refine ⟨hc.n ▸ h1, ?_, ?_⟩
  · rw [← abs_pos]
    rcases h2 with h2 | h2 <;> rw [h2, abs_pos]
    · exact hc.sMax _ h1
    · exact hc.offset _ h1
  · rcases h3 with h3 | h3 <;> rw [h3]
    · exact hc.fast
    · exact hc.slow

/-! ## C86: what a homing move does -/

/-- **C86, where the schedule is orderly.** If homing orders the move `m` in iteration `r` and gives no further command in the
iterations `rs`, then after these the motion controller is making, or has made, exactly this move. Missing: schedules that are not
orderly (as C77); what happens after a stop. -/
theorem homing_move_partial {M : Machine} (hM : M.Ok) {δ : ℝ} (hf : CanFollow M δ 1) (hsteps : ∀ i, i < M.n → 0 < M.stepsPerMm i)
    {cfg : HomingConfig} (hc : ConfigOk M cfg) (maxTicks : Nat) (p : Ports) (rounds : List Round) {r : Round} {rs : List Round}
    {b b' b'' : Board M.kit} (h : Board.run (M.target cfg maxTicks (fin δ)) p rounds = some b)
    (ho : Board.Orderly (M.target cfg maxTicks (fin δ)) (Board.setup (M.target cfg maxTicks (fin δ)) p) rounds)
    (ho' : Board.OrderlyRound (M.target cfg maxTicks (fin δ)) b r) (hl : b.loop (M.target cfg maxTicks (fin δ)) r = some b')
    (hrs : b'.loops (M.target cfg maxTicks (fin δ)) rs = some b'') {m : HomingMove} (hm : m ∈ (orders b'.acts).drop (orders b.acts).length)
    (hreach : Reachable M (M.homingRequest m)) (hbrief : Brief M δ (M.homingRequest m) (fin m.speed))
    (hquiet : ∀ x ∈ b''.acts.drop b'.acts.length, ¬ IsCommand x) :
    ∃ (j : Job) (ticks : Nat), (rs.map Round.calcs).sum ≤ ticks ∧ MakesMove M δ m j (ticks * δ) b''.ctrl := by
  have hi := Board.loops_phase _ rounds (Board.setup_phase _ p).1 ho h
  obtain ⟨-, ⟨new, hnew⟩, b₁, hb₁, hmv, -⟩ := Board.loop_phase _ hi ho' hl
  have hmem : .append m ∈ b'.acts.drop b.acts.length := by
    rw [← hnew] at hm ⊢
    rw [List.drop_left]
    unfold orders at hm
    rw [List.filterMap_append, List.drop_left, List.mem_filterMap] at hm
    obtain ⟨a, ha, he⟩ := hm
    cases a <;> simp at he
    subst he
    exact ha
  obtain ⟨a1, -, -, a4, a5⟩ := hmv m hmem
  obtain ⟨o1, o2, o3⟩ := orders_ok _ hc p (rounds ++ [r]) (run_snoc _ p rounds h hl) (List.mem_of_mem_drop hm)
  have hst : Steady (fin δ) b₁.ctrl :=
    Board.fill_steady _ (Board.loops_steady _ rounds (Board.setup_steady (M.target cfg maxTicks (fin δ)) p) h) hb₁
  obtain ⟨n₂, q1, q2⟩ := loops_quiet _ rs hrs
  obtain ⟨log, hlog⟩ := q2 (by rw [q1, List.drop_left] at hquiet; exact hquiet)
  rw [a5] at hlog
  exact order_executed hM hf hsteps a1 hst ⟨o1, o2, o3, hreach, hbrief⟩ a4 hlog

/-- **C86 for the first move**, which is ordered by `setup`; any schedule. -/
theorem homing_first_move {M : Machine} (hM : M.Ok) {δ : ℝ} (hf : CanFollow M δ 1) (hsteps : ∀ i, i < M.n → 0 < M.stepsPerMm i)
    {cfg : HomingConfig} (hc : ConfigOk M cfg) (maxTicks : Nat) (p : Ports) {rs : List Round} {b : Board M.kit}
    (h : Board.run (M.target cfg maxTicks (fin δ)) p rs = some b) {m : HomingMove}
    (hm : m ∈ orders (Board.setup (M.target cfg maxTicks (fin δ)) p).acts)
    (hreach : Reachable M (M.homingRequest m)) (hbrief : Brief M δ (M.homingRequest m) (fin m.speed))
    (hquiet : ∀ x ∈ b.acts.drop (Board.setup (M.target cfg maxTicks (fin δ)) p).acts.length, ¬ IsCommand x) :
    ∃ (j : Job) (ticks : Nat), (rs.map Round.calcs).sum ≤ ticks ∧ MakesMove M δ m j (ticks * δ) b.ctrl := by
  have hmem : .append m ∈ (Board.setup (M.target cfg maxTicks (fin δ)) p).acts := by
    unfold orders at hm
    rw [List.mem_filterMap] at hm
    obtain ⟨a, ha, he⟩ := hm
    cases a <;> simp at he
    subst he
    exact ha
  obtain ⟨-, -, a3, a4⟩ := (Board.setup_phase (M.target cfg maxTicks (fin δ)) p).2 m hmem
  obtain ⟨o1, o2, o3⟩ := orders_ok (M.target cfg maxTicks (fin δ)) hc p [] rfl hm
  obtain ⟨c1, -⟩ := Board.beforeHoming_spec (M.target cfg maxTicks (fin δ)) p
  obtain ⟨n₂, q1, q2⟩ := loops_quiet _ rs h
  obtain ⟨log, hlog⟩ := q2 (by rw [q1, List.drop_left] at hquiet; exact hquiet)
  rw [a4] at hlog
  refine order_executed hM hf hsteps (by rw [c1]; rfl) (by rw [c1]; exact ⟨rfl, rfl, fun _ => rfl, show 0 < 32 by decide⟩) ⟨o1, o2, o3, hreach, hbrief⟩ ?_ hlog
  rw [a3, c1]
  funext i
  simp only [MotionCtrl.resetMachinePosition]
  split <;> rfl

/-! ## C87: only one axis moves -/

/-- Commands do not change the position. -/
theorem exec_position {K : MotionKit} (t : Target K) (b : Board K) (x : HomingAct) : (b.exec t x).ctrl.machinePosition = b.ctrl.machinePosition := by
  cases x <;> simp only [Board.exec]
  case stop =>
    rw [Board.withCtrl_ctrl]
    exact (MotionCtrl.sameButProf_optimize _).pos
  case flush =>
    rw [Board.withCtrl_ctrl]
    unfold MotionCtrl.flushMotionBuffer
    split <;> rfl
  case append m =>
    rw [Board.withCtrl_ctrl]
    unfold MotionCtrl.append
    split <;> rfl
  case go =>
    rw [Board.withCtrl_ctrl]
    unfold MotionCtrl.start
    split
    · exact (MotionCtrl.sameButProf_optimize _).pos
    · rfl
  all_goals rfl

/-- Only the calculations of an iteration change the position. -/
theorem loop_position {K : MotionKit} (t : Target K) {b b' : Board K} {r : Round} (h : b.loop t r = some b') :
    ∃ b₁, b.fill r.calcs = some b₁ ∧ b'.ctrl.machinePosition = b₁.ctrl.machinePosition := by
  unfold Board.loop at h
  split at h
  · cases h
  · rename_i b₁ hb₁
    simp only [Option.some.injEq] at h
    subst h
    refine ⟨b₁, hb₁, ?_⟩
    have h2 : (if r.expired then b₁.sample r.ports else b₁).ctrl = b₁.ctrl := by
      split
      · exact Board.sample_ctrl _ _
      · rfl
    rw [← h2]
    generalize (if r.expired then b₁.sample r.ports else b₁) = b₂
    have hfold : ∀ (l : List HomingAct) (b : Board K), (l.foldl (Board.exec t) b).ctrl.machinePosition = b.ctrl.machinePosition := by
      intro l
      induction l with
      | nil => exact fun _ => rfl
      | cons x l ih => intro b; rw [List.foldl_cons, ih, exec_position]
    unfold Board.handle
    simp only
    split
    · exact hfold _ _
    · rfl

/-- **C87, where the schedule is orderly.** If in an iteration the position of an axis changes, then it is the axis of the move that
homing has ordered last (stops included). -/
theorem homing_one_axis_partial {M : Machine} {cfg : HomingConfig} (hc : ConfigOk M cfg) (maxTicks : Nat) (width : Num) (p : Ports)
    (rounds : List Round) {r : Round} {b b' : Board M.kit} (h : Board.run (M.target cfg maxTicks width) p rounds = some b)
    (ho : Board.Orderly (M.target cfg maxTicks width) (Board.setup (M.target cfg maxTicks width) p) rounds)
    (hl : b.loop (M.target cfg maxTicks width) r = some b') {i : Nat} (hi : i < M.n)
    (hne : b'.ctrl.machinePosition i ≠ b.ctrl.machinePosition i) : ∃ m, (orders b.acts).getLast? = some m ∧ i = m.axis := by
  have hinv := Board.loops_phase _ rounds (Board.setup_phase _ p).1 ho h
  have hst := Board.loops_steady _ rounds (Board.setup_steady (M.target cfg maxTicks width) p) h
  obtain ⟨b₁, hb₁, hpos⟩ := loop_position _ hl
  rw [hpos] at hne
  obtain ⟨log, hlog⟩ := Board.fill_run _ hb₁
  have hstop : b.ctrl.state ≠ .stopped := by
    intro hs
    refine hne ?_
    exact ((MotionCtrl.run_inv (P := fun _ c => c.state = .stopped ∧ c.machinePosition = b.ctrl.machinePosition)
      (fun _ _ _ h => h) (fun _ c c' t h ht => by
        have : c.tick = some ({ c with signals := c.signals.next }, ⟨fun _ => none, [], none⟩) := by
          unfold MotionCtrl.tick; simp [MotionCtrl.isRunning, h.1]
        rw [this] at ht
        simp only [Option.some.injEq, Prod.mk.injEq] at ht
        obtain ⟨rfl, -⟩ := ht
        exact h) _ (k := 0) ⟨hs, rfl⟩ hlog).1.2 ▸ rfl)
  have hlev := (Board.phase_level hinv.phase).resolve_left hstop
  obtain ⟨hq, -⟩ := homing_queue_partial _ p rounds h ho
  have hone : b.ctrl.requests = [b.ctrl.buffer.getHead.request] := by
    unfold MotionCtrl.requests
    rw [hlev]
    have := hst.head
    simp [Ring.contents, MotionBuffer.getHead, Nat.mod_eq_of_lt this]
  rcases hq with hq | ⟨m, hm, hq⟩
  · rw [hone] at hq; cases hq
  · refine ⟨m, hm, ?_⟩
    by_contra hia
    refine hne ?_
    obtain ⟨-, o2, -⟩ := orders_ok (M.target cfg maxTicks width) hc p rounds h (List.mem_of_getLast? hm)
    have hmov : M.kit.isMoving b.ctrl.buffer.getHead.traj i = false := by
      have h1 := hst.queue b.ctrl.buffer.head
      rw [hone] at hq
      have hq' : b.ctrl.buffer.getHead.request = some (M.homingRequest m) := List.head_eq_of_cons_eq hq
      unfold MotionBuffer.getHead at hq' ⊢
      rw [hq'] at h1
      obtain ⟨x, hx⟩ := h1
      rw [hx]
      exact homingRequest_still o2 hi hia
    exact (MotionCtrl.single_run hlev hmov (x := b.ctrl.machinePosition i) ⟨fun _ => rfl, rfl⟩ hlog).pos

/-! ## The cnc3axis machine -/

/-- The shipped configuration. -/
theorem cnc3axis_config : ConfigOk cnc3axis .cnc3axis := by
  refine ⟨rfl, by decide, fun a ha => ?_, fun a _ => ?_, ?_, ?_⟩
  · have : a < 3 := ha
    interval_cases a <;> norm_num [HomingConfig.cnc3axis]
  all_goals norm_num [HomingConfig.cnc3axis]

/-- The main program as shipped: 60000 ticks per second, at most 375 ticks between outputs (main.cpp:152). -/
noncomputable def shippedTarget : Target cnc3axis.kit := cnc3axis.target .cnc3axis 375 (fin (1 / 60000))

/-- Its homing moves, from positions up to 5 km away. -/
theorem shipped_makes {m : HomingMove} (ha : m.axis < 3) (h1 : 3 ≤ |m.offset|) (h2 : |m.offset| ≤ 300) (h3 : 1 ≤ m.speed)
    (hp : ∀ i, i < 3 → |m.position i| ≤ 1000000000) :
    Reachable cnc3axis (cnc3axis.homingRequest m) ∧ Brief cnc3axis (1 / 60000) (cnc3axis.homingRequest m) (fin m.speed) := by
  have hsteps : ∀ i, i < cnc3axis.n → 0 < cnc3axis.stepsPerMm i := fun _ _ => by norm_num [cnc3axis]
  have g1 : (3 : ℝ) ≤ |(m.offset : ℝ)| := by exact_mod_cast h1
  have g2 : |(m.offset : ℝ)| ≤ 300 := by exact_mod_cast h2
  have g3 : (1 : ℝ) ≤ m.speed := by exact_mod_cast h3
  have hL : val (cnc3axis.homingRequest m).trajectory.length = |(m.offset : ℝ)| := rfl
  have hdir : ∀ i, i < 3 → |(cnc3axis.homingRequest m).direction i| ≤ 1 := by
    intro i hi
    rw [homingRequest_direction (M := cnc3axis) (by rintro h; rw [h] at h1; norm_num at h1) hi]
    split <;> norm_num
  constructor
  · intro i hi s hs0 hs1
    rw [hL] at hs1
    rw [homingRequest_place hsteps hi]
    have hpi : |(m.position i : ℝ)| ≤ 1000000000 := by exact_mod_cast hp i hi
    have h200 : cnc3axis.stepsPerMm i = 200 := rfl
    have hh : cnc3axis.hysteresis = 1 / 20 := rfl
    have hq : |(if i = m.axis then (m.offset : ℝ) / |(m.offset : ℝ)| * s else 0)| ≤ 300 := by
      split
      · rw [abs_mul, abs_div, abs_abs, div_self (by linarith), one_mul, abs_of_nonneg hs0]; linarith
      · norm_num
    unfold Machine.InRange
    rw [h200, hh, add_mul, div_mul_cancel₀ _ (by norm_num)]
    rw [abs_le] at hpi hq ⊢
    constructor <;> linarith
  · refine ⟨1, 200, ⟨one_pos, by norm_num, fun i hi => ?_, fun i hi => ?_, fun i hi => ?_, fun i hi h => ?_⟩, ?_, ?_, ?_⟩
    · exact (mul_le_of_le_one_right (by norm_num) (hdir i hi)).trans (by norm_num [cnc3axis])
    · exact (mul_le_of_le_one_right (by norm_num) (hdir i hi)).trans (by norm_num [cnc3axis])
    · exact (mul_le_of_le_one_right (by norm_num) (hdir i hi)).trans (by norm_num [cnc3axis])
    · have a0 : (cnc3axis.homingRequest m).trajectory.arcAxis0 = 3 := rfl
      have a1 : (cnc3axis.homingRequest m).trajectory.arcAxis1 = 3 := rfl
      have : i < 3 := hi
      omega
    · rw [le_fin, decide_eq_true_eq]; exact g3
    · rw [hL]; linarith
    · rw [hL]; linarith

theorem shipped_orders (p : Ports) (rounds : List Round) {b : Board cnc3axis.kit} (h : Board.run shippedTarget p rounds = some b)
    {m : HomingMove} (hm : m ∈ orders b.acts) : m.axis < 3 ∧ 3 ≤ |m.offset| ∧ |m.offset| ≤ 300 ∧ 1 ≤ m.speed := by
  obtain ⟨h1, h2, h3⟩ := orders_kinds shippedTarget (show 3 ≤ 3 from le_rfl) p rounds h hm
  have h1 : m.axis < 3 := h1
  refine ⟨h1, ?_⟩
  have hb : ∀ a, a < 3 → 3 ≤ |HomingConfig.cnc3axis.sMax a| ∧ |HomingConfig.cnc3axis.sMax a| ≤ 300 := by
    intro a ha
    interval_cases a <;> norm_num [HomingConfig.cnc3axis]
  rw [← and_assoc]
  constructor
  · rcases h2 with h2 | h2 <;> rw [h2]
    · exact hb _ h1
    · show 3 ≤ |(3 : ℚ)| ∧ |(3 : ℚ)| ≤ 300
      norm_num
  · rcases h3 with h3 | h3 <;> rw [h3]
    · show (1 : ℚ) ≤ 10
      norm_num
    · exact le_refl (1 : ℚ)

/-- **C86 on the cnc3axis machine, the first move**, without any further condition: until homing gives another command, exactly the
first ordered move is made. -/
theorem shipped_first_move (p : Ports) {rs : List Round} {b : Board cnc3axis.kit} (h : Board.run shippedTarget p rs = some b) {m : HomingMove}
    (hm : m ∈ orders (Board.setup shippedTarget p).acts)
    (hquiet : ∀ x ∈ b.acts.drop (Board.setup shippedTarget p).acts.length, ¬ IsCommand x) :
    ∃ (j : Job) (ticks : Nat), (rs.map Round.calcs).sum ≤ ticks ∧ MakesMove cnc3axis (1 / 60000) m j (ticks * (1 / 60000)) b.ctrl := by
  obtain ⟨h1, h2, h3, h4⟩ := shipped_orders p [] rfl hm
  obtain ⟨a1, -⟩ := homing_orders_first shippedTarget p m hm
  obtain ⟨r1, r2⟩ := shipped_makes h1 h2 h3 h4 (fun i _ => by rw [a1]; norm_num)
  have hf := cnc3axis_follow
  exact homing_first_move cnc3axis_ok ⟨hf.width, hf.hysteresis, hf.steps, fun i hi => (hf.rate i hi).trans (by norm_num)⟩
    (fun _ _ => by norm_num [cnc3axis]) cnc3axis_config 375 p h hm r1 r2 hquiet

/-- **C86 on the cnc3axis machine, all moves**, where the schedule is orderly and the machine within 5 km of where it was switched
on. -/
theorem shipped_move_partial (p : Ports) (rounds : List Round) {r : Round} {rs : List Round} {b b' b'' : Board cnc3axis.kit}
    (h : Board.run shippedTarget p rounds = some b) (ho : Board.Orderly shippedTarget (Board.setup shippedTarget p) rounds)
    (ho' : Board.OrderlyRound shippedTarget b r) (hl : b.loop shippedTarget r = some b') (hrs : b'.loops shippedTarget rs = some b'') {m : HomingMove}
    (hm : m ∈ (orders b'.acts).drop (orders b.acts).length) (hp : ∀ i, i < 3 → |m.position i| ≤ 1000000000)
    (hquiet : ∀ x ∈ b''.acts.drop b'.acts.length, ¬ IsCommand x) :
    ∃ (j : Job) (ticks : Nat), (rs.map Round.calcs).sum ≤ ticks ∧ MakesMove cnc3axis (1 / 60000) m j (ticks * (1 / 60000)) b''.ctrl := by
  obtain ⟨h1, h2, h3, h4⟩ := shipped_orders p (rounds ++ [r]) (run_snoc _ p rounds h hl) (List.mem_of_mem_drop hm)
  obtain ⟨r1, r2⟩ := shipped_makes h1 h2 h3 h4 hp
  have hf := cnc3axis_follow
  exact homing_move_partial cnc3axis_ok ⟨hf.width, hf.hysteresis, hf.steps, fun i hi => (hf.rate i hi).trans (by norm_num)⟩
    (fun _ _ => by norm_num [cnc3axis]) cnc3axis_config 375 p rounds h ho ho' hl hrs hm r1 r2 hquiet

/-- All inputs open. -/
def openPorts : Ports := ⟨0, 0xFF#32, 0x02000000#32⟩

/-- The first move: 60 mm along Z at 10 mm/s. -/
example : (orders (Board.setup shippedTarget openPorts).acts).map (fun m => (m.axis, m.offset, m.speed)) = [(2, 60, 10)] := by
  decide +kernel


/-- The calls that follow from it (C88): a move and its start. -/
example : (Board.setup shippedTarget openPorts).acts.filterMap (fun x => (callOf shippedTarget x).map fun
    | .append _ => 1 | .start => 2 | .stop => 3 | .flush => 4 | _ => 5) = [4, 1, 2] := by
  decide +kernel

/-- The move of the first example, from the start: after 800000 ticks at the latest the controller has stopped, axis Z is 12000 steps
(60 mm) up, and the others have not moved. -/
example (n : Nat) (hn : 800000 ≤ n) : ∃ (c : MotionCtrl cnc3axis.kit) (log : _),
    ((((MotionCtrl.fresh cnc3axis.kit).configure 375 (fin (1 / 60000))).flushMotionBuffer.append
      (cnc3axis.homingRequest ⟨fun _ => 0, 2, 60, 10⟩)).start).run (List.replicate n .calculate) = some (c, log) ∧
    c.state = .stopped ∧ c.machinePosition 0 = 0 ∧ c.machinePosition 1 = 0 ∧ c.machinePosition 2 = 12000 := by
  have hsteps : ∀ i, i < cnc3axis.n → 0 < cnc3axis.stepsPerMm i := fun _ _ => by norm_num [cnc3axis]
  have hf := cnc3axis_follow
  have hf1 : CanFollow cnc3axis (1 / 60000) 1 :=
    ⟨hf.width, hf.hysteresis, hf.steps, fun i hi => (hf.rate i hi).trans (by norm_num)⟩
  obtain ⟨r1, r2⟩ := shipped_makes (m := ⟨fun _ => 0, 2, 60, 10⟩) (show 2 < 3 by decide) (by norm_num) (by norm_num) (by norm_num)
    (fun _ _ => by norm_num)
  have hmk : Makeable cnc3axis (1 / 60000) ⟨fun _ => 0, 2, 60, 10⟩ :=
    ⟨show 2 < 3 by decide, by norm_num, by norm_num, r1, r2⟩
  have hst : Steady (fin (1 / 60000)) ((MotionCtrl.fresh cnc3axis.kit).configure 375 (fin (1 / 60000))) :=
    ⟨rfl, rfl, fun _ => rfl, show 0 < 32 by decide⟩
  obtain ⟨c₀, log₀, h₀, -⟩ := (MotionCtrl.sInv_fresh (K := cnc3axis.kit)).run
    (.configure 375 (fin (1 / 60000)) :: .flush :: .append (cnc3axis.homingRequest ⟨fun _ => 0, 2, 60, 10⟩) :: .start ::
      List.replicate n .calculate)
  obtain ⟨c, log, hrun⟩ : ∃ (c : MotionCtrl cnc3axis.kit) (log : _),
      ((((MotionCtrl.fresh cnc3axis.kit).configure 375 (fin (1 / 60000))).flushMotionBuffer.append
      (cnc3axis.homingRequest ⟨fun _ => 0, 2, 60, 10⟩)).start).run (List.replicate n .calculate) = some (c, log) := by
    simp only [MotionCtrl.run, MotionCtrl.call, Option.map_eq_some_iff] at h₀
    obtain ⟨x1, ⟨x2, ⟨x3, ⟨x4, h4, -⟩, -⟩, -⟩, -⟩ := h₀
    exact ⟨x4.1, x4.2, h4⟩
  obtain ⟨j, ticks, ht, hmove⟩ := order_executed cnc3axis_ok hf1 hsteps (by rfl) hst hmk (by rfl) hrun
  refine ⟨c, log, hrun, ?_⟩
  have hT : 10 * j.T ≤ 2 * |((60 : ℚ) : ℝ)| :=
    hmove.quick 10 200 (by norm_num) (by norm_num) (by norm_num [cnc3axis]) (by norm_num) (by norm_num [cnc3axis])
      (by norm_num [cnc3axis]) (by norm_num)
  have htot : total [j] < ticks * (1 / 60000) := by
    have : (800000 : ℝ) ≤ ticks := by exact_mod_cast hn.trans ht
    have h60 : |((60 : ℚ) : ℝ)| = 60 := by norm_num
    rw [h60] at hT
    simp only [total, List.map_cons, List.map_nil, List.sum_cons, List.sum_nil]
    linarith
  have hend := hmove.follows.done htot
  refine ⟨hend.state, hmove.others 0 (show 0 < 3 by decide) (by decide), hmove.others 1 (show 1 < 3 by decide) (by decide), ?_⟩
  have h2 : 2 < cnc3axis.n := show 2 < 3 by decide
  have hnear := hmove.follows.near 2 h2
  rw [placeAt_done ((rest_total (by simp) (by simpa using hmove.job.pos.le)).2 htot)] at hnear
  have hp := hmove.path 2 h2 j.L
  have hL := hmove.distance
  simp only [List.map_cons, List.map_nil, endOf] at hnear
  rw [show val j.r.trajectory.length = j.L from rfl, hp, hL] at hnear
  have e1 : travel cnc3axis (1 / 60000) 2 = 1 / 10 := by norm_num [travel, cnc3axis]
  have e2 : cnc3axis.stepsPerMm 2 = 200 := rfl
  have e3 : cnc3axis.hysteresis = 1 / 20 := rfl
  rw [e1, e2, e3] at hnear
  norm_num at hnear
  rw [abs_le] at hnear
  have g1 : (c.machinePosition 2 : ℝ) < 12001 := by linarith [hnear.1]
  have g2 : (11999 : ℝ) < c.machinePosition 2 := by linarith [hnear.2]
  have g1 : c.machinePosition 2 < 12001 := by exact_mod_cast g1
  have g2 : 11999 < c.machinePosition 2 := by exact_mod_cast g2
  omega

end Moovr.Props
