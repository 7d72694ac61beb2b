import Verif.Lemmas.HomingSmooth
import Verif.Props.HomingAxis
import Verif.Props.HomingStop
/-!
# Property C121: homing whose switches act while the axes cruise, in single precision

The properties of homing (C77, C78, C115, C119, C120) need an orderly schedule, which is a condition on the motion controller and its
queue. Here it is derived, for the 3-axis machine with `float` arithmetic in the motion controller, from a condition on the switches:
homing stops its moves only while they cruise.
-/
namespace Moovr.Props
open Num Float32 MotionSpec HomingSpec EventQueueSpec LoopSpec
open MotionCtrl (Unchanged Smooth)
open Single (num)

/-- In this run of the main program, whenever homing stops a move the axis of the move is at a place of its cruise, and all moves after
the first are within 300 mm of the origin. -/
def Timely (fpu : Fpu) (p : Ports) (rounds : List Round) : Prop :=
  ∀ before r after b b', rounds = before ++ r :: after → Board.run (shippedTarget32 fpu) p before = some b →
    b.loop (shippedTarget32 fpu) r = some b' →
    (.stop ∈ b'.acts.drop b.acts.length → ∀ m, (orders b.acts).getLast? = some m → Cruising m b'.ctrl.machinePosition) ∧
    ∀ m ∈ (orders b'.acts).drop (orders b.acts).length, Inside m

/-! ## Proof -/

private theorem orders_append (l l' : List HomingAct) : orders (l ++ l') = orders l ++ orders l' := List.filterMap_append

private theorem in_orders {acts : List HomingAct} {m : HomingMove} : m ∈ orders acts ↔ .append m ∈ acts := by
  unfold orders
  rw [List.mem_filterMap]
  constructor
  · rintro ⟨a, ha, he⟩
    cases a <;> simp at he
    subst he
    exact ha
  · exact fun h => ⟨_, h, rfl⟩

private theorem not_mem_orders {l : List HomingAct} (h : orders l = []) (m : HomingMove) : .append m ∉ l := by
  intro hm
  have : m ∈ orders l := in_orders.2 hm
  rw [h] at this
  cases this

/-- What homing can do in one iteration: nothing; stop the motion, while it approaches a switch or backs off; order a move; finish. -/
private theorem loop_cases {K : MotionKit} (t : Target K) {b b' : Board K} {r : Round} (hi : Board.HomingInv t b)
    (hreg : ∀ k, k < r.calcs → ∀ b₁, b.fill k = some b₁ → MotionCtrl.Regular b₁.ctrl) (hl : b.loop t r = some b') :
    ∃ new, b'.acts = b.acts ++ new ∧
      ((b'.homer.state = b.homer.state ∧ .stop ∉ new ∧ orders new = []) ∨
       ((b.homer.state = .closing ∨ b.homer.state = .opening) ∧ .stop ∈ new ∧ orders new = [] ∧ b'.homer.state ≠ .closing ∧
        b'.homer.state ≠ .opening) ∨
       (.stop ∉ new ∧ ∃ m, orders new = [m]) ∨
       (.stop ∉ new ∧ orders new = [] ∧ b'.homer.state = .found)) := by
  unfold Board.loop at hl
  split at hl
  · cases hl
  · rename_i b₁ hb₁
    obtain ⟨f1, f2, f0, f3, f4, f5⟩ := Board.fill_phase t r.calcs hi.phase hi.fifo hi.held hreg hb₁
    have fi : Board.InputsOk b₁ := fun i => by rw [f5]; exact hi.inputs i
    obtain ⟨b₂, hb₂, s1, s2, s4, s5⟩ : ∃ b₂, (if r.expired then b₁.sample r.ports else b₁) = b₂ ∧ Board.Phase b₂ ∧ Board.Fifo b₂ ∧
        b₂.homer = b₁.homer ∧ b₂.acts = b₁.acts := by
      split
      · obtain ⟨a1, a2, -, a4, a5, -⟩ := Board.sample_phase f1 f2 fi r.ports
        exact ⟨_, rfl, a1, a2, a4, a5⟩
      · exact ⟨_, rfl, f1, f2, rfl, rfl⟩
    rw [hb₂] at hl
    simp only [Option.some.injEq] at hl
    have hns : b₂.homer.state ≠ .stopping := by
      intro hs
      unfold Board.Phase at s1
      rw [hs] at s1
      exact s1
    obtain ⟨-, -, -, -, -, -, -, -, -, hh⟩ := Board.handle_spec t b₂ s2
    rw [hl] at hh
    rw [← f3, ← s4]
    rw [← f4, ← s5]
    split at hh
    · simp only [Prod.mk.injEq] at hh
      exact ⟨[], by rw [hh.2, List.append_nil], .inl ⟨by rw [hh.1], by simp, rfl⟩⟩
    · rename_i e he
      simp only [Prod.mk.injEq] at hh
      obtain ⟨h1, h2⟩ := hh
      have hacts : (Homer.handleEvents t.cfg b₂.env b₂.homer e).2 = .handled e :: (Homer.react t.cfg b₂.env b₂.homer e).2 := rfl
      have hhom : (Homer.handleEvents t.cfg b₂.env b₂.homer e).1 = (Homer.react t.cfg b₂.env b₂.homer e).1 := rfl
      refine ⟨_, h2, ?_⟩
      rw [hacts, h1, hhom]
      rcases Board.react_cases t.cfg b₂.env b₂.homer e hns with hc | ⟨hc, hc'⟩ | ⟨-, -, -, pre, m, hc4, -, hc6⟩ | ⟨-, -, hc3, hc4⟩
      · rw [hc]
        exact .inl ⟨rfl, by simp, rfl⟩
      · rw [hc]
        refine .inr (.inl ⟨?_, by simp, rfl, ?_⟩)
        · rcases hc' with ⟨h, -⟩ | ⟨h, -⟩
          · exact .inl h
          · exact .inr h
        · rcases hc' with ⟨-, h⟩ | ⟨-, h⟩ <;> rw [h] <;> exact ⟨by simp, by simp⟩
      · rw [hc6]
        rcases hc4 with rfl | ⟨i, c, rfl⟩
        · exact .inr (.inr (.inl ⟨by simp, m, rfl⟩))
        · exact .inr (.inr (.inl ⟨by simp, m, rfl⟩))
      · rw [hc4]
        exact .inr (.inr (.inr ⟨by simp, rfl, hc3⟩))

private theorem later_inf {fpu : Fpu} {x : (cnc3axis32.kit32 fpu).Time} : (cnc3axis32.kit32 fpu).later x ⟨posInf⟩ = false := by
  show Single.lt ⟨posInf⟩ x = false
  obtain ⟨x⟩ := x
  cases x <;> rfl

/-- The motion controller is making, or has made, the move that homing has ordered last. -/
private def Since {fpu : Fpu} (b : Board (cnc3axis32.kit32 fpu)) : Prop :=
  ∃ (c : MotionCtrl (cnc3axis32.kit32 fpu)) (m : HomingMove) (k : Nat) (log : _), c.state = .stopped ∧
    Unchanged (num width32) (MotionCtrl.fresh (cnc3axis32.kit32 fpu)).overrides c ∧ ShippedMove m ∧ Inside m ∧
    m.position = c.machinePosition ∧ (orders b.acts).getLast? = some m ∧
    ((c.flushMotionBuffer.append (cnc3axis32.homingRequest32 m)).start).run (List.replicate k .calculate) = some (b.ctrl, log)

private structure Tracked (fpu : Fpu) (b : Board (cnc3axis32.kit32 fpu)) : Prop where
  inv : Board.HomingInv (shippedTarget32 fpu) b
  smooth : Smooth b.ctrl
  since : b.homer.state = .closing ∨ b.homer.state = .opening → Since b

/-- A move that has just been ordered. -/
private theorem order_smooth {fpu : Fpu} {c : MotionCtrl (cnc3axis32.kit32 fpu)} (hs : c.state = .stopped)
    (hc : Unchanged (num width32) (MotionCtrl.fresh (cnc3axis32.kit32 fpu)).overrides c) {m : HomingMove} (hm : ShippedMove m)
    (hin : Inside m) (hpos : m.position = c.machinePosition) :
    Smooth ((c.flushMotionBuffer.append (cnc3axis32.homingRequest32 m)).start) := by
  obtain ⟨x, ho⟩ := order_setting hs hc hm hin hpos
  obtain ⟨a, b, d⟩ := straight_motion_start ho.idle ho.override ho.line ho.asked
  refine .inr ⟨b, .inl ⟨a, fun y => ?_⟩⟩
  have := later_inf (fpu := fpu) (x := y)
  rw [← d] at this
  exact this

private theorem tracked_step {fpu : Fpu} {p : Ports} {rounds : List Round} {b : Board (cnc3axis32.kit32 fpu)} {r : Round}
    (hrun : Board.run (shippedTarget32 fpu) p rounds = some b) (hb : Tracked fpu b)
    (ht : ∀ b', b.loop (shippedTarget32 fpu) r = some b' →
      (.stop ∈ b'.acts.drop b.acts.length → ∀ m, (orders b.acts).getLast? = some m → Cruising m b'.ctrl.machinePosition) ∧
      ∀ m ∈ (orders b'.acts).drop (orders b.acts).length, Inside m) :
    Board.OrderlyRound (shippedTarget32 fpu) b r ∧ ∀ b', b.loop (shippedTarget32 fpu) r = some b' → Tracked fpu b' := by
  have hreg : ∀ k, k < r.calcs → ∀ b₁, b.fill k = some b₁ → MotionCtrl.Regular b₁.ctrl :=
    fun k _ b₁ hb₁ => (Board.fill_smooth k hb.smooth hb₁).regular
  -- a stop
  have hstop : ∀ b', b.loop (shippedTarget32 fpu) r = some b' → .stop ∈ b'.acts.drop b.acts.length →
      ∃ c log, b.ctrl.run (List.replicate r.calcs .calculate) = some (c, log) ∧ b'.ctrl = c.stop ∧ c.buffer.level = 1 ∧ Smooth c.stop := by
    intro b' hl hs
    obtain ⟨new, hnew, hcases⟩ := loop_cases _ hb.inv hreg hl
    have hs' := hs
    rw [hnew, List.drop_left] at hs'
    have hst : b.homer.state = .closing ∨ b.homer.state = .opening := by
      rcases hcases with ⟨-, h, -⟩ | ⟨h, -⟩ | ⟨h, -⟩ | ⟨h, -⟩
      · exact absurd hs' h
      · exact h
      · exact absurd hs' h
      · exact absurd hs' h
    obtain ⟨c₀, m, k, log₀, e1, e2, e3, e4, e5, e6, e7⟩ := hb.since hst
    obtain ⟨c, log, hc, hc'⟩ := loop_stop _ hl hs
    have hpos : c.stop.machinePosition = c.machinePosition := (MotionCtrl.sameButProf_optimize _).pos
    have hcr := (ht b' hl).1 hs m e6
    rw [hc', hpos] at hcr
    have hj := run_join _ e7 hc
    rw [← List.replicate_add] at hj
    obtain ⟨-, a2, a3, a4, a5⟩ := order_cruising e1 e2 e3 e4 e5 hj hcr
    refine ⟨c, log, hc, hc', a2, .inr ⟨a4, .inr ⟨a3, fun y => ?_⟩⟩⟩
    have := later_inf (fpu := fpu) (x := y)
    rw [← a5] at this
    exact this
  have hround : Board.OrderlyRound (shippedTarget32 fpu) b r := by
    refine ⟨hreg, fun b₁ b' hf hl hs => ?_⟩
    obtain ⟨c, log, hc, -, hlev, -⟩ := hstop b' hl hs
    obtain ⟨log', hl'⟩ := Board.fill_run _ hf
    rw [hl'] at hc
    simp only [Option.some.injEq, Prod.mk.injEq] at hc
    rw [hc.1, hlev]
    decide
  refine ⟨hround, fun b' hl => ?_⟩
  obtain ⟨hinv, -, b₁, hb₁, hmv, hq⟩ := Board.loop_phase _ hb.inv hround hl
  have hsm₁ := Board.fill_smooth _ hb.smooth hb₁
  obtain ⟨log₁, hrun₁⟩ := Board.fill_run _ hb₁
  obtain ⟨new, hnew, hcases⟩ := loop_cases _ hb.inv hreg hl
  rw [hnew, List.drop_left] at hmv hq
  -- nothing ordered and nothing stopped
  have hquiet : .stop ∉ new → orders new = [] → (b'.homer.state = .closing ∨ b'.homer.state = .opening →
      b.homer.state = .closing ∨ b.homer.state = .opening) → Tracked fpu b' := by
    intro h1 h2 h3
    have hc := hq (not_mem_orders h2) h1
    refine ⟨hinv, by rw [hc]; exact hsm₁, fun h => ?_⟩
    obtain ⟨c₀, m, k, log₀, e1, e2, e3, e4, e5, e6, e7⟩ := hb.since (h3 h)
    have hj := run_join _ e7 hrun₁
    rw [← List.replicate_add] at hj
    refine ⟨c₀, m, _, _, e1, e2, e3, e4, e5, by rw [hnew, orders_append, h2, List.append_nil]; exact e6, by rw [hc]; exact hj⟩
  rcases hcases with ⟨h1, h2, h3⟩ | ⟨-, h2, h3, h4, h5⟩ | ⟨h1, m, h2⟩ | ⟨h1, h2, h3⟩
  · exact hquiet h2 h3 (by rw [h1]; exact id)
  · obtain ⟨c, log, -, hc, -, hsm⟩ := hstop b' hl (by rw [hnew, List.drop_left]; exact h2)
    exact ⟨hinv, by rw [hc]; exact hsm, fun h => absurd h (by rintro (h | h) <;> [exact h4 h; exact h5 h])⟩
  · have hmem : m ∈ orders new := by rw [h2]; simp
    obtain ⟨a1, -, -, a4, a5⟩ := hmv m (in_orders.1 hmem)
    have hord : orders b'.acts = orders b.acts ++ [m] := by rw [hnew, orders_append, h2]
    have hin := (ht b' hl).2 m (by rw [hord, List.drop_left]; simp)
    have hsm := shipped_moves (shippedTarget32 fpu) rfl p (rounds ++ [r]) (run_snoc _ p rounds hrun hl) (m := m) (by rw [hord]; simp)
    have hst : Unchanged (num width32) (MotionCtrl.fresh (cnc3axis32.kit32 fpu)).overrides b₁.ctrl :=
      Board.fill_unchanged _ (Board.loops_unchanged _ rounds (Board.setup_unchanged (shippedTarget32 fpu) p) hrun) hb₁
    refine ⟨hinv, by rw [a5]; exact order_smooth a1 hst hsm hin a4, fun _ => ?_⟩
    refine ⟨b₁.ctrl, m, 0, [], a1, hst, hsm, hin, a4, by rw [hord]; simp, ?_⟩
    rw [List.replicate_zero, MotionCtrl.run, a5]
    rfl
  · exact hquiet h1 h2 (by rw [h3]; rintro (h | h) <;> cases h)

private theorem tracked_setup (fpu : Fpu) (p : Ports) : Tracked fpu (Board.setup (shippedTarget32 fpu) p) := by
  obtain ⟨hinv, hmv⟩ := Board.setup_phase (shippedTarget32 fpu) p
  obtain ⟨c1, -, -, -, c5, c6⟩ := Board.beforeHoming_spec (shippedTarget32 fpu) p
  have hst : (Board.beforeHoming (shippedTarget32 fpu) p).ctrl.state = .stopped := by rw [c1]; rfl
  have hr : (Board.beforeHoming (shippedTarget32 fpu) p).env.running = false := by simp [Board.env, MotionCtrl.isRunning, hst]
  have hacts : (Board.setup (shippedTarget32 fpu) p).acts = (Homer.start (shippedTarget32 fpu).cfg
      (Board.beforeHoming (shippedTarget32 fpu) p).env (Board.beforeHoming (shippedTarget32 fpu) p).homer).2 := by
    rw [Board.setup_eq]
    refine (foldl_acts _ _ _).trans ?_
    show (Board.beforeHoming (shippedTarget32 fpu) p).acts ++ _ = _
    rw [c6, List.nil_append]
  have hfresh : ∃ m, orders (Board.setup (shippedTarget32 fpu) p).acts = [m] := by
    rw [hacts, c5]
    rcases Board.start_cases (shippedTarget32 fpu).cfg (Board.beforeHoming (shippedTarget32 fpu) p).env (.fresh (shippedTarget32 fpu).cfg) hr
      with ⟨-, h⟩ | ⟨-, i, c, m, -, h⟩
    · exfalso
      have hsel : (Homer.selectAxis (shippedTarget32 fpu).cfg
          { (Homer.fresh (shippedTarget32 fpu).cfg) with homingSequenceIndex := 0 }).2 = true := by
        show (Homer.selectAxis .cnc3axis { (Homer.fresh .cnc3axis) with homingSequenceIndex := 0 }).2 = true
        decide +kernel
      unfold Homer.start at h
      simp only [hsel, hr, if_true] at h
      simp at h
    · exact ⟨m, by rw [h]; rfl⟩
  obtain ⟨m, hm⟩ := hfresh
  obtain ⟨a1, -, a3, a4⟩ := hmv m (in_orders.1 (by rw [hm]; simp))
  have hsm := shipped_moves (shippedTarget32 fpu) rfl p [] rfl (m := m) (by rw [hm]; simp)
  have hin : Inside m := by
    refine ⟨fun i _ => by rw [a3]; norm_num, ?_⟩
    rw [a3]
    have h300 : |m.offset| ≤ 300 := by rcases hsm.offset with e | e | e | e <;> rw [e] <;> norm_num
    rw [abs_le] at *
    constructor <;> push_cast <;> linarith
  have hpos : m.position = (Board.beforeHoming (shippedTarget32 fpu) p).ctrl.machinePosition := by
    rw [a3, c1]
    funext i
    simp only [MotionCtrl.resetMachinePosition]
    split <;> rfl
  have hun : Unchanged (num width32) (MotionCtrl.fresh (cnc3axis32.kit32 fpu)).overrides
      (Board.beforeHoming (shippedTarget32 fpu) p).ctrl := by rw [c1]; exact ⟨rfl, rfl⟩
  refine ⟨hinv, by rw [a4]; exact order_smooth hst hun hsm hin hpos, fun _ => ?_⟩
  refine ⟨_, m, 0, [], hst, hun, hsm, hin, hpos, by rw [hm]; rfl, ?_⟩
  rw [List.replicate_zero, MotionCtrl.run, a4]
  rfl

private theorem loops_join {K : MotionKit} (t : Target K) {l l' : List Round} : ∀ {b b₁ b₂ : Board K}, b.loops t l = some b₁ →
    b₁.loops t l' = some b₂ → b.loops t (l ++ l') = some b₂ := by
  induction l with
  | nil =>
    intro b b₁ b₂ h h'
    simp only [Board.loops, Option.some.injEq] at h
    rw [h]; exact h'
  | cons r l ih =>
    intro b b₁ b₂ h h'
    rw [List.cons_append]
    unfold Board.loops at h ⊢
    split at h
    · cases h
    · exact ih h h'

private theorem timely_prefix {fpu : Fpu} {p : Ports} {l l' : List Round} (h : Timely fpu p (l ++ l')) : Timely fpu p l := by
  intro before r after b b' he
  exact h before r (after ++ l') b b' (by rw [he]; simp)

private theorem timely_tracked {fpu : Fpu} {p : Ports} (before : List Round) {rs : List Round} {b : Board (cnc3axis32.kit32 fpu)}
    (h : Timely fpu p (before ++ rs)) (hb : Board.run (shippedTarget32 fpu) p before = some b) :
    Tracked fpu b := by
  have key : ∀ (l before : List Round) (b b' : Board (cnc3axis32.kit32 fpu)), Timely fpu p (before ++ l ++ rs) →
      Board.run (shippedTarget32 fpu) p before = some b → b.loops (shippedTarget32 fpu) l = some b' → Tracked fpu b → Tracked fpu b' := by
    intro l
    induction l with
    | nil =>
      intro before b b' _ _ hl ht
      simp only [Board.loops, Option.some.injEq] at hl
      rw [← hl]; exact ht
    | cons r l ih =>
      intro before b b' h hb hl ht
      unfold Board.loops at hl
      split at hl
      · cases hl
      · rename_i b₁ hb₁
        have := (tracked_step (r := r) hb ht fun b' hl => h before r (l ++ rs) b b' (by simp) hb hl).2 b₁ hb₁
        exact ih (before ++ [r]) b₁ b' (by simpa using h) (run_snoc _ p before hb hb₁) hl this
  exact key before [] _ _ (by simpa using h) rfl hb (tracked_setup fpu p)

private theorem timely_round {fpu : Fpu} {p : Ports} {before : List Round} {r : Round} {rs : List Round}
    {b : Board (cnc3axis32.kit32 fpu)} (h : Timely fpu p (before ++ r :: rs))
    (hb : Board.run (shippedTarget32 fpu) p before = some b) : Board.OrderlyRound (shippedTarget32 fpu) b r :=
  (tracked_step hb (timely_tracked before h hb) fun b' hl => h before r rs b b' rfl hb hl).1

/-! ## C121 -/

/-- **C121.** If homing stops its moves only while they cruise, and its moves are inside of the machine, then the schedule is orderly, so
that the conclusions of C77, C78, C115, C119 and C120 hold. -/
theorem homing_timely (fpu : Fpu) (p : Ports) (rounds : List Round) (h : Timely fpu p rounds) :
    Board.Orderly (shippedTarget32 fpu) (Board.setup (shippedTarget32 fpu) p) rounds := by
  have key : ∀ (rs before : List Round) (b : Board (cnc3axis32.kit32 fpu)), rounds = before ++ rs →
      Board.run (shippedTarget32 fpu) p before = some b → Board.Orderly (shippedTarget32 fpu) b rs := by
    intro rs
    induction rs with
    | nil => exact fun _ _ _ _ => trivial
    | cons r rs ih =>
      intro before b he hb
      rw [he] at h
      exact ⟨timely_round h hb, fun b' hl => ih (before ++ [r]) b' (by rw [he]; simp) (run_snoc _ p before hb hl)⟩
  exact key rounds [] _ rfl rfl

/-- **C121, orders.** In such a run homing orders a move only at standstill, from the position where the machine is, and it is then the
only motion. -/
theorem homing_timely_orders (fpu : Fpu) (p : Ports) (rounds : List Round) {r : Round} (h : Timely fpu p (rounds ++ [r]))
    {b b₁ b' : Board (cnc3axis32.kit32 fpu)} (hb : Board.run (shippedTarget32 fpu) p rounds = some b) (hf : b.fill r.calcs = some b₁)
    (hl : b.loop (shippedTarget32 fpu) r = some b') :
    ∃ new, orders b'.acts = orders b.acts ++ new ∧ ∀ m ∈ new,
      b₁.ctrl.state = .stopped ∧ m.position = b₁.ctrl.machinePosition ∧
      b'.ctrl.state = .running ∧ b'.ctrl.requests = [some (cnc3axis32.homingRequest32 m)] :=
  homing_orders_partial _ p rounds hb (homing_timely fpu p rounds (timely_prefix h)) (timely_round h hb) hf hl

/-- **C121, waiting.** In such a run, if no event is lost: when the machine stands still and no event is pending, homing is complete or
waits for a limit switch. -/
theorem homing_timely_waits (fpu : Fpu) (p : Ports) (rounds : List Round) (h : Timely fpu p rounds) {b : Board (cnc3axis32.kit32 fpu)}
    (hb : Board.run (shippedTarget32 fpu) p rounds = some b) (hn : NoOverflow b.calls) (hs : b.ctrl.state = .stopped)
    (hq : pending b.calls = []) :
    b.homer.state = .lost ∨ b.homer.state = .found ∨ b.homer.state = .closing ∨ b.homer.state = .opening :=
  homing_waits_partial _ p rounds hb (homing_timely fpu p rounds h) hn hs hq

/-- **C121, steps.** In such a run a step is on the axis of the move that homing has ordered last. -/
theorem homing_timely_steps (fpu : Fpu) (p : Ports) (rounds : List Round) (h : Timely fpu p rounds) {b : Board (cnc3axis32.kit32 fpu)}
    (hb : Board.run (shippedTarget32 fpu) p rounds = some b) {n : Nat} {c : MotionCtrl (cnc3axis32.kit32 fpu)} {log}
    (hrun : b.ctrl.run (List.replicate n .calculate) = some (c, log)) {k} (hk : k ∈ ticksOf log) {i : Nat} (hi : i < 3)
    (hstep : k.cmd i ≠ none) : ∃ m, (orders b.acts).getLast? = some m ∧ i = m.axis := by
  refine homing_steps _ p rounds hb (homing_timely fpu p rounds h) (fun m hm hne x _ => homingRequest32_still ?_ x hi hne) hrun hk hstep
  obtain ⟨s1, -⟩ := (shipped_moves (shippedTarget32 fpu) rfl p rounds hb hm).size
  intro e
  rw [e] at s1
  norm_num at s1

/-! ## C122: where homing leaves an axis -/

/-- **C122.** In such a run: homing backs off the switch of axis `a`, slowly, and stops in iteration `r`, when the switch is reported
open; it gives no command in the iterations `rs`, and orders the offset move in iteration `r'`; it gives no further command in the
iterations `rs'`, after which the machine stands still. Then the axis is 600 steps (3 mm) further off the switch (which is at the upper
end) than it was when homing was told of the opening, but for at most 3 steps less and 67 steps (0.34 mm) more; the other axes have not
moved since. -/
theorem homing_place_single (fpu : Fpu) (p : Ports) {rounds rs rs' : List Round} {r r' : Round}
    {b b₁ b₂ b₃ b₄ : Board (cnc3axis32.kit32 fpu)} (ht : Timely fpu p (rounds ++ r :: (rs ++ r' :: rs')))
    (h : Board.run (shippedTarget32 fpu) p rounds = some b) {a : Nat} {m m' : HomingMove} (hm : (orders b.acts).getLast? = some m)
    (hrel : Release .cnc3axis a m) (hl : b.loop (shippedTarget32 fpu) r = some b₁) (hstop : .stop ∈ b₁.acts.drop b.acts.length)
    (hrs : b₁.loops (shippedTarget32 fpu) rs = some b₂) (hquiet : ∀ x ∈ b₂.acts.drop b₁.acts.length, ¬ IsCommand x)
    (hl' : b₂.loop (shippedTarget32 fpu) r' = some b₃) (hm' : m' ∈ (orders b₃.acts).drop (orders b₂.acts).length)
    (hoff : Offset .cnc3axis a m') (hrs' : b₃.loops (shippedTarget32 fpu) rs' = some b₄)
    (hquiet' : ∀ x ∈ b₄.acts.drop b₃.acts.length, ¬ IsCommand x) (hend : b₄.ctrl.state = .stopped) :
    b₁.ctrl.machinePosition a - 667 ≤ b₄.ctrl.machinePosition a ∧ b₄.ctrl.machinePosition a ≤ b₁.ctrl.machinePosition a - 597 ∧
    ∀ i, i < 3 → i ≠ a → b₄.ctrl.machinePosition i = b₁.ctrl.machinePosition i := by
  -- the stop
  have hb := timely_tracked rounds ht h
  have hround := timely_round ht h
  obtain ⟨new, hnew, hcases⟩ := loop_cases _ hb.inv hround.regular hl
  have hs' := hstop
  rw [hnew, List.drop_left] at hs'
  have hst : b.homer.state = .closing ∨ b.homer.state = .opening := by
    rcases hcases with ⟨-, h, -⟩ | ⟨h, -⟩ | ⟨h, -⟩ | ⟨h, -⟩
    · exact absurd hs' h
    · exact h
    · exact absurd hs' h
    · exact absurd hs' h
  obtain ⟨c₀, m₀, k, log₀, e1, e2, e3, e4, e5, e6, e7⟩ := hb.since hst
  rw [hm] at e6
  simp only [Option.some.injEq] at e6
  subst e6
  obtain ⟨c, log, hc, hc'⟩ := loop_stop _ hl hstop
  have hpos : c.stop.machinePosition = c.machinePosition := (MotionCtrl.sameButProf_optimize _).pos
  have hcr := (ht rounds r _ b b₁ rfl h hl).1 hstop m hm
  rw [hc', hpos] at hcr ⊢
  have hj := run_join _ e7 hc
  rw [← List.replicate_add] at hj
  have hmk := order_executed_single e1 e2 e3 e4 e5 hj
  -- up to the order
  have hrun₁ := run_snoc _ p rounds h hl
  have hrun₂ : Board.run (shippedTarget32 fpu) p (rounds ++ r :: rs) = some b₂ := by
    have := loops_join _ hrun₁ hrs
    rwa [List.append_assoc] at this
  have ht₂ : Timely fpu p ((rounds ++ r :: rs) ++ r' :: rs') := by simpa using ht
  have hb₂ := timely_tracked _ ht₂ hrun₂
  have hround₂ := timely_round ht₂ hrun₂
  obtain ⟨-, -, b₂₁, hf, hmv, -⟩ := Board.loop_phase _ hb₂.inv hround₂ hl'
  obtain ⟨new₂, hnew₂, -⟩ := loop_cases _ hb₂.inv hround₂.regular hl'
  rw [hnew₂, List.drop_left] at hmv
  have hm'' := hm'
  rw [hnew₂, orders_append, List.drop_left] at hm''
  obtain ⟨a1, -, -, a4, a5⟩ := hmv m' (in_orders.1 hm'')
  obtain ⟨n₁, q1, q2⟩ := loops_quiet _ rs hrs
  obtain ⟨l₁, g1⟩ := q2 (by rw [q1, List.drop_left] at hquiet; exact hquiet)
  obtain ⟨l₂, g2⟩ := Board.fill_run _ hf
  rw [hc'] at g1
  have g3 := run_join _ g1 g2
  rw [← List.replicate_add] at g3
  have hB := order_stopped_single e1 e2 e3 e4 e5 hj g3 hcr
  -- the offset move
  have hin := (ht₂ _ _ _ _ _ rfl hrun₂ hl').2 m' hm'
  have hrun₃ := run_snoc _ p _ hrun₂ hl'
  have hsm := shipped_moves (shippedTarget32 fpu) rfl p _ hrun₃ (List.mem_of_mem_drop hm')
  have hun : Unchanged (num width32) (MotionCtrl.fresh (cnc3axis32.kit32 fpu)).overrides b₂₁.ctrl :=
    Board.fill_unchanged _ (Board.loops_unchanged _ _ (Board.setup_unchanged (shippedTarget32 fpu) p) hrun₂) hf
  obtain ⟨n₃, q3, q4⟩ := loops_quiet _ rs' hrs'
  obtain ⟨l₃, g4⟩ := q4 (by rw [q3, List.drop_left] at hquiet'; exact hquiet')
  rw [a5] at g4
  have hM := order_executed_single a1 hun hsm hin a4 g4
  obtain ⟨r1, r2, r3⟩ := hrel
  obtain ⟨o1, o2, o3⟩ := hoff
  have hover := hM.over hend
  have hax : a < 3 := r1 ▸ e3.axis
  have hsign : sign .cnc3axis a = 1 := rfl
  have h300 : 0 < HomingConfig.cnc3axis.sMax a := by
    rcases (show a = 0 ∨ a = 1 ∨ a = 2 by omega) with e | e | e <;> rw [e] <;> norm_num [HomingConfig.cnc3axis]
  have hadv : ∀ P : Nat → Int, advance m P = m.position a - P a := by
    intro P
    unfold advance
    rw [if_neg (by rw [r2, hsign]; linarith), r1]
  have hspeed : m.speed = 1 := r3
  have hoffset : m'.offset = -3 := by rw [o2, hsign]; norm_num [HomingConfig.cnc3axis]
  have k1 := hB.onward
  have k2 := hB.overrun
  rw [hadv, hadv] at k1 k2
  rw [hspeed] at k2
  norm_num at k2
  have k2 : m.position a ≤ m.position a - c.machinePosition a + 66 + b₂₁.ctrl.machinePosition a := by exact_mod_cast k2
  have k3 : |b₂₁.ctrl.machinePosition a - 600 - b₄.ctrl.machinePosition a| ≤ 1 := by
    rw [o1, a4, hoffset] at hover
    have : |((b₂₁.ctrl.machinePosition a - 600 - b₄.ctrl.machinePosition a : ℤ) : ℝ)| ≤ 1 := by
      push_cast at hover ⊢
      rw [show (b₂₁.ctrl.machinePosition a : ℝ) - 600 - b₄.ctrl.machinePosition a =
        b₂₁.ctrl.machinePosition a + 200 * -3 - b₄.ctrl.machinePosition a by ring]
      exact hover
    exact_mod_cast this
  have k3 := abs_le.1 k3
  refine ⟨by omega, by omega, ?_⟩
  · intro i hi hne
    rw [hM.others i hi (by rw [o1]; exact hne), a4, hB.others i hi (by rw [r1]; exact hne), hmk.others i hi (by rw [r1]; exact hne)]

/-- Z (60 mm, switch at the top) backs off its switch, which is reported open at 55 mm: it comes to rest between 51.66 and 52.02 mm, and X
and Y stay where they are. -/
example (fpu : Fpu) (p : Ports) {rounds rs rs' : List Round} {r r' : Round}
    {b b₁ b₂ b₃ b₄ : Board (cnc3axis32.kit32 fpu)} (ht : Timely fpu p (rounds ++ r :: (rs ++ r' :: rs')))
    (h : Board.run (shippedTarget32 fpu) p rounds = some b) {x y : Nat → Int}
    (hm : (orders b.acts).getLast? = some ⟨x, 2, -60, 1⟩) (hl : b.loop (shippedTarget32 fpu) r = some b₁)
    (hstop : .stop ∈ b₁.acts.drop b.acts.length) (h55 : b₁.ctrl.machinePosition 2 = 11000)
    (hrs : b₁.loops (shippedTarget32 fpu) rs = some b₂) (hquiet : ∀ x ∈ b₂.acts.drop b₁.acts.length, ¬ IsCommand x)
    (hl' : b₂.loop (shippedTarget32 fpu) r' = some b₃) (hm' : ⟨y, 2, -3, 10⟩ ∈ (orders b₃.acts).drop (orders b₂.acts).length)
    (hrs' : b₃.loops (shippedTarget32 fpu) rs' = some b₄) (hquiet' : ∀ x ∈ b₄.acts.drop b₃.acts.length, ¬ IsCommand x)
    (hend : b₄.ctrl.state = .stopped) :
    10333 ≤ b₄.ctrl.machinePosition 2 ∧ b₄.ctrl.machinePosition 2 ≤ 10403 ∧
      b₄.ctrl.machinePosition 0 = b₁.ctrl.machinePosition 0 ∧ b₄.ctrl.machinePosition 1 = b₁.ctrl.machinePosition 1 := by
  obtain ⟨h1, h2, h3⟩ := homing_place_single fpu p (a := 2) ht h hm ⟨rfl, by simp [sign, HomingConfig.cnc3axis], rfl⟩ hl hstop hrs hquiet hl' hm'
    ⟨rfl, by simp [sign, HomingConfig.cnc3axis], rfl⟩ hrs' hquiet' hend
  exact ⟨by omega, by omega, h3 0 (by omega) (by omega), h3 1 (by omega) (by omega)⟩

end Moovr.Props
