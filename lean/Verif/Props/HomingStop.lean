import Verif.Props.HomingSingle
import Verif.Props.SingleStop
/-!
# Property C119: homing stops a move, in single precision

The whole main program on the 3-axis machine, with `float` arithmetic in the motion controller: what the axes do when homing, told that
the switch has closed or opened, stops the move.
-/
namespace Moovr.Props
open Num Float32 MotionSpec HomingSpec
open MotionCtrl (Unchanged)
open Single (num)

/-- The steps made in the direction of the move. -/
def advance (m : HomingMove) (position : Nat → Int) : Int :=
  if 0 ≤ m.offset then position m.axis - m.position m.axis else m.position m.axis - position m.axis

/-- The axis of the move is at a place of its cruise: at least 0.62 s at full speed (and 5 steps) after its start, and 1.3 s (and 5
steps) before its end. -/
structure Cruising (m : HomingMove) (position : Nat → Int) : Prop where
  early : 124 * m.speed + 5 ≤ advance m position
  late : advance m position + (260 * m.speed + 5) ≤ 200 * |m.offset|

/-- `n` calculations after the request to stop, when the axes were at `position`: the axis of the move has come to a stop, or is
about to, at most 0.32 s at full speed (and 2 steps) further, and before the end of the move; the other axes have not moved during the
move; after 0.615 s the machine has stopped. -/
structure BrakesMove32 {fpu : Fpu} (m : HomingMove) (position : Nat → Int) (n : Nat) (c : MotionCtrl (cnc3axis32.kit32 fpu)) : Prop where
  state : c.state = .stopping ∨ c.state = .stopped
  onward : advance m position - 2 ≤ advance m c.machinePosition
  overrun : (advance m c.machinePosition : ℚ) ≤ advance m position + (64 * m.speed + 2)
  short : (advance m c.machinePosition : ℚ) ≤ 200 * |m.offset| + 1
  others : ∀ i, i < 3 → i ≠ m.axis → c.machinePosition i = m.position i
  ends : 36900 ≤ n → c.state = .stopped ∧ c.buffer.level = 1

/-! ## Proof -/

/-- If homing calls `stop`, it does nothing else. -/
private theorem react_stop (cfg : HomingConfig) (env : HomingEnv) (h : Homer) (e : Event) (hs : .stop ∈ (Homer.react cfg env h e).2) :
    (Homer.react cfg env h e).2 = [.stop] := by
  have happ : ∀ h : Homer, .stop ∉ (Homer.approach cfg env h).2 := by
    intro h
    unfold Homer.approach
    simp only
    cases env.closed h.theLimitSwitch <;> simp [Homer.goTo, Homer.enterState]
  generalize hr : Homer.react cfg env h e = r at *
  unfold Homer.react at hr
  split at hr
  · subst hr; simp at hs
  · split at hr
    · subst hr; exact absurd hs (happ _)
    · subst hr; simp at hs
  · split at hr
    · subst hr; rfl
    · subst hr; simp at hs
  · split at hr
    · subst hr; simp [Homer.goTo, Homer.enterState] at hs
    · subst hr; simp at hs
  · split at hr
    · subst hr; rfl
    · subst hr; simp at hs
  · split at hr
    · subst hr; simp [Homer.goTo, Homer.enterState] at hs
    · subst hr; simp at hs
  · split at hr
    · simp only at hr
      split at hr
      · subst hr; exact absurd hs (happ _)
      · subst hr; simp [Homer.goTo, Homer.enterState] at hs
    · subst hr; simp at hs
  · subst hr; simp at hs

/-- Handling an event upon which homing calls `stop`. -/
private theorem handle_stop {K : MotionKit} (t : Target K) (b : Board K) (hs : .stop ∈ (b.handle t).acts.drop b.acts.length) :
    (b.handle t).ctrl = b.ctrl.stop := by
  unfold Board.handle at *
  simp only at *
  split at hs <;> rename_i hh
  · rw [if_pos hh]
    generalize hb : (b.onQueue .hasEvents).onQueue .pop = b₂ at *
    have hc : b₂.ctrl = b.ctrl := by rw [← hb]; rfl
    have ha : b₂.acts = b.acts := by rw [← hb]; rfl
    generalize (b.onQueue .hasEvents).queue.popEvent.2 = e at *
    have hacts : (b₂.withHomer t (Homer.handleEvents t.cfg b₂.env b₂.homer e)).acts =
        b.acts ++ .handled e :: (Homer.react t.cfg b₂.env b₂.homer e).2 := by
      rw [← ha]; exact foldl_acts t _ _
    rw [hacts, List.drop_left] at hs
    have hr := react_stop t.cfg b₂.env b₂.homer e (by simpa using hs)
    unfold Board.withHomer Homer.handleEvents
    simp only [hr, List.foldl_cons, List.foldl_nil, Board.exec]
    rw [Board.withCtrl_ctrl, hc]
  · simp [Board.onQueue] at hs

/-- An iteration in which homing calls `stop`. -/
theorem loop_stop {K : MotionKit} (t : Target K) {b b' : Board K} {r : Round} (h : b.loop t r = some b')
    (hs : .stop ∈ b'.acts.drop b.acts.length) :
    ∃ c log, b.ctrl.run (List.replicate r.calcs .calculate) = some (c, log) ∧ b'.ctrl = c.stop := by
  unfold Board.loop at h
  split at h
  · cases h
  · rename_i b₁ hb₁
    simp only [Option.some.injEq] at h
    subst h
    have h2 : (if r.expired then b₁.sample r.ports else b₁).ctrl = b₁.ctrl ∧ (if r.expired then b₁.sample r.ports else b₁).acts = b.acts := by
      rw [← fill_acts _ hb₁]
      split
      · exact ⟨Board.sample_ctrl _ _, sample_acts _ _⟩
      · exact ⟨rfl, rfl⟩
    generalize (if r.expired then b₁.sample r.ports else b₁) = b₂ at *
    rw [← h2.2] at hs
    obtain ⟨log, hl⟩ := Board.fill_run _ hb₁
    exact ⟨b₁.ctrl, log, hl, by rw [handle_stop t b₂ hs, h2.1]⟩

/-- The place of an axis on the line of the move. -/
private theorem cruise_at {m : HomingMove} (hm : ShippedMove m) {x : Nat → ℝ} (hnear : ∀ i, i < 3 → |200 * x i - m.position i| ≤ 1 / 100)
    {P : Nat → Int} (hothers : ∀ i, i < 3 → i ≠ m.axis → P i = m.position i) :
    ∀ i, i < 3 → |200 * (x i + (if i = m.axis then (m.offset : ℝ) else 0) * ((advance m P : ℝ) / 200 / |(m.offset : ℝ)|)) - P i| ≤ 1 := by
  obtain ⟨s1, -⟩ := hm.size
  have hne : (m.offset : ℝ) ≠ 0 := by rw [← abs_pos]; linarith
  have key : (m.offset : ℝ) * ((advance m P : ℝ) / 200 / |(m.offset : ℝ)|) = ((P m.axis : ℝ) - m.position m.axis) / 200 := by
    unfold advance
    rcases lt_or_gt_of_ne hne with hlt | hgt
    · have : ¬ 0 ≤ m.offset := by push Not; exact_mod_cast hlt
      rw [if_neg this, abs_of_neg hlt]
      push_cast
      field_simp
      ring
    · have : 0 ≤ m.offset := by exact_mod_cast hgt.le
      rw [if_pos this, abs_of_pos hgt]
      push_cast
      field_simp
  intro i hi
  have hn := abs_le.1 (hnear i hi)
  by_cases e : i = m.axis
  · subst e
    rw [if_pos rfl, key, abs_le]
    constructor <;> linarith
  · rw [if_neg e, zero_mul, add_zero, hothers i hi e]
    exact (hnear i hi).trans (by norm_num)

/-- A move ordered at standstill, at a place of its cruise: it is being made, and after a stop it does not end by itself. -/
theorem order_cruising {fpu : Fpu} {c : MotionCtrl (cnc3axis32.kit32 fpu)} (hs : c.state = .stopped)
    (hc : Unchanged (num width32) (MotionCtrl.fresh (cnc3axis32.kit32 fpu)).overrides c) {m : HomingMove} (hm : ShippedMove m)
    (hin : Inside m) (hpos : m.position = c.machinePosition) {k : Nat} {c₁ : MotionCtrl (cnc3axis32.kit32 fpu)} {log₁}
    (h : ((c.flushMotionBuffer.append (cnc3axis32.homingRequest32 m)).start).run (List.replicate k .calculate) = some (c₁, log₁))
    (hcr : Cruising m c₁.machinePosition) : c₁.state = .running ∧ c₁.buffer.level = 1 ∧ c₁.stop.state = .stopping ∧
      c₁.stop.buffer.level = 1 ∧ Profile32.duration c₁.stop.buffer.getHead.prof = ⟨posInf⟩ := by
  obtain ⟨x, ho⟩ := order_setting hs hc hm hin hpos
  have hmp := ho.position
  obtain ⟨log', hrun, -⟩ := order_run h
  have hmk := order_executed_single hs hc hm hin hpos h
  have early : (124 * m.speed + 5 : ℝ) ≤ advance m c₁.machinePosition := by exact_mod_cast hcr.early
  have late : (advance m c₁.machinePosition + (260 * m.speed + 5) : ℝ) ≤ 200 * |(m.offset : ℝ)| := by exact_mod_cast hcr.late
  exact stop_place_plan (V := m.speed) ho.idle ho.override ho.line ho.asked
    (fun i hi => by rw [hmp]; exact (ho.near i hi).trans (by norm_num)) (.inl ⟨m.speed, rfl, by rw [mul_one]⟩) hrun
    (cruise_at hm ho.near hmk.others) (by linarith) (by linarith)

/-- A move ordered at standstill, and stopped. -/
theorem order_stopped_single {fpu : Fpu} {c : MotionCtrl (cnc3axis32.kit32 fpu)} (hs : c.state = .stopped)
    (hc : Unchanged (num width32) (MotionCtrl.fresh (cnc3axis32.kit32 fpu)).overrides c) {m : HomingMove} (hm : ShippedMove m)
    (hin : Inside m) (hpos : m.position = c.machinePosition) {k n : Nat} {c₁ c₂ : MotionCtrl (cnc3axis32.kit32 fpu)} {log₁ log₂}
    (h : ((c.flushMotionBuffer.append (cnc3axis32.homingRequest32 m)).start).run (List.replicate k .calculate) = some (c₁, log₁))
    (h' : c₁.stop.run (List.replicate n .calculate) = some (c₂, log₂)) (hcr : Cruising m c₁.machinePosition) :
    BrakesMove32 m c₁.machinePosition n c₂ := by
  obtain ⟨x, ho⟩ := order_setting hs hc hm hin hpos
  have hmp := ho.position
  obtain ⟨log', hrun, hticks⟩ := order_run h
  obtain ⟨s1, s2⟩ := hm.size
  have hmk := order_executed_single hs hc hm hin hpos h
  have hne : (m.offset : ℝ) ≠ 0 := by rw [← abs_pos]; linarith
  have hL : 0 < |(m.offset : ℝ)| := by linarith
  have hstop : c₁.run (.stop :: List.replicate n .calculate) =
      some (c₂, (.stop, ⟨c₁.stop.events.drop c₁.events.length, none, []⟩) :: log₂) := by
    rw [MotionCtrl.run]
    simp only [MotionCtrl.call, h', Option.map_some]
  -- the direction
  obtain ⟨σ, hσ, hoff, hadv⟩ : ∃ σ : ℝ, (σ = 1 ∨ σ = -1) ∧ (m.offset : ℝ) = σ * |(m.offset : ℝ)| ∧
      ∀ P : Nat → Int, ((advance m P : ℤ) : ℝ) = σ * (P m.axis - m.position m.axis) := by
    rcases lt_or_gt_of_ne hne with hlt | hgt
    · refine ⟨-1, .inr rfl, by rw [abs_of_neg hlt]; ring, fun P => ?_⟩
      have : ¬ 0 ≤ m.offset := by push Not; exact_mod_cast hlt
      unfold advance
      rw [if_neg this]; push_cast; ring
    · refine ⟨1, .inl rfl, by rw [abs_of_pos hgt]; ring, fun P => ?_⟩
      have : 0 ≤ m.offset := by exact_mod_cast hgt.le
      unfold advance
      rw [if_pos this]; push_cast; ring
  have hσ2 : σ * σ = 1 := by rcases hσ with e | e <;> rw [e] <;> norm_num
  have hunit : (m.offset : ℝ) / |(m.offset : ℝ)| = σ := by rw [div_eq_iff hL.ne']; exact hoff
  -- a point of the line, and the steps
  have conv : ∀ (s : ℝ) (P : Nat → Int), |200 * (x m.axis + m.offset * (s / |(m.offset : ℝ)|)) - P m.axis| ≤ 1 →
      |200 * s - advance m P| ≤ 101 / 100 := by
    intro s P hP
    rw [show (m.offset : ℝ) * (s / |(m.offset : ℝ)|) = m.offset / |(m.offset : ℝ)| * s by ring, hunit] at hP
    have hn := abs_le.1 (ho.near _ hm.axis)
    have hP := abs_le.1 hP
    rw [hadv, abs_le]
    rcases hσ with rfl | rfl <;> constructor <;> linarith
  have hat := cruise_at hm ho.near hmk.others
  have early : (124 * m.speed + 5 : ℝ) ≤ advance m c₁.machinePosition := by exact_mod_cast hcr.early
  have late : (advance m c₁.machinePosition + (260 * m.speed + 5) : ℝ) ≤ 200 * |(m.offset : ℝ)| := by exact_mod_cast hcr.late
  obtain ⟨N, s₀, s₁, n1, n2, z0, z1, z2, z3, p1, p2, p3, p4⟩ := stop_place_single (V := m.speed) ho.idle ho.override ho.line ho.asked
    (fun i hi => by rw [hmp]; exact (ho.near i hi).trans (by norm_num)) (.inl ⟨m.speed, rfl, by rw [mul_one]⟩) hrun hstop hat
    (by linarith) (by linarith)
  have hcommon : ∃ s, s₀ ≤ s ∧ s ≤ s₁ ∧ ∀ i, i < 3 → |200 * (x i + (if i = m.axis then (m.offset : ℝ) else 0) * (s / |(m.offset : ℝ)|)) -
      c₂.machinePosition i| ≤ 1 := by
    rcases le_or_gt N (ticksOf ((.stop, ⟨c₁.stop.events.drop c₁.events.length, none, []⟩) :: log₂)).length with e | e
    · exact ⟨s₁, z1, le_rfl, (p2 e).2.2⟩
    · obtain ⟨-, s, a, b, hh⟩ := p3 e
      exact ⟨s, a, b, hh⟩
  obtain ⟨s, sa, sb, hh⟩ := hcommon
  have q1 := p1 _ hm.axis
  have q2 := hh _ hm.axis
  rw [if_pos rfl] at q1 q2
  have q1 := abs_le.1 (conv _ _ q1)
  have q2 := abs_le.1 (conv _ _ q2)
  refine ⟨?_, ?_, ?_, ?_, ?_, ?_⟩
  · rcases le_or_gt N (ticksOf ((.stop, ⟨c₁.stop.events.drop c₁.events.length, none, []⟩) :: log₂)).length with e | e
    · exact .inr (p2 e).1
    · exact .inl (p3 e).1
  · have : ((advance m c₁.machinePosition - 3 : ℤ) : ℝ) < advance m c₂.machinePosition := by push_cast; linarith
    have : advance m c₁.machinePosition - 3 < advance m c₂.machinePosition := by exact_mod_cast this
    omega
  · rcases hm.speed with e | e <;> rw [e] at z3 ⊢ <;> norm_num at z3 ⊢
    · have : ((advance m c₂.machinePosition : ℤ) : ℝ) < ((advance m c₁.machinePosition + 643 : ℤ) : ℝ) := by push_cast; linarith
      have : advance m c₂.machinePosition < advance m c₁.machinePosition + 643 := by exact_mod_cast this
      exact_mod_cast (show advance m c₂.machinePosition ≤ advance m c₁.machinePosition + 642 by omega)
    · have : ((advance m c₂.machinePosition : ℤ) : ℝ) < ((advance m c₁.machinePosition + 67 : ℤ) : ℝ) := by push_cast; linarith
      have : advance m c₂.machinePosition < advance m c₁.machinePosition + 67 := by exact_mod_cast this
      exact_mod_cast (show advance m c₂.machinePosition ≤ advance m c₁.machinePosition + 66 by omega)
  · obtain ⟨l, hl⟩ : ∃ l : ℤ, |m.offset| = l := by
      rcases hm.offset with e | e | e | e <;> rw [e]
      · exact ⟨300, by norm_num⟩
      · exact ⟨160, by norm_num⟩
      · exact ⟨60, by norm_num⟩
      · exact ⟨3, by norm_num⟩
    have hl' : |(m.offset : ℝ)| = l := by exact_mod_cast hl
    rw [hl'] at z2
    have : ((advance m c₂.machinePosition : ℤ) : ℝ) < ((200 * l + 2 : ℤ) : ℝ) := by push_cast; linarith
    have : advance m c₂.machinePosition < 200 * l + 2 := by exact_mod_cast this
    rw [hl]
    exact_mod_cast (show advance m c₂.machinePosition ≤ 200 * l + 1 by omega)
  · intro i hi hne'
    have e1 : c₁.stop.machinePosition = c₁.machinePosition := (MotionCtrl.sameButProf_optimize _).pos
    have e2 : ∀ t ∈ ticksOf log₂, t.cmd i = none := (p4 i hi).1 (if_neg hne')
    rw [calculates_position n i h', e1, net_zero e2, add_zero]
    exact hmk.others i hi hne'
  · intro hn
    obtain ⟨a, b, -⟩ := p2 (n1.trans (hn.trans n2))
    exact ⟨a, b⟩

/-- The iterations from an order on: quiet ones, and one with a stop. -/
private theorem stop_after {K : MotionKit} (t : Target K) {b b₁ b₂ b₃ : Board K} {rs rs' : List Round} {r : Round}
    (h₁ : b.loops t rs = some b₁) (q₁ : ∀ x ∈ b₁.acts.drop b.acts.length, ¬ IsCommand x) (h₂ : b₁.loop t r = some b₂)
    (hs : .stop ∈ b₂.acts.drop b₁.acts.length) (h₃ : b₂.loops t rs' = some b₃)
    (q₃ : ∀ x ∈ b₃.acts.drop b₂.acts.length, ¬ IsCommand x) :
    ∃ k c log log', b.ctrl.run (List.replicate k .calculate) = some (c, log) ∧ c.machinePosition = b₂.ctrl.machinePosition ∧
      c.stop.run (List.replicate (rs'.map Round.calcs).sum .calculate) = some (b₃.ctrl, log') := by
  obtain ⟨n₁, e1, f1⟩ := loops_quiet t rs h₁
  obtain ⟨l₁, g1⟩ := f1 (by rw [e1, List.drop_left] at q₁; exact q₁)
  obtain ⟨c, l₂, g2, hc⟩ := loop_stop t h₂ hs
  obtain ⟨n₃, e3, f3⟩ := loops_quiet t rs' h₃
  obtain ⟨l₃, g3⟩ := f3 (by rw [e3, List.drop_left] at q₃; exact q₃)
  refine ⟨(rs.map Round.calcs).sum + r.calcs, c, l₁ ++ l₂, l₃, ?_, ?_, by rw [← hc]; exact g3⟩
  · rw [List.replicate_add]; exact run_join _ g1 g2
  · rw [hc, show c.stop.machinePosition = c.machinePosition from (MotionCtrl.sameButProf_optimize _).pos]

/-! ## C119 -/

/-- **C119 for the first move**, which is ordered by `setup`; any schedule. -/
theorem homing_first_stop_single (fpu : Fpu) (p : Ports) {rs rs' : List Round} {r : Round} {b b' b'' : Board (cnc3axis32.kit32 fpu)}
    (h : Board.run (shippedTarget32 fpu) p rs = some b) {m : HomingMove} (hm : m ∈ orders (Board.setup (shippedTarget32 fpu) p).acts)
    (hquiet : ∀ x ∈ b.acts.drop (Board.setup (shippedTarget32 fpu) p).acts.length, ¬ IsCommand x)
    (hl : b.loop (shippedTarget32 fpu) r = some b') (hstop : .stop ∈ b'.acts.drop b.acts.length)
    (hrs : b'.loops (shippedTarget32 fpu) rs' = some b'') (hquiet' : ∀ x ∈ b''.acts.drop b'.acts.length, ¬ IsCommand x)
    (hcr : Cruising m b'.ctrl.machinePosition) :
    BrakesMove32 m b'.ctrl.machinePosition (rs'.map Round.calcs).sum b''.ctrl := by
  have hmem : .append m ∈ (Board.setup (shippedTarget32 fpu) p).acts := by
    unfold orders at hm
    rw [List.mem_filterMap] at hm
    obtain ⟨a, ha, he⟩ := hm
    cases a <;> simp at he
    subst he
    exact ha
  obtain ⟨-, -, a3, a4⟩ := (Board.setup_phase (shippedTarget32 fpu) p).2 m hmem
  have hsm := shipped_moves (shippedTarget32 fpu) rfl p [] rfl hm
  obtain ⟨c1, -⟩ := Board.beforeHoming_spec (shippedTarget32 fpu) p
  obtain ⟨k, c, log, log', g1, g2, g3⟩ := stop_after _ h hquiet hl hstop hrs hquiet'
  rw [a4] at g1
  rw [← g2] at hcr ⊢
  refine order_stopped_single (by rw [c1]; rfl) (by rw [c1]; exact ⟨rfl, rfl⟩) hsm ⟨fun i _ => by rw [a3]; norm_num, ?_⟩ ?_ g1 g3 hcr
  · rw [a3]
    have h300 : |m.offset| ≤ 300 := by rcases hsm.offset with e | e | e | e <;> rw [e] <;> norm_num
    rw [abs_le] at *
    constructor <;> push_cast <;> linarith
  · rw [a3, c1]
    funext i
    simp only [MotionCtrl.resetMachinePosition]
    split <;> rfl

/-- **C119, where the schedule is orderly**: homing orders the move `m` in iteration `r`, inside of the machine, gives no command in
the iterations `rs`, stops the move in iteration `r'`, while the axis cruises, and gives no further command in the iterations `rs'`:
after these the axis is braking or has braked. Missing: schedules that are not orderly up to the order (as C77); stops that come in
the first 0.62 s or the last 1.3 s of the move. -/
theorem homing_stop_single_partial (fpu : Fpu) (p : Ports) (rounds : List Round) {r r' : Round} {rs rs' : List Round}
    {b b₁ b₂ b₃ b₄ : Board (cnc3axis32.kit32 fpu)} (h : Board.run (shippedTarget32 fpu) p rounds = some b)
    (ho : Board.Orderly (shippedTarget32 fpu) (Board.setup (shippedTarget32 fpu) p) rounds)
    (ho' : Board.OrderlyRound (shippedTarget32 fpu) b r) (hl : b.loop (shippedTarget32 fpu) r = some b₁)
    (hrs : b₁.loops (shippedTarget32 fpu) rs = some b₂) {m : HomingMove} (hm : m ∈ (orders b₁.acts).drop (orders b.acts).length)
    (hin : Inside m) (hquiet : ∀ x ∈ b₂.acts.drop b₁.acts.length, ¬ IsCommand x) (hl' : b₂.loop (shippedTarget32 fpu) r' = some b₃)
    (hstop : .stop ∈ b₃.acts.drop b₂.acts.length) (hrs' : b₃.loops (shippedTarget32 fpu) rs' = some b₄)
    (hquiet' : ∀ x ∈ b₄.acts.drop b₃.acts.length, ¬ IsCommand x) (hcr : Cruising m b₃.ctrl.machinePosition) :
    BrakesMove32 m b₃.ctrl.machinePosition (rs'.map Round.calcs).sum b₄.ctrl := by
  have hi := Board.loops_phase _ rounds (Board.setup_phase _ p).1 ho h
  obtain ⟨-, ⟨new, hnew⟩, b₀, hb₀, hmv, -⟩ := Board.loop_phase _ hi ho' hl
  have hmem : .append m ∈ b₁.acts.drop b.acts.length := by
    rw [← hnew] at hm ⊢
    rw [List.drop_left]
    unfold orders at hm
    rw [List.filterMap_append, List.drop_left, List.mem_filterMap] at hm
    obtain ⟨a, ha, he⟩ := hm
    cases a <;> simp at he
    subst he
    exact ha
  obtain ⟨a1, -, -, a4, a5⟩ := hmv m hmem
  have hsm := shipped_moves (shippedTarget32 fpu) rfl p (rounds ++ [r]) (run_snoc _ p rounds h hl) (List.mem_of_mem_drop hm)
  have hst : Unchanged (num width32) (MotionCtrl.fresh (cnc3axis32.kit32 fpu)).overrides b₀.ctrl :=
    Board.fill_unchanged _ (Board.loops_unchanged _ rounds (Board.setup_unchanged (shippedTarget32 fpu) p) h) hb₀
  obtain ⟨k, c, log, log', g1, g2, g3⟩ := stop_after _ hrs hquiet hl' hstop hrs' hquiet'
  rw [a5] at g1
  rw [← g2] at hcr ⊢
  exact order_stopped_single a1 hst hsm hin a4 g1 g3 hcr

/-- The switch of Z closes after 20 mm of the first move (60 mm up at 10 mm/s): 0.615 s later Z has stopped, at most 3.21 mm further up,
and the other axes have not moved. -/
example (fpu : Fpu) (p : Ports) {rs rs' : List Round} {r : Round} {b b' b'' : Board (cnc3axis32.kit32 fpu)}
    (h : Board.run (shippedTarget32 fpu) p rs = some b) {m : HomingMove} (hm : m ∈ orders (Board.setup (shippedTarget32 fpu) p).acts)
    (e1 : m.axis = 2) (e2 : m.offset = 60) (e3 : m.speed = 10)
    (hquiet : ∀ x ∈ b.acts.drop (Board.setup (shippedTarget32 fpu) p).acts.length, ¬ IsCommand x)
    (hl : b.loop (shippedTarget32 fpu) r = some b') (hstop : .stop ∈ b'.acts.drop b.acts.length)
    (hrs : b'.loops (shippedTarget32 fpu) rs' = some b'') (hquiet' : ∀ x ∈ b''.acts.drop b'.acts.length, ¬ IsCommand x)
    (h20 : b'.ctrl.machinePosition 2 = 4000) (hn : 36900 ≤ (rs'.map Round.calcs).sum) :
    b''.ctrl.state = .stopped ∧ 3998 ≤ b''.ctrl.machinePosition 2 ∧ b''.ctrl.machinePosition 2 ≤ 4642 ∧
      b''.ctrl.machinePosition 0 = 0 ∧ b''.ctrl.machinePosition 1 = 0 := by
  have hp := (homing_orders_first (shippedTarget32 fpu) p m hm).1
  have hadv : ∀ P : Nat → Int, advance m P = P 2 := by
    intro P
    unfold advance
    rw [if_pos (by rw [e2]; norm_num), e1, hp]
    simp
  have hB := homing_first_stop_single fpu p h hm hquiet hl hstop hrs hquiet'
    ⟨by rw [hadv, h20, e3]; norm_num, by rw [hadv, h20, e2, e3]; norm_num [abs_of_pos]⟩
  have h1 := hB.onward
  have h2 := hB.overrun
  have h3 := hB.others 0 (by norm_num) (by rw [e1]; norm_num)
  have h4 := hB.others 1 (by norm_num) (by rw [e1]; norm_num)
  rw [hadv, hadv, h20] at h1 h2
  rw [e3] at h2
  rw [hp] at h3 h4
  refine ⟨(hB.ends hn).1, by omega, ?_, h3, h4⟩
  norm_num at h2
  exact_mod_cast h2

end Moovr.Props
