import Verif.Props.SpeedSingle
import Verif.Props.HomingReaction

/-!
C133: how far a homing move goes beyond the place where its limit switch is closed, with `float` arithmetic: the way during the
iteration of the fifth sample and the at most 16 iterations of C131, and the braking distance of C119.
C134: where homing leaves an axis, measured from the place where its switch opens.
-/

namespace Moovr

namespace Board
open Homer MotionSpec HomingSpec EventQueueSpec LoopSpec

variable {K : MotionKit} (t : Target K)

/-- While homing waits for its switch, an iteration stops the motion, or gives no command. -/
theorem loop_waiting {b b' : Board K} {r : Round} (h : Watching t b) {v : Bool} (ha : awaited b.homer = some v)
    (hl : b.loop t r = some b') :
    HomingAct.stop ∈ b'.acts.drop b.acts.length ∨
    (b'.homer = b.homer ∧ Watching t b' ∧ ∀ x ∈ b'.acts.drop b.acts.length, ¬ IsCommand x) := by
  obtain ⟨b₂, es, n, w, rfl⟩ := loop_parts t h hl
  obtain ⟨w', -, -, -, ⟨-, h2, h3⟩ | ⟨e, q, -, h2, h3⟩⟩ := handle_parts t w
  · refine .inr ⟨h2.trans n.homer, w', ?_⟩
    rw [h3, n.acts]; simp
  · obtain ⟨r1, r2⟩ := react_awaited (cfg := t.cfg) b₂.env b₂.homer e (v := v) (by rw [n.homer]; exact ha)
    rw [← n.acts, h3, List.drop_left, h2]
    by_cases he : (if v then b₂.homer.limitSwitchOpen else b₂.homer.limitSwitchClose) = e
    · exact .inl (by rw [(r1 he).1]; simp)
    · rw [r2 he]
      refine .inr ⟨n.homer, w', ?_⟩
      intro x hx
      simp only [List.mem_singleton] at hx
      rw [hx]
      exact id

/-- The first iteration in which homing stops the motion. -/
theorem first_stop (more : List Round) : ∀ {b b' : Board K} {v : Bool}, Watching t b → awaited b.homer = some v →
    b.loops t more = some b' → HomingAct.stop ∈ b'.acts.drop b.acts.length →
    ∃ rs r rest b₁ b₂, more = rs ++ r :: rest ∧ b.loops t rs = some b₁ ∧ b₁.homer = b.homer ∧
      (∀ x ∈ b₁.acts.drop b.acts.length, ¬ IsCommand x) ∧ b₁.loop t r = some b₂ ∧
      HomingAct.stop ∈ b₂.acts.drop b₁.acts.length := by
  induction more with
  | nil =>
    intro b b' v _ _ hl hs
    simp only [loops, Option.some.injEq] at hl
    subst hl
    simp at hs
  | cons r more ih =>
    intro b b' v h ha hl hs
    unfold loops at hl
    split at hl
    · cases hl
    · rename_i b₁ hb₁
      by_cases h1 : HomingAct.stop ∈ b₁.acts.drop b.acts.length
      · exact ⟨[], r, more, b, b₁, rfl, rfl, rfl, by simp, hb₁, h1⟩
      · obtain ⟨h2, w, h3⟩ := (loop_waiting t h ha hb₁).resolve_left h1
        obtain ⟨x, hx⟩ := loops_acts t [r] (b := b) (b' := b₁) (by simp only [loops, hb₁])
        obtain ⟨y, hy⟩ := loops_acts t more hl
        have hs' : HomingAct.stop ∈ b'.acts.drop b₁.acts.length := by
          rw [← hy, ← hx, List.append_assoc, List.drop_left, List.mem_append] at hs
          rw [← hx, List.drop_left] at h1
          rw [← hy, List.drop_left]
          exact hs.resolve_left h1
        obtain ⟨rs, r', rest, b₂, b₃, e, i1, i2, i3, i4, i5⟩ := ih w (by rw [h2]; exact ha) hl hs'
        refine ⟨r :: rs, r', rest, b₂, b₃, by rw [e]; rfl, by unfold loops; rw [hb₁]; exact i1, i2.trans h2, ?_, i4, i5⟩
        obtain ⟨z, hz⟩ := loops_acts t rs i1
        intro a ha'
        rw [← hz, ← hx, List.append_assoc, List.drop_left, List.mem_append] at ha'
        rw [← hx, List.drop_left] at h3
        rw [← hz, List.drop_left] at i3
        exact ha'.elim (h3 a) (i3 a)

/-- Homing stops the motion in the first of these iterations or in a later one. -/
theorem stop_later {b b' : Board K} {v : Bool} {r : Round} {later : List Round} (h : Watching t b) (ha : awaited b.homer = some v)
    (hl : b.loops t (r :: later) = some b')
    (hs : ∀ b₁, b.loop t r = some b₁ → b₁.homer = b.homer → (∀ x ∈ b₁.acts.drop b.acts.length, ¬ IsCommand x) →
      b₁.loops t later = some b' → HomingAct.stop ∈ b'.acts.drop b₁.acts.length) :
    HomingAct.stop ∈ b'.acts.drop b.acts.length := by
  unfold loops at hl
  split at hl
  · cases hl
  · rename_i b₁ hb₁
    obtain ⟨x, hx⟩ := loops_acts t [r] (b := b) (b' := b₁) (by simp only [loops, hb₁])
    obtain ⟨y, hy⟩ := loops_acts t later hl
    have hsplit : b'.acts.drop b.acts.length = x ++ y := by rw [← hy, ← hx, List.append_assoc, List.drop_left]
    rw [hsplit, List.mem_append]
    rcases loop_waiting t h ha hb₁ with h1 | ⟨h1, -, h2⟩
    · rw [← hx, List.drop_left] at h1
      exact .inl h1
    · have := hs b₁ hb₁ h1 h2 hl
      rw [← hy, List.drop_left] at this
      exact .inr this

end Board

namespace Props
open Num Float32 MotionSpec HomingSpec EventQueueSpec LoopSpec
open MotionCtrl (Unchanged)
open Single (num)
open private Since Tracked timely_tracked from Verif.Props.HomingTimely
open private level_settled alert_stops from Verif.Props.HomingReaction

/-- A move ordered at standstill: how far the axis gets in a part of it. -/
theorem order_travel_single {fpu : Fpu} {c : MotionCtrl (cnc3axis32.kit32 fpu)} (hs : c.state = .stopped)
    (hc : Unchanged (num width32) (MotionCtrl.fresh (cnc3axis32.kit32 fpu)).overrides c) {m : HomingMove} (hm : ShippedMove m)
    (hin : Inside m) (hpos : m.position = c.machinePosition) {k n : Nat} {c₁ c₂ : MotionCtrl (cnc3axis32.kit32 fpu)} {log₁ log₂}
    (h : ((c.flushMotionBuffer.append (cnc3axis32.homingRequest32 m)).start).run (List.replicate k .calculate) = some (c₁, log₁))
    (h' : c₁.run (List.replicate n .calculate) = some (c₂, log₂)) :
    |(advance m c₂.machinePosition : ℝ) - advance m c₁.machinePosition| ≤ 200 * (m.speed * ((ticksOf log₂).length / 60000)) + 2 := by
  obtain ⟨x, ho⟩ := order_setting hs hc hm hin hpos
  obtain ⟨s1, -⟩ := hm.size
  have hj := run_join _ h h'
  rw [← List.replicate_add] at hj
  obtain ⟨log, hrun, hticks⟩ := order_run hj
  have hlen : (ticksOf log₁).length + (ticksOf log₂).length ≤ (ticksOf log).length := by
    rw [hticks, ticks_append, List.length_append]
  have key := (straight_speed_single ho.idle ho.override ho.line ho.asked
    (fun i hi => by rw [ho.position]; exact (ho.near i hi).trans (by norm_num)) hrun hm.axis hlen).2 m.speed rfl
  rw [hticks, ticks_append, List.drop_left, List.take_length, if_pos rfl, div_self (by linarith), mul_one, mul_one] at key
  have hp := calculates_position n m.axis h'
  have e : |(advance m c₂.machinePosition : ℝ) - advance m c₁.machinePosition| = |(net m.axis (ticksOf log₂) : ℝ)| := by
    unfold advance
    split
    · rw [hp]; push_cast; congr 1; ring
    · rw [hp, ← abs_neg]; push_cast; congr 1; ring
  rw [e]
  exact key

/-- **C133.** The 3-axis machine with `float` arithmetic; the main loop runs at least 16 times per sampling of the inputs, and homing
stops its moves only while they cruise. Homing makes the move `m` towards a switch, and the next iteration takes the fifth sample in
succession that shows this switch closed: homing stops the move in this iteration or in one of the 16 that follow. In these the axis
moves on at most by the way at the speed of the move in the samplings calculated there, and 2 steps; and from then on, until homing
gives the next command, it never gets further than 0.32 s at the speed of the move, and 4 steps. -/
theorem homing_overrun_single (fpu : Fpu) (p : Ports) (rounds : List Round) (r₀ : Round) (later : List Round)
    {b b' : Board (cnc3axis32.kit32 fpu)} (h : Board.run (shippedTarget32 fpu) p rounds = some b)
    (ht : Timely fpu p (rounds ++ r₀ :: later)) (hr : SampledRarely 15 (rounds ++ [r₀])) (hs : b.homer.state = .closing)
    (hf : LastFive (switchOf .cnc3axis b.homer.currentHomingAxis) false (rounds ++ [r₀]))
    (hlater : later.length = 16) (hl : b.loops (shippedTarget32 fpu) (r₀ :: later) = some b') {m : HomingMove}
    (hm : (orders b.acts).getLast? = some m) :
    ∃ rs r rest b₁ b₂ c log, r₀ :: later = rs ++ r :: rest ∧
      b.loops (shippedTarget32 fpu) rs = some b₁ ∧ b₁.loop (shippedTarget32 fpu) r = some b₂ ∧
      .stop ∈ b₂.acts.drop b₁.acts.length ∧
      b.ctrl.run (List.replicate (((rs ++ [r]).map Round.calcs).sum) .calculate) = some (c, log) ∧ b₂.ctrl = c.stop ∧
      (advance m b₂.ctrl.machinePosition : ℝ) ≤
        advance m b.ctrl.machinePosition + 200 * (m.speed * ((ticksOf log).length / 60000)) + 2 ∧
      ∀ after b₃, b₂.loops (shippedTarget32 fpu) after = some b₃ → (∀ x ∈ b₃.acts.drop b₂.acts.length, ¬ IsCommand x) →
        (advance m b₃.ctrl.machinePosition : ℝ) ≤
          advance m b.ctrl.machinePosition + 200 * (m.speed * ((ticksOf log).length / 60000 + 32 / 100)) + 4 ∧
        ∀ i, i < 3 → i ≠ m.axis → b₃.ctrl.machinePosition i = b.ctrl.machinePosition i := by
  have ht₀ : Timely fpu p (rounds ++ [r₀]) := fun before r after b b' he => ht before r (after ++ later) b b' (by
    rw [show rounds ++ r₀ :: later = (rounds ++ [r₀]) ++ later by simp, he]; simp)
  have hw := (Board.loops_watching (shippedTarget32 fpu) rounds (Board.setup_sees (shippedTarget32 fpu) p).watching h).1
  have hstop : .stop ∈ b'.acts.drop b.acts.length := by
    refine Board.stop_later _ hw (v := false) (by unfold Homer.awaited; rw [hs]) hl fun b₁ hb₁ hh hw₁ hl₁ => ?_
    have hrun : Board.run (shippedTarget32 fpu) p (rounds ++ [r₀]) = some b₁ := by
      unfold Board.run at h ⊢
      rw [Board.loops_snoc_list, h]
      simp only [Option.bind_some, Board.loops, hb₁]
    exact homing_notices_closing_single fpu p _ later hrun ht₀ hr (by rw [hh]; exact hs) (by rw [hh]; exact hf) hlater.ge hl₁
  generalize r₀ :: later = more at *
  obtain ⟨rs, r, rest, b₁, b₂, e, i1, i2, i3, i4, i5⟩ := Board.first_stop _ more hw
    (v := false) (by unfold Homer.awaited; rw [hs]) hl hstop
  obtain ⟨-, -, hsince⟩ := timely_tracked rounds ht h
  obtain ⟨c₀, m₀, k, log₀, e1, e2, e3, e4, e5, e6, e7⟩ := hsince (.inl hs)
  obtain rfl : m₀ = m := by rw [hm] at e6; exact (Option.some.inj e6).symm
  obtain ⟨new, hnew, hq⟩ := loops_quiet _ rs i1
  obtain ⟨l₁, g1⟩ := hq (by rw [hnew, List.drop_left] at i3; exact i3)
  obtain ⟨c, l₂, g2, g3⟩ := loop_stop _ i4 i5
  have g := run_join _ g1 g2
  rw [← List.replicate_add] at g
  have hsum : ((rs ++ [r]).map Round.calcs).sum = (rs.map Round.calcs).sum + r.calcs := by simp
  have hpos : c.stop.machinePosition = c.machinePosition := (MotionCtrl.sameButProf_optimize _).pos
  have way := (abs_le.1 (order_travel_single e1 e2 e3 e4 e5 e7 g)).2
  refine ⟨rs, r, rest, b₁, b₂, c, l₁ ++ l₂, e, i1, i4, i5, by rw [hsum]; exact g, g3, ?_, fun after b₃ ha hquiet => ?_⟩
  · rw [g3, hpos]; linarith
  · have hrun₁ : Board.run (shippedTarget32 fpu) p (rounds ++ rs) = some b₁ := by
      unfold Board.run at h ⊢
      rw [Board.loops_snoc_list, h]
      exact i1
    have hord : (orders b₁.acts).getLast? = some m₀ := by
      have hno : orders new = [] := by
        unfold orders
        rw [List.filterMap_eq_nil_iff]
        intro x hx
        rw [hnew, List.drop_left] at i3
        have := i3 x hx
        cases x <;> first | rfl | exact absurd trivial this
      rw [hnew]
      unfold orders at hno e6 ⊢
      rw [List.filterMap_append, hno, List.append_nil]
      exact e6
    have hcr := (ht (rounds ++ rs) r rest b₁ b₂ (by rw [e]; simp) hrun₁ i4).1 i5 m₀ hord
    rw [g3, hpos] at hcr
    obtain ⟨new', hnew', hq'⟩ := loops_quiet _ after ha
    obtain ⟨l₃, g4⟩ := hq' (by rw [hnew', List.drop_left] at hquiet; exact hquiet)
    rw [g3] at g4
    have hj := run_join _ e7 g
    rw [← List.replicate_add] at hj
    have hB := order_stopped_single e1 e2 e3 e4 e5 hj g4 hcr
    have hM := order_executed_single e1 e2 e3 e4 e5 e7
    constructor
    · have : (advance m₀ b₃.ctrl.machinePosition : ℝ) ≤ advance m₀ c.machinePosition + (64 * m₀.speed + 2) := by exact_mod_cast hB.overrun
      linarith
    · intro i hi hne
      rw [hB.others i hi hne, hM.others i hi hne]

/-- Z approaches its switch (at the top) at 10 mm/s. If the 17 iterations calculate at most 960 samplings (16 ms), Z comes to rest at
most 676 steps (3.38 mm) above the place where it was when its switch was to be found closed the fifth time; X and Y do not move. -/
example (fpu : Fpu) (p : Ports) (rounds : List Round) (r₀ : Round) (later : List Round) {b b' : Board (cnc3axis32.kit32 fpu)}
    (h : Board.run (shippedTarget32 fpu) p rounds = some b) (ht : Timely fpu p (rounds ++ r₀ :: later))
    (hr : SampledRarely 15 (rounds ++ [r₀])) (hs : b.homer.state = .closing)
    (hf : LastFive (switchOf .cnc3axis b.homer.currentHomingAxis) false (rounds ++ [r₀]))
    (hlater : later.length = 16) (hl : b.loops (shippedTarget32 fpu) (r₀ :: later) = some b') {x : Nat → Int}
    (hm : (orders b.acts).getLast? = some ⟨x, 2, 60, 10⟩)
    (hfew : ∀ n c log, n ≤ ((r₀ :: later).map Round.calcs).sum → b.ctrl.run (List.replicate n .calculate) = some (c, log) →
      (ticksOf log).length ≤ 960) :
    ∃ rs r rest b₁ b₂, r₀ :: later = rs ++ r :: rest ∧ b.loops (shippedTarget32 fpu) rs = some b₁ ∧
      b₁.loop (shippedTarget32 fpu) r = some b₂ ∧ .stop ∈ b₂.acts.drop b₁.acts.length ∧
      ∀ after b₃, b₂.loops (shippedTarget32 fpu) after = some b₃ → (∀ x ∈ b₃.acts.drop b₂.acts.length, ¬ IsCommand x) →
        b₃.ctrl.machinePosition 2 ≤ b.ctrl.machinePosition 2 + 676 ∧ b₃.ctrl.machinePosition 0 = b.ctrl.machinePosition 0 ∧
          b₃.ctrl.machinePosition 1 = b.ctrl.machinePosition 1 := by
  obtain ⟨rs, r, rest, b₁, b₂, c, log, e, h1, h2, h3, h4, -, -, h5⟩ := homing_overrun_single fpu p rounds r₀ later h ht hr hs hf hlater hl hm
  refine ⟨rs, r, rest, b₁, b₂, e, h1, h2, h3, fun after b₃ ha hq => ?_⟩
  obtain ⟨k1, k2⟩ := h5 after b₃ ha hq
  refine ⟨?_, k2 0 (by norm_num) (by norm_num), k2 1 (by norm_num) (by norm_num)⟩
  have hn := hfew _ _ _ (by rw [e]; simp) h4
  have hnR : ((ticksOf log).length : ℝ) ≤ 960 := by exact_mod_cast hn
  unfold advance at k1
  rw [if_pos (by norm_num), if_pos (by norm_num)] at k1
  have : (b₃.ctrl.machinePosition 2 : ℝ) ≤ b.ctrl.machinePosition 2 + 676 := by
    push_cast at k1
    linarith
  exact_mod_cast this

/-- The switches of the 3-axis machine are connected. -/
theorem shipped_connected : Board.Connected .cnc3axis := by
  intro a ha
  refine shipped_switches a ?_
  rw [shipped_axes]
  have : a < 3 := ha.1
  simp only [List.mem_cons, List.not_mem_nil, or_false]
  omega

/-- **C134.** The 3-axis machine with `float` arithmetic; the main loop runs at least 16 times per sampling of the inputs, and homing
stops its moves only while they cruise. Homing backs off the switch of axis `a`; the switch was seen closed during this move, and the
next iteration takes the fifth sample in succession that shows it open. Then homing stops in this iteration or in one of the 16 that
follow; and when it has ordered the offset move and this has ended, the axis is 600 steps (3 mm) below the place where it was before
this iteration, but for the way at 1 mm/s in the samplings calculated in the 17 iterations, and at most 5 steps less and 69 steps
(0.35 mm) more. The other axes have not moved. -/
theorem homing_zero_single (fpu : Fpu) (p : Ports) (rounds meanwhile : List Round) (r₀ : Round) (later : List Round)
    {b₀ b b' : Board (cnc3axis32.kit32 fpu)}
    (h₀ : Board.run (shippedTarget32 fpu) p rounds = some b₀) (ht : Timely fpu p (rounds ++ meanwhile ++ [r₀]))
    (hr : SampledRarely 15 (rounds ++ meanwhile ++ [r₀])) (hs : b₀.homer.state = .opening)
    (hf₀ : LastFive (switchOf .cnc3axis b₀.homer.currentHomingAxis) false rounds)
    (h : b₀.loops (shippedTarget32 fpu) meanwhile = some b) (hquiet₀ : ∀ x ∈ b.acts.drop b₀.acts.length, ¬ IsCommand x)
    (hf : LastFive (switchOf .cnc3axis b₀.homer.currentHomingAxis) true (rounds ++ meanwhile ++ [r₀]))
    (hlater : later.length = 16) (hl : b.loops (shippedTarget32 fpu) (r₀ :: later) = some b') {a : Nat} {m : HomingMove}
    (hm : (orders b.acts).getLast? = some m) (hrel : Release .cnc3axis a m) :
    ∃ rs r rest b₁ b₂ c log, r₀ :: later = rs ++ r :: rest ∧ b.loops (shippedTarget32 fpu) rs = some b₁ ∧
      b₁.loop (shippedTarget32 fpu) r = some b₂ ∧ .stop ∈ b₂.acts.drop b₁.acts.length ∧
      b.ctrl.run (List.replicate (((rs ++ [r]).map Round.calcs).sum) .calculate) = some (c, log) ∧
      ∀ qs r' qs' b₃ b₄ b₅ m', Timely fpu p ((rounds ++ meanwhile ++ rs) ++ r :: (qs ++ r' :: qs')) →
        b₂.loops (shippedTarget32 fpu) qs = some b₃ → (∀ x ∈ b₃.acts.drop b₂.acts.length, ¬ IsCommand x) →
        b₃.loop (shippedTarget32 fpu) r' = some b₄ → m' ∈ (orders b₄.acts).drop (orders b₃.acts).length → Offset .cnc3axis a m' →
        b₄.loops (shippedTarget32 fpu) qs' = some b₅ → (∀ x ∈ b₅.acts.drop b₄.acts.length, ¬ IsCommand x) →
        b₅.ctrl.state = .stopped →
        (b.ctrl.machinePosition a - 669 - 200 * ((ticksOf log).length / 60000) : ℝ) ≤ b₅.ctrl.machinePosition a ∧
        (b₅.ctrl.machinePosition a : ℝ) ≤ b.ctrl.machinePosition a - 595 + 200 * ((ticksOf log).length / 60000) ∧
        ∀ i, i < 3 → i ≠ a → b₅.ctrl.machinePosition i = b.ctrl.machinePosition i := by
  have hn : (shippedTarget32 fpu).cfg.n ≤ 3 := show (3 : Nat) ≤ 3 from le_refl _
  have hw : Board.Connected (shippedTarget32 fpu).cfg := shipped_connected
  have hrun : Board.run (shippedTarget32 fpu) p (rounds ++ meanwhile) = some b := by
    unfold Board.run at h₀ ⊢
    rw [Board.loops_snoc_list, h₀]
    exact h
  have ht₀ : Timely fpu p (rounds ++ meanwhile) := fun before r after b b' he => ht before r (after ++ [r₀]) b b' (by rw [he]; simp)
  have hr₀ : SampledRarely 15 (rounds ++ meanwhile) := fun before r between r' after he => hr before r between r' (after ++ [r₀]) (by
    rw [he]; simp)
  have ho : NoOverflow b.calls := events_have_room _ p _ hrun (homing_timely fpu p _ ht₀) hr₀
  have w₀ := (Board.loops_watching (shippedTarget32 fpu) rounds (Board.setup_sees (shippedTarget32 fpu) p).watching h₀).1
  have haw : Homer.awaited b₀.homer = some true := by unfold Homer.awaited; rw [hs]
  have hsel := w₀.selected (Board.busy_of_awaited haw)
  obtain ⟨h9, -⟩ := Board.Connected.selected hw hn hsel
  have hsw : b₀.homer.theLimitSwitch = switchOf .cnc3axis b₀.homer.currentHomingAxis := hsel.switch
  rw [← hsw] at hf hf₀
  have hlev₀ := level_settled _ p rounds h₀ h9 hf₀
  have ha₀ : Board.Alert true b₀ := ⟨haw, fun hc => by rw [hlev₀] at hc; cases hc⟩
  obtain ⟨hh, ha⟩ := (Board.loops_alert _ hw hn meanwhile w₀ ha₀ h ho).resolve_left fun hstop => hquiet₀ _ hstop trivial
  have hwb := (Board.loops_watching (shippedTarget32 fpu) meanwhile w₀ h).1
  have hstop : .stop ∈ b'.acts.drop b.acts.length := by
    refine Board.stop_later _ hwb ha.1 hl fun b₁ hb₁ hh₁ hq₁ hl₁ => ?_
    have hone : b.loops (shippedTarget32 fpu) [r₀] = some b₁ := by simp only [Board.loops, hb₁]
    have hrun₁ : Board.run (shippedTarget32 fpu) p (rounds ++ meanwhile ++ [r₀]) = some b₁ := by
      unfold Board.run at hrun ⊢
      rw [Board.loops_snoc_list, hrun]
      exact hone
    have ho₁ : NoOverflow b₁.calls := events_have_room _ p _ hrun₁ (homing_timely fpu p _ ht) hr
    have ha₁ := ((Board.loops_alert _ hw hn [r₀] hwb ha hone ho₁).resolve_left fun hstop => hq₁ _ hstop trivial).2
    exact alert_stops _ hw hn (Board.loops_watching (shippedTarget32 fpu) [r₀] hwb hone).1 ha₁
      (by rw [hh₁, hh]; exact level_settled _ p _ hrun₁ h9 hf) hlater.ge hl₁
  generalize r₀ :: later = more at *
  obtain ⟨rs, r, rest, b₁, b₂, e, i1, i2, i3, i4, i5⟩ := Board.first_stop _ more hwb ha.1 hl hstop
  obtain ⟨-, -, hsince⟩ := timely_tracked (rs := []) (rounds ++ meanwhile) (by simpa using ht₀) hrun
  obtain ⟨c₀, m₀, k, log₀, e1, e2, e3, e4, e5, e6, e7⟩ := hsince (.inr (by rw [hh]; exact hs))
  obtain rfl : m₀ = m := by rw [hm] at e6; exact (Option.some.inj e6).symm
  obtain ⟨new, hnew, hq⟩ := loops_quiet _ rs i1
  rw [hnew, List.drop_left] at i3
  obtain ⟨l₁, g1⟩ := hq i3
  obtain ⟨c, l₂, g2, g3⟩ := loop_stop _ i4 i5
  have g := run_join _ g1 g2
  rw [← List.replicate_add] at g
  have hsum : ((rs ++ [r]).map Round.calcs).sum = (rs.map Round.calcs).sum + r.calcs := by simp
  have hpos : c.stop.machinePosition = c.machinePosition := (MotionCtrl.sameButProf_optimize _).pos
  have way := abs_le.1 (order_travel_single e1 e2 e3 e4 e5 e7 g)
  refine ⟨rs, r, rest, b₁, b₂, c, l₁ ++ l₂, e, i1, i4, i5, by rw [hsum]; exact g, ?_⟩
  intro qs r' qs' b₃ b₄ b₅ m' htt hqs hquiet hr' hm' hoff hqs' hquiet' hend
  have hrun₁ : Board.run (shippedTarget32 fpu) p (rounds ++ meanwhile ++ rs) = some b₁ := by
    unfold Board.run at hrun ⊢
    rw [Board.loops_snoc_list, hrun]
    exact i1
  have hord : (orders b₁.acts).getLast? = some m₀ := by
    have hno : orders new = [] := by
      unfold orders
      rw [List.filterMap_eq_nil_iff]
      intro x hx
      have := i3 x hx
      cases x <;> first | rfl | exact absurd trivial this
    rw [hnew]
    unfold orders at hno e6 ⊢
    rw [List.filterMap_append, hno, List.append_nil]
    exact e6
  obtain ⟨k1, k2, k3⟩ := homing_place_single fpu p htt hrun₁ hord hrel i4 i5 hqs hquiet hr' hm' hoff hqs' hquiet' hend
  obtain ⟨r1, r2, r3⟩ := hrel
  have hax : a < 3 := r1 ▸ e3.axis
  have h300 : 0 < HomingConfig.cnc3axis.sMax a := by
    rcases (show a = 0 ∨ a = 1 ∨ a = 2 by omega) with e | e | e <;> rw [e] <;> norm_num [HomingConfig.cnc3axis]
  have hadv : ∀ P : Nat → Int, advance m₀ P = m₀.position a - P a := by
    intro P
    unfold advance
    rw [if_neg (by rw [r2, show sign .cnc3axis a = 1 from rfl]; linarith), r1]
  have hspeed : m₀.speed = 1 := r3
  rw [hadv, hadv, hspeed] at way
  push_cast at way
  rw [g3, hpos] at k1 k2 k3
  have k1 : (c.machinePosition a : ℝ) - 667 ≤ b₅.ctrl.machinePosition a := by exact_mod_cast k1
  have k2 : (b₅.ctrl.machinePosition a : ℝ) ≤ c.machinePosition a - 597 := by exact_mod_cast k2
  refine ⟨by linarith, by linarith, fun i hi hne => ?_⟩
  have hj := run_join _ e7 g
  rw [← List.replicate_add] at hj
  have q1 := (order_executed_single e1 e2 e3 e4 e5 hj).others i hi (by rw [r1]; exact hne)
  have q2 := (order_executed_single e1 e2 e3 e4 e5 e7).others i hi (by rw [r1]; exact hne)
  rw [k3 i hi hne, q1, q2]

/-- Z (switch at the top) is at 55 mm (11000 steps) when its switch is to be found open the fifth time. If the 17 iterations calculate at
most 960 samplings (16 ms), Z comes to rest between 51.64 and 52.04 mm, and X and Y stay where they are. -/
example (fpu : Fpu) (p : Ports) (rounds meanwhile : List Round) (r₀ : Round) (later : List Round)
    {b₀ b b' : Board (cnc3axis32.kit32 fpu)}
    (h₀ : Board.run (shippedTarget32 fpu) p rounds = some b₀) (ht : Timely fpu p (rounds ++ meanwhile ++ [r₀]))
    (hr : SampledRarely 15 (rounds ++ meanwhile ++ [r₀])) (hs : b₀.homer.state = .opening)
    (hf₀ : LastFive (switchOf .cnc3axis b₀.homer.currentHomingAxis) false rounds)
    (h : b₀.loops (shippedTarget32 fpu) meanwhile = some b) (hquiet₀ : ∀ x ∈ b.acts.drop b₀.acts.length, ¬ IsCommand x)
    (hf : LastFive (switchOf .cnc3axis b₀.homer.currentHomingAxis) true (rounds ++ meanwhile ++ [r₀]))
    (hlater : later.length = 16) (hl : b.loops (shippedTarget32 fpu) (r₀ :: later) = some b') {x y : Nat → Int}
    (hm : (orders b.acts).getLast? = some ⟨x, 2, -60, 1⟩) (h55 : b.ctrl.machinePosition 2 = 11000)
    (hfew : ∀ n c log, n ≤ ((r₀ :: later).map Round.calcs).sum → b.ctrl.run (List.replicate n .calculate) = some (c, log) →
      (ticksOf log).length ≤ 960) :
    ∃ rs r rest b₁ b₂, r₀ :: later = rs ++ r :: rest ∧ b.loops (shippedTarget32 fpu) rs = some b₁ ∧
      b₁.loop (shippedTarget32 fpu) r = some b₂ ∧
      ∀ qs r' qs' b₃ b₄ b₅, Timely fpu p ((rounds ++ meanwhile ++ rs) ++ r :: (qs ++ r' :: qs')) →
        b₂.loops (shippedTarget32 fpu) qs = some b₃ → (∀ x ∈ b₃.acts.drop b₂.acts.length, ¬ IsCommand x) →
        b₃.loop (shippedTarget32 fpu) r' = some b₄ → ⟨y, 2, -3, 10⟩ ∈ (orders b₄.acts).drop (orders b₃.acts).length →
        b₄.loops (shippedTarget32 fpu) qs' = some b₅ → (∀ x ∈ b₅.acts.drop b₄.acts.length, ¬ IsCommand x) →
        b₅.ctrl.state = .stopped →
        10328 ≤ b₅.ctrl.machinePosition 2 ∧ b₅.ctrl.machinePosition 2 ≤ 10408 ∧
          b₅.ctrl.machinePosition 0 = b.ctrl.machinePosition 0 ∧ b₅.ctrl.machinePosition 1 = b.ctrl.machinePosition 1 := by
  obtain ⟨rs, r, rest, b₁, b₂, c, log, e, h1, h2, -, h4, h5⟩ := homing_zero_single fpu p rounds meanwhile r₀ later (a := 2) h₀ ht hr hs hf₀ h
    hquiet₀ hf hlater hl hm ⟨rfl, by simp [sign, HomingConfig.cnc3axis], rfl⟩
  refine ⟨rs, r, rest, b₁, b₂, e, h1, h2, fun qs r' qs' b₃ b₄ b₅ a1 a2 a3 a4 a5 a6 a7 a8 => ?_⟩
  obtain ⟨k1, k2, k3⟩ := h5 qs r' qs' b₃ b₄ b₅ _ a1 a2 a3 a4 a5 ⟨rfl, by simp [sign, HomingConfig.cnc3axis], rfl⟩ a6 a7 a8
  have hn := hfew _ _ _ (by rw [e]; simp) h4
  have hnR : ((ticksOf log).length : ℝ) ≤ 960 := by exact_mod_cast hn
  rw [h55] at k1 k2
  push_cast at k1 k2
  refine ⟨?_, ?_, k3 0 (by norm_num) (by norm_num), k3 1 (by norm_num) (by norm_num)⟩
  · have : (10327 : ℝ) < b₅.ctrl.machinePosition 2 := by linarith
    have : (10327 : ℤ) < b₅.ctrl.machinePosition 2 := by exact_mod_cast this
    omega
  · have : (b₅.ctrl.machinePosition 2 : ℝ) < 10409 := by linarith
    have : b₅.ctrl.machinePosition 2 < (10409 : ℤ) := by exact_mod_cast this
    omega

end Props

end Moovr
