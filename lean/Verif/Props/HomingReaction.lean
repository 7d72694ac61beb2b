import Verif.Lemmas.HomingReaction
import Verif.Props.QueueRoom
import Verif.Props.Debounce
/-!
# Property C131: homing does not miss its switch

While homing moves towards a switch, only an event tells it that the switch has closed: it does not look at the input again. The
property is that the event cannot slip through, and that the motion is stopped soon.
-/
namespace Moovr.Props
open EventQueueSpec LoopSpec HomingSpec
variable {K : MotionKit} (t : Target K)

/-- In the last five sampling rounds input `i` was as given. -/
def LastFive (i : Nat) (high : Bool) (rounds : List Round) : Prop :=
  ∃ before last, sampledPorts rounds = before ++ last ∧ last.length = 5 ∧ ∀ q ∈ last, pin i q = high

/-! ## Proof -/

private theorem run_sees (hw : Board.Connected t.cfg) (hn : t.cfg.n ≤ 3) (p : Ports) (rounds : List Round) {b : Board K}
    (h : Board.run t p rounds = some b) (ho : NoOverflow b.calls) : Board.Sees t b :=
  Board.loops_sees t hw hn rounds (Board.setup_sees t p) h ho

private theorem level_settled (p : Ports) (rounds : List Round) {b : Board K} (h : Board.run t p rounds = some b) {i : Nat} (hi : i < 9)
    {high : Bool} (hf : LastFive i high rounds) : b.level i = high := by
  obtain ⟨s1, s2, es, s3⟩ := Board.setup_inv t p
  obtain ⟨hi1, -, -⟩ := Board.loops_inv t rounds s1 s2 ⟨_, s3, by simp⟩ h
  obtain ⟨before, last, h1, h2, h3⟩ := hf
  unfold Board.level
  rw [hi1.inputs i hi, List.nil_append]
  unfold Board.fed
  rw [show Board.sampled rounds = before ++ last from h1, List.map_append]
  have : last.map (pin i) = [high, high, high, high, high] := by
    have hr : last.map (pin i) = List.replicate 5 high := by
      rw [List.eq_replicate_iff]
      refine ⟨by simpa using h2, fun x hx => ?_⟩
      obtain ⟨q, hq, rfl⟩ := List.mem_map.1 hx
      exact h3 q hq
    exact hr
  rw [this]
  exact debounce_five_samples_settle _ _ _ _

private theorem pending_le (calls : List Call) : (pending calls).length ≤ 16 := by
  induction calls using List.reverseRecOn with
  | nil => simp [pending]
  | append_singleton cs c ih =>
    rw [EventBuffer.pending_snoc]
    cases c with
    | push e =>
      simp only [next]
      split
      · rename_i hc
        rw [List.length_append]
        have hc' : (pending cs).length < 16 := hc.2
        simp only [List.length_singleton]
        omega
      · exact ih
    | _ => simp only [next] <;> first | exact ih | (simp; omega) | simp

private theorem alert_stops (hw : Board.Connected t.cfg) (hn : t.cfg.n ≤ 3) {b b' : Board K} (h : Board.Watching t b) {v : Bool}
    (ha : Board.Alert v b) (hlev : b.level b.homer.theLimitSwitch = v) {more : List Round} (hm : 16 ≤ more.length)
    (hl : b.loops t more = some b') : .stop ∈ b'.acts.drop b.acts.length := by
  refine Board.loops_advance t hw hn more (j := 16) h ha.1 ?_ hm hl
  rw [List.take_of_length_le (pending_le _)]
  exact ha.2 hlev

/-! ## Theorems -/

/-- **C131.** When homing moves towards a switch, and the last five samples of this switch show it closed, the motion has been
stopped after 16 more iterations of the main loop, whatever happens meanwhile at the inputs and in the motion controller. It is
required that so far no event was lost (C130), and that each switch is connected to the input that reports its events. -/
theorem homing_notices_closing (hw : ∀ a, Homeable t.cfg a → ∃ c o, (a, t.cfg.homingDirection a, c, o) ∈ switches ∧
      inputEvents[switchOf t.cfg a]? = some (c, o)) (hn : t.cfg.n ≤ 3) (p : Ports) (rounds more : List Round) {b b' : Board K}
    (h : Board.run t p rounds = some b) (ho : NoOverflow b.calls) (hs : b.homer.state = .closing)
    (hf : LastFive (switchOf t.cfg b.homer.currentHomingAxis) false rounds) (hm : 16 ≤ more.length)
    (hl : b.loops t more = some b') : .stop ∈ b'.acts.drop b.acts.length := by
  have w := run_sees t hw hn p rounds h ho
  have hsel := w.watching.selected (Board.busy_of_awaited (w.closing hs).1)
  obtain ⟨h9, -⟩ := Board.Connected.selected hw hn hsel
  rw [← hsel.switch] at hf
  exact alert_stops t hw hn w.watching (w.closing hs) (level_settled t p rounds h h9 hf) hm hl

/-- **C131, backing off (partial).** The same for the opening of the switch, if the switch was seen closed at some time during the
move away from it. What is missing: homing may begin to back off when the switch is no longer closed (`homing_notices_opening_violated`). -/
theorem homing_notices_opening_partial (hw : ∀ a, Homeable t.cfg a → ∃ c o, (a, t.cfg.homingDirection a, c, o) ∈ switches ∧
      inputEvents[switchOf t.cfg a]? = some (c, o)) (hn : t.cfg.n ≤ 3) (p : Ports) (rounds meanwhile more : List Round)
    {b₀ b b' : Board K} (h₀ : Board.run t p rounds = some b₀) (hs : b₀.homer.state = .opening)
    (hf₀ : LastFive (switchOf t.cfg b₀.homer.currentHomingAxis) false rounds) (h : b₀.loops t meanwhile = some b)
    (ho : NoOverflow b.calls) (hf : LastFive (switchOf t.cfg b₀.homer.currentHomingAxis) true (rounds ++ meanwhile))
    (hm : 16 ≤ more.length) (hl : b.loops t more = some b') : .stop ∈ b'.acts.drop b₀.acts.length := by
  have hrun : Board.run t p (rounds ++ meanwhile) = some b := by
    unfold Board.run at h₀ ⊢
    rw [Board.loops_snoc_list, h₀]
    exact h
  have w₀ := (Board.loops_watching t rounds (Board.setup_sees t p).watching h₀).1
  have haw : Homer.awaited b₀.homer = some true := by unfold Homer.awaited; rw [hs]
  have hsel := w₀.selected (Board.busy_of_awaited haw)
  obtain ⟨h9, -⟩ := Board.Connected.selected hw hn hsel
  rw [← hsel.switch] at hf hf₀
  have hlev₀ := level_settled t p rounds h₀ h9 hf₀
  have ha₀ : Board.Alert true b₀ := ⟨haw, fun hc => by rw [hlev₀] at hc; cases hc⟩
  obtain ⟨y, hy⟩ := Board.loops_acts t meanwhile h
  obtain ⟨z, hz⟩ := Board.loops_acts t more hl
  have split₂ : b'.acts.drop b₀.acts.length = b.acts.drop b₀.acts.length ++ b'.acts.drop b.acts.length := by
    rw [← hz, ← hy]; simp
  rw [split₂, List.mem_append]
  rcases Board.loops_alert t hw hn meanwhile w₀ ha₀ h ho with h1 | ⟨h1, h2⟩
  · exact .inl h1
  · refine .inr (alert_stops t hw hn (Board.loops_watching t meanwhile w₀ h).1 h2 ?_ hm hl)
    rw [h1]
    exact level_settled t p _ hrun h9 hf

/-- **C131, single precision.** The 3-axis machine with `float` arithmetic: if the main loop runs at least 16 times per sampling, and
homing stops its moves only while they cruise, then a move towards a switch is stopped within 16 iterations after the switch has been
closed for five samples. -/
theorem homing_notices_closing_single (fpu : Fpu) (p : Ports) (rounds more : List Round) {b b' : Board (cnc3axis32.kit32 fpu)}
    (h : Board.run (shippedTarget32 fpu) p rounds = some b) (ht : Timely fpu p rounds) (hr : SampledRarely 15 rounds)
    (hs : b.homer.state = .closing) (hf : LastFive (switchOf .cnc3axis b.homer.currentHomingAxis) false rounds)
    (hm : 16 ≤ more.length) (hl : b.loops (shippedTarget32 fpu) more = some b') : .stop ∈ b'.acts.drop b.acts.length := by
  refine homing_notices_closing (shippedTarget32 fpu) ?_ (show (3 : Nat) ≤ 3 from le_refl _) p rounds more h
    (events_have_room _ p rounds h (homing_timely fpu p rounds ht) hr) hs hf hm hl
  intro a ha
  refine shipped_switches a ?_
  rw [shipped_axes]
  have : a < 3 := ha.1
  simp only [List.mem_cons, List.not_mem_nil, or_false]
  omega

/-- **C131, in vain.** If homing is to wait for ever for a switch to close, the switch is really open: when homing moves towards a
switch and no event is pending, the last five samples do not show the switch closed. -/
theorem homing_waits_open (hw : ∀ a, Homeable t.cfg a → ∃ c o, (a, t.cfg.homingDirection a, c, o) ∈ switches ∧
      inputEvents[switchOf t.cfg a]? = some (c, o)) (hn : t.cfg.n ≤ 3) (p : Ports) (rounds : List Round) {b : Board K}
    (h : Board.run t p rounds = some b) (ho : NoOverflow b.calls) (hs : b.homer.state = .closing) (hq : pending b.calls = []) :
    ¬ LastFive (switchOf t.cfg b.homer.currentHomingAxis) false rounds := by
  intro hf
  have w := run_sees t hw hn p rounds h ho
  have hsel := w.watching.selected (Board.busy_of_awaited (w.closing hs).1)
  obtain ⟨h9, -⟩ := Board.Connected.selected hw hn hsel
  rw [← hsel.switch] at hf
  have := (w.closing hs).2 (level_settled t p rounds h h9 hf)
  rw [hq] at this
  cases this

/-- **C131, in vain, single precision.** When, in a run as in C130, the machine stands still and no event is pending, homing is
complete, or has not begun, or waits for a switch that is not closed, or has backed off. -/
theorem homing_waits_open_single (fpu : Fpu) (p : Ports) (rounds : List Round) {b : Board (cnc3axis32.kit32 fpu)}
    (h : Board.run (shippedTarget32 fpu) p rounds = some b) (ht : Timely fpu p rounds) (hr : SampledRarely 15 rounds)
    (hs : b.ctrl.state = .stopped) (hq : pending b.calls = []) :
    b.homer.state = .lost ∨ b.homer.state = .found ∨
    (b.homer.state = .closing ∧ ¬ LastFive (switchOf .cnc3axis b.homer.currentHomingAxis) false rounds) ∨ b.homer.state = .opening := by
  obtain ⟨hn, -, -, h4⟩ := events_not_lost_single fpu p rounds h ht hr
  rcases h4 hs hq with h5 | h5 | h5 | h5
  · exact .inl h5
  · exact .inr (.inl h5)
  · refine .inr (.inr (.inl ⟨h5, homing_waits_open (shippedTarget32 fpu) ?_ (show (3 : Nat) ≤ 3 from le_refl _) p rounds h hn h5 hq⟩))
    intro a ha
    refine shipped_switches a ?_
    rw [shipped_axes]
    have : a < 3 := ha.1
    simp only [List.mem_cons, List.not_mem_nil, or_false]
    omega
  · exact .inr (.inr (.inr h5))

/-- **C131, for ever.** When homing backs off while its switch is open and the event of the opening is no longer pending, it waits for
ever: in every continuation in which the switch stays open, homing remains as it is, and gives no command at all. -/
theorem homing_backs_off_in_vain (hw : ∀ a, Homeable t.cfg a → ∃ c o, (a, t.cfg.homingDirection a, c, o) ∈ switches ∧
      inputEvents[switchOf t.cfg a]? = some (c, o)) (hn : t.cfg.n ≤ 3) (p : Ports) (rounds more : List Round) {b b' : Board K}
    (h : Board.run t p rounds = some b) (hs : b.homer.state = .opening)
    (hf : LastFive (switchOf t.cfg b.homer.currentHomingAxis) true rounds) (hq : b.homer.limitSwitchOpen ∉ pending b.calls)
    (hp : ∀ q ∈ sampledPorts more, pin (switchOf t.cfg b.homer.currentHomingAxis) q = true) (hl : b.loops t more = some b') :
    b'.homer = b.homer ∧ ∀ x ∈ b'.acts.drop b.acts.length, ∃ e, x = .handled e := by
  have w := (Board.loops_watching t rounds (Board.setup_sees t p).watching h).1
  have hsel := w.selected (Board.busy_of_awaited (v := true) (by unfold Homer.awaited; rw [hs]))
  obtain ⟨h9, hev⟩ := Board.Connected.selected hw hn hsel
  rw [← hsel.switch] at hf hp
  have he : b.homer.limitSwitchOpen = inputEvent b.homer.theLimitSwitch true := hev true
  exact Board.loops_vain t hw hn more ⟨w, hs, level_settled t p rounds h h9 hf, by rw [← he]; exact hq⟩ hp hl

/-! ## Witnesses -/

/-- Only Z is homed, but all switches are connected. -/
private theorem loop_connected : Board.Connected loopTarget.cfg := by
  intro a ha
  refine shipped_switches a ?_
  rw [shipped_axes]
  have : a < 3 := ha.1
  simp only [List.mem_cons, List.not_mem_nil, or_false]
  omega

/-- All inputs but the switch ZMax are low; then all. -/
def crowdRounds : List Round := ⟨1, true, ⟨0, 0x01#32, 0⟩⟩ :: List.replicate 5 ⟨1, true, ⟨0, 0, 0⟩⟩

/-- The hypotheses of `homing_notices_closing`: eight other inputs close one sample before the switch, so that its event has to wait. -/
example : ∃ b b', Board.run loopTarget (zPorts true) crowdRounds = some b ∧ 3 < (pending b.calls).length ∧
    b.loops loopTarget (List.replicate 16 (zRound false)) = some b' ∧ .stop ∈ b'.acts.drop b.acts.length := by
  have h1 : (Board.run loopTarget (zPorts true) crowdRounds).any (fun b =>
      decide (b.homer.state = .closing) && decide (b.homer.currentHomingAxis = 2) && roomB [] b.calls &&
      (b.loops loopTarget (List.replicate 16 (zRound false))).isSome && decide (3 < (pending b.calls).length)) = true := by decide +kernel
  obtain ⟨b, hb, h2⟩ := (Option.any_eq_true _ _).1 h1
  simp only [Bool.and_eq_true, decide_eq_true_eq] at h2
  obtain ⟨⟨⟨⟨h2, h3⟩, h4⟩, h5⟩, h6⟩ := h2
  obtain ⟨b', hb'⟩ := Option.isSome_iff_exists.1 h5
  refine ⟨b, b', hb, h6, hb', homing_notices_closing loopTarget loop_connected (by decide) _ _ _ hb (roomB_sound _ _ h4) h2 ?_ (by simp) hb'⟩
  rw [h3]
  exact ⟨[⟨0, 0x01#32, 0⟩], List.replicate 5 ⟨0, 0, 0⟩, rfl, by simp, fun q hq => by rw [(List.mem_replicate.1 hq).2]; decide +kernel⟩

/-- The hypotheses of `homing_waits_open`: Z moves its whole travel and does not meet its switch. -/
example : ∃ b, Board.run loopTarget (zPorts true) (List.replicate 75 (zRound true)) = some b ∧ NoOverflow b.calls ∧
    b.homer.state = .closing ∧ pending b.calls = [] ∧ b.ctrl.state = .stopped := by
  have h1 : (Board.run loopTarget (zPorts true) (List.replicate 75 (zRound true))).any (fun b =>
      roomB [] b.calls && decide (b.homer.state = .closing) && decide (pending b.calls = []) && decide (b.ctrl.state = .stopped)) = true := by
    decide +kernel
  obtain ⟨b, hb, h2⟩ := (Option.any_eq_true _ _).1 h1
  simp only [Bool.and_eq_true, decide_eq_true_eq] at h2
  exact ⟨b, hb, roomB_sound _ _ h2.1.1.1, h2.1.1.2, h2.1.2, h2.2⟩

/-- The hypotheses of `homing_notices_opening_partial`: the switch is closed for eight samples, then open. -/
example : ∃ b₀ b b', Board.run loopTarget (zPorts true) (List.replicate 8 (zRound false)) = some b₀ ∧
    b₀.loops loopTarget (List.replicate 5 (zRound true)) = some b ∧ b.loops loopTarget (List.replicate 16 (zRound true)) = some b' ∧
    .stop ∈ b'.acts.drop b₀.acts.length := by
  have h1 : (Board.run loopTarget (zPorts true) (List.replicate 8 (zRound false))).any (fun b₀ =>
      decide (b₀.homer.state = .opening) && decide (b₀.homer.currentHomingAxis = 2) &&
      (b₀.loops loopTarget (List.replicate 5 (zRound true))).any fun b => roomB [] b.calls &&
        (b.loops loopTarget (List.replicate 16 (zRound true))).isSome) = true := by decide +kernel
  obtain ⟨b₀, hb₀, h2⟩ := (Option.any_eq_true _ _).1 h1
  simp only [Bool.and_eq_true, decide_eq_true_eq] at h2
  obtain ⟨⟨h2, h3⟩, h4⟩ := h2
  obtain ⟨b, hb, h5⟩ := (Option.any_eq_true _ _).1 h4
  rw [Bool.and_eq_true] at h5
  obtain ⟨b', hb'⟩ := Option.isSome_iff_exists.1 h5.2
  refine ⟨b₀, b, b', hb₀, hb, hb', homing_notices_opening_partial loopTarget loop_connected (by decide) _ _ _ _ hb₀ h2 ?_ hb
    (roomB_sound _ _ h5.1) ?_ (by simp) hb'⟩
  · rw [h3]
    exact ⟨List.replicate 3 (zPorts false), List.replicate 5 (zPorts false), rfl, by simp, fun q hq => by
      rw [(List.mem_replicate.1 hq).2]; decide +kernel⟩
  · rw [h3]
    exact ⟨List.replicate 8 (zPorts false), List.replicate 5 (zPorts true), rfl, by simp, fun q hq => by
      rw [(List.mem_replicate.1 hq).2]; decide +kernel⟩

/-- Z closes its switch and homing orders a stop. While the axis slows down, the switch opens again: homing is told, but it only
waits for the end of the motion. Then it backs off. -/
def reopenRounds : List Round :=
  List.replicate 5 (zRound false) ++ List.replicate 8 ⟨0, true, zPorts true⟩ ++ List.replicate 4 (zRound true)

/-- C131 fails for the opening in general: if the switch opens again before the axis has come to a halt, homing backs off and waits in
vain for the switch to open. The move away from the switch goes to its end, and homing never completes. No event is lost, and the
schedule is orderly. -/
theorem homing_notices_opening_violated : ¬ ∀ (K : MotionKit) (t : Target K) (p : Ports) (rounds more : List Round) (b b' : Board K),
    (∀ a, Homeable t.cfg a → ∃ c o, (a, t.cfg.homingDirection a, c, o) ∈ switches ∧ inputEvents[switchOf t.cfg a]? = some (c, o)) →
    t.cfg.n ≤ 3 → Board.run t p rounds = some b → NoOverflow b'.calls → Board.Orderly t (Board.setup t p) (rounds ++ more) →
    b.homer.state = .opening → LastFive (switchOf t.cfg b.homer.currentHomingAxis) true rounds → 16 ≤ more.length →
    b.loops t more = some b' → .stop ∈ b'.acts.drop b.acts.length := by
  intro hall
  have h1 : (Board.run loopTarget (zPorts true) reopenRounds).any (fun b =>
      decide (b.homer.state = .opening) && decide (b.homer.currentHomingAxis = 2) &&
      (b.loops loopTarget (List.replicate 75 (zRound true))).any fun b' => roomB [] b'.calls &&
        (b'.acts.drop b.acts.length).all (fun a => match a with | .stop => false | _ => true)) = true := by decide +kernel
  obtain ⟨b, hb, h2⟩ := (Option.any_eq_true _ _).1 h1
  simp only [Bool.and_eq_true, decide_eq_true_eq] at h2
  obtain ⟨⟨h2, h3⟩, h4⟩ := h2
  obtain ⟨b', hb', h5⟩ := (Option.any_eq_true _ _).1 h4
  rw [Bool.and_eq_true] at h5
  refine absurd ((List.all_eq_true.1 h5.2) .stop ?_) (by simp)
  refine (hall _ loopTarget _ _ (List.replicate 75 (zRound true)) b b' loop_connected (by decide) hb (roomB_sound _ _ h5.1)
    (orderlyB_sound _ _ _ (by decide +kernel)) h2 ?_ (by simp) hb')
  rw [h3]
  exact ⟨List.replicate 5 (zPorts false) ++ List.replicate 7 (zPorts true), List.replicate 5 (zPorts true), rfl, by simp, fun q hq => by
    rw [(List.mem_replicate.1 hq).2]; decide +kernel⟩

/-- The hypotheses of `homing_backs_off_in_vain` hold in this run. -/
example (more : List Round) (hp : ∀ q ∈ sampledPorts more, q.d.getLsbD 0 = true) :
    ∃ b, Board.run loopTarget (zPorts true) reopenRounds = some b ∧ ∀ b', b.loops loopTarget more = some b' →
      b'.homer.state = .opening := by
  have h1 : (Board.run loopTarget (zPorts true) reopenRounds).any (fun b =>
      decide (b.homer.state = .opening) && decide (b.homer.currentHomingAxis = 2) &&
      decide (b.homer.limitSwitchOpen ∉ pending b.calls)) = true := by decide +kernel
  obtain ⟨b, hb, h2⟩ := (Option.any_eq_true _ _).1 h1
  simp only [Bool.and_eq_true, decide_eq_true_eq] at h2
  obtain ⟨⟨h2, h3⟩, h4⟩ := h2
  refine ⟨b, hb, fun b' hb' => ?_⟩
  have := homing_backs_off_in_vain loopTarget loop_connected (by decide) _ _ _ hb h2 (by
    rw [h3]
    exact ⟨List.replicate 5 (zPorts false) ++ List.replicate 7 (zPorts true), List.replicate 5 (zPorts true), rfl, by simp, fun q hq => by
      rw [(List.mem_replicate.1 hq).2]; decide +kernel⟩) h4 (by rw [h3]; exact hp) hb'
  rw [this.1]
  exact h2

/-- The end of this run: the machine stands still, no event is pending, homing still waits. -/
example : (Board.run loopTarget (zPorts true) (reopenRounds ++ List.replicate 75 (zRound true))).map
      (fun b => (told b.acts, b.homer.state, b.ctrl.state, pending b.calls)) =
    some ([.homingStarted, .motionStarted, .limitSwitchZMaxClosed, .stopRequested, .limitSwitchZMaxOpened, .motionStopped, .motionStarted,
      .motionStopped, .motionCompleted, .allMotionsCompleted], .opening, .stopped, []) := by
  decide +kernel

end Moovr.Props
