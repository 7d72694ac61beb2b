import Verif.Props.HomingMotion
/-!
# The buttons (C107)

The main loop hands every event to the homing controller and to nothing else (src/cnc3axis/main.cpp:181-186), so no button and no
limit switch stops the machine, except the switch of the axis being homed.
-/
namespace Moovr.Props
open EventQueueSpec LoopSpec
variable {K : MotionKit} (t : Target K)

/-- The events of the inputs that are not limit switches: emergency stop, feed hold, probe. -/
def buttonEvents : List Event :=
  (inputEvents.drop 6).flatMap fun p => [p.1, p.2]

/-- These are the three pairs. -/
example : buttonEvents = [.emergencyStopButtonPressed, .emergencyStopButtonReleased, .feedHoldResumeButtonPressed,
    .feedHoldResumeButtonReleased, .probeSwitchClosed, .probeSwitchOpened] := by decide

/-- Homing waits for none of these events. -/
private def Deaf (h : Homer) : Prop := h.limitSwitchClose ∉ buttonEvents ∧ h.limitSwitchOpen ∉ buttonEvents

private theorem deaf_max (a : Nat) : (Homer.maxEvents a).1 ∉ buttonEvents ∧ (Homer.maxEvents a).2 ∉ buttonEvents := by
  unfold Homer.maxEvents
  split <;> decide

private theorem deaf_min (a : Nat) : (Homer.minEvents a).1 ∉ buttonEvents ∧ (Homer.minEvents a).2 ∉ buttonEvents := by
  unfold Homer.minEvents
  split <;> decide

private theorem deaf_try (cfg : HomingConfig) {h : Homer} (hd : Deaf h) : Deaf (Homer.tryAxis cfg h).1 := by
  unfold Homer.tryAxis
  simp only
  split
  · split <;> split
    · exact deaf_max _
    · exact hd
    · exact deaf_min _
    · exact hd
  · exact hd

private theorem deaf_loop (cfg : HomingConfig) (k : Nat) : ∀ {h : Homer}, Deaf h → Deaf (Homer.selectLoop cfg k h).1 := by
  induction k with
  | zero => exact fun hd => hd
  | succ k ih =>
    intro h hd
    unfold Homer.selectLoop
    simp only
    split
    · exact deaf_try cfg hd
    · exact ih (deaf_try cfg hd)

private theorem deaf_next (cfg : HomingConfig) {h : Homer} (hd : Deaf h) : Deaf (Homer.nextAxis cfg h).1 := by
  unfold Homer.nextAxis
  split
  · exact deaf_loop cfg _ hd
  · exact hd

private theorem deaf_call (cfg : HomingConfig) {h : Homer} (hd : Deaf h) (c : Homer.Call × HomingEnv) : Deaf (Homer.call cfg h c).1 := by
  obtain ⟨c, env⟩ := c
  cases c with
  | start =>
    have h1 : Deaf (Homer.selectAxis cfg { h with homingSequenceIndex := 0 }).1 := deaf_loop cfg _ hd
    unfold Homer.call Homer.start
    simp only
    split
    · split
      · exact h1
      · exact h1
    · exact h1
  | event e =>
    unfold Homer.call Homer.handleEvents Homer.react
    simp only
    split
    · exact hd
    · split <;> exact hd
    · split <;> exact hd
    · split <;> exact hd
    · split <;> exact hd
    · split <;> exact hd
    · have h1 : Deaf (Homer.nextAxis cfg h).1 := deaf_next cfg hd
      split
      · split
        · exact h1
        · exact h1
      · exact hd
    · exact hd

private theorem deaf_run (cfg : HomingConfig) (cs : List (Homer.Call × HomingEnv)) : ∀ {h : Homer}, Deaf h → Deaf (Homer.run cfg h cs).1 := by
  induction cs with
  | nil => exact fun hd => hd
  | cons c cs ih => exact fun hd => ih (deaf_call cfg hd c)

private theorem deaf_react (cfg : HomingConfig) (env : HomingEnv) {h : Homer} (hd : Deaf h) {e : Event} (he : e ∈ buttonEvents) :
    Homer.react cfg env h e = (h, []) := by
  have hm : e ≠ .motionStopped := by
    rintro rfl
    exact absurd he (by decide)
  have hc : h.limitSwitchClose ≠ e := fun h' => hd.1 (h' ▸ he)
  have ho : h.limitSwitchOpen ≠ e := fun h' => hd.2 (h' ▸ he)
  unfold Homer.react
  split <;> simp [hm, hc, ho]

/-- An event to which homing does not react has no effect on the machine. -/
private theorem handle_deaf {b : Board K} (hf : Board.Fifo b)
    (hr : ∀ e, (pending b.calls).head? = some e → ∀ env, Homer.react t.cfg env b.homer e = (b.homer, [])) :
    (b.handle t).ctrl = b.ctrl ∧ (b.handle t).homer = b.homer ∧
      (b.handle t).acts = b.acts ++ ((pending b.calls).take 1).map .handled := by
  rcases Board.handle_eq t b hf with ⟨h1, h2⟩ | ⟨e, q, b₂, h1, h2, -, h4⟩
  · rw [h2, h1]
    exact ⟨rfl, rfl, (List.append_nil _).symm⟩
  · have h5 : b₂.homer = b.homer := by rw [h2]; rfl
    have h6 : b₂.acts = b.acts := by rw [h2]; rfl
    have h7 : b₂.ctrl = b.ctrl := by rw [h2]; rfl
    have h8 : Homer.handleEvents t.cfg b₂.env b₂.homer e = (b.homer, [.handled e]) := by
      unfold Homer.handleEvents
      rw [h5, hr e (by rw [h1]; rfl)]
    rw [h4, h8, h1, ← h6, ← h7]
    exact ⟨rfl, rfl, rfl⟩

/-- Filling the step buffer and sampling the inputs: nothing for homing. -/
private theorem before_handling {p : Ports} {rounds : List Round} {b b₁ : Board K} (h : Board.run t p rounds = some b)
    (r : Round) (hf : b.fill r.calcs = some b₁) :
    let b₂ := if r.expired then b₁.sample r.ports else b₁
    Board.Fifo b₂ ∧ b₂.homer = b.homer ∧ b₂.acts = b.acts ∧ b₂.ctrl = b₁.ctrl := by
  obtain ⟨s1, s2, es, s3⟩ := Board.setup_inv t p
  obtain ⟨i1, -, -⟩ := Board.loops_inv t rounds s1 s2 ⟨_, s3, by simp⟩ h
  obtain ⟨es, hp, ho⟩ := Board.pushed_fill r.calcs b b₁ hf
  have f1 := hp.fifo i1.fifo
  intro b₂
  by_cases hx : r.expired
  · have hb : b₂ = b₁.sample r.ports := if_pos hx
    obtain ⟨-, -, i3, i4, i5, -, i7⟩ := Board.sampleInputs Board.nmbrInputs { b₁ with inputs := b₁.inputs.sample r.ports }
    rw [hb]
    exact ⟨i7 ⟨f1.queue, f1.fifo⟩, i3.trans hp.homer, i4.trans hp.acts, i5⟩
  · have hb : b₂ = b₁ := if_neg hx
    rw [hb]
    exact ⟨f1, hp.homer, hp.acts, rfl⟩

/-- **C107 (the buttons have no effect).** In every run of the machine: when the main loop handles an event of the emergency stop
button, of the feed hold button or of the probe, then the motion controller and the homing controller are afterwards exactly what
they were before, and nothing is ordered. -/
theorem buttons_ignored (p : Ports) (rounds : List Round) (r : Round) {b b₁ b' : Board K} {e : Event}
    (h : Board.run t p rounds = some b) (hf : b.fill r.calcs = some b₁) (hl : b.loop t r = some b')
    (ht : told b'.acts = told b.acts ++ [e]) (he : e ∈ buttonEvents) :
    b'.ctrl = b₁.ctrl ∧ b'.homer = b.homer ∧ b'.acts = b.acts ++ [.handled e] := by
  obtain ⟨hist, -, hrun, -⟩ := loop_homing t p rounds b h
  have hd : Deaf b.homer := by
    have : Deaf (Homer.run t.cfg (.fresh t.cfg) hist).1 := deaf_run t.cfg hist
      ⟨show Event.none ∉ buttonEvents by decide, show Event.none ∉ buttonEvents by decide⟩
    rw [hrun] at this
    exact this
  have hb := before_handling t h r hf
  simp only at hb
  unfold Board.loop at hl
  rw [hf] at hl
  simp only [Option.some.injEq] at hl
  generalize (if r.expired then b₁.sample r.ports else b₁) = b₂ at hb hl
  obtain ⟨g1, g2, g3, g4⟩ := hb
  obtain ⟨-, -, -, -, -, -, hh, -⟩ := Board.handle_spec t b₂ g1
  rw [hl, g3, show Board.handledEvents b'.acts = told b'.acts from rfl, ht] at hh
  have hp : (pending b₂.calls).take 1 = [e] := (List.append_cancel_left hh).symm
  have hq : (pending b₂.calls).head? = some e := by
    have : ((pending b₂.calls).take 1).head? = some e := by rw [hp]; rfl
    rwa [List.head?_take, if_neg (by omega)] at this
  obtain ⟨k1, k2, k3⟩ := handle_deaf t g1 fun e' he' env => by
    rw [hq] at he'
    cases he'
    rw [g2]
    exact deaf_react t.cfg env hd he
  rw [hl] at k1 k2 k3
  exact ⟨k1.trans g4, k2.trans g2, by rw [k3, hp, g3]; rfl⟩

/-- **C107, the part that holds.** Every press of the emergency stop button that outlasts debouncing is handled by the main loop, once
no event is pending, unless the event queue has overflowed. Missing: that handling it stops the machine (it does not, see
below). -/
theorem emergency_handled_partial (p : Ports) (rounds : List Round) {b : Board K} (h : Board.run t p rounds = some b)
    (hf : NoOverflow b.calls) (hp : pending b.calls = []) {reports : List (Option Bool)}
    (hr : DebounceSpec.Reports (pin 6 p) [] ((sampledPorts rounds).map (pin 6)) reports) (hpress : some false ∈ reports) :
    .emergencyStopButtonPressed ∈ told b.acts := by
  obtain ⟨-, reps, h1, h2⟩ := loop_no_loss t p rounds b h hf
  have hu : reps 6 = reports := debounce_spec_deterministic (h1 6 (by omega)) hr
  have hlen : reports.length = (sampledPorts rounds).length := by
    have : ∀ {level : Bool} {samples xs : List Bool} {r : List (Option Bool)}, DebounceSpec.Reports level samples xs r →
        r.length = xs.length := by
      intro level samples xs r hr
      induction hr with
      | done => rfl
      | quiet _ _ ih => simp [ih]
      | change _ _ ih => simp [ih]
    simpa using this hr
  obtain ⟨r, hr', hget⟩ := List.mem_iff_getElem.1 hpress
  have hmem : Event.emergencyStopButtonPressed ∈ (told b.acts).filter isInput := by
    rw [hp, List.filter_nil, List.append_nil] at h2
    rw [h2, List.mem_flatMap]
    refine ⟨r, List.mem_range.2 (hlen ▸ hr'), ?_⟩
    unfold roundEvents
    rw [List.mem_filterMap]
    refine ⟨6, List.mem_range.2 (by omega), ?_⟩
    rw [hu, List.getD_eq_getElem?_getD, List.getElem?_eq_getElem hr', hget]
    rfl
  exact (List.mem_filter.1 hmem).1

/-- **C107 (after homing nothing is watched).** Once homing is complete (or has failed), no event at all has an effect, not even
that of a limit switch: in every later iteration the motion controller only goes on with what it has. -/
theorem homed_ignores (p : Ports) (rounds : List Round) (r : Round) {b b₁ b' : Board K}
    (h : Board.run t p rounds = some b) (hs : b.homer.state = .found ∨ b.homer.state = .lost)
    (hf : b.fill r.calcs = some b₁) (hl : b.loop t r = some b') :
    b'.ctrl = b₁.ctrl ∧ b'.homer = b.homer ∧ ∃ es : List Event, b'.acts = b.acts ++ es.map .handled := by
  have hb := before_handling t h r hf
  simp only at hb
  unfold Board.loop at hl
  rw [hf] at hl
  simp only [Option.some.injEq] at hl
  generalize (if r.expired then b₁.sample r.ports else b₁) = b₂ at hb hl
  obtain ⟨g1, g2, g3, g4⟩ := hb
  obtain ⟨k1, k2, k3⟩ := handle_deaf t g1 fun e' _ env => by
    rw [g2]
    unfold Homer.react
    rcases hs with hs | hs <;> simp [hs]
  rw [hl] at k1 k2 k3
  exact ⟨k1.trans g4, k2.trans g2, _, by rw [k3, g3]⟩

/-! ## Witnesses -/

/-- All inputs high but that of the emergency stop button, which is as given. -/
def stopPorts (released : Bool) : Ports := ⟨0, if released then 0xFF#32 else 0xBF#32, 0x02000000#32⟩

/-- Homing starts and the closing move begins; then the emergency stop button is pressed and held for twenty samples. -/
def emergencyRounds : List Round :=
  List.replicate 3 ⟨1, true, stopPorts true⟩ ++ List.replicate 20 ⟨1, true, stopPorts false⟩

/-- **C107 fails.** The emergency stop button is pressed while the machine moves towards a limit switch. The press is debounced,
queued and handled, but no stop is ever ordered and the motion controller keeps running. -/
theorem emergency_stop_violated : ¬ ∀ (K : MotionKit) (t : Target K) (p : Ports) (rounds : List Round) (b : Board K),
    Board.run t p rounds = some b → .emergencyStopButtonPressed ∈ told b.acts →
    .stop ∈ b.acts ∨ b.ctrl.state ≠ .running := by
  intro hall
  have key : ∃ b, Board.run loopTarget (stopPorts true) emergencyRounds = some b ∧ .emergencyStopButtonPressed ∈ told b.acts ∧
      b.acts.all (fun | .stop => false | _ => true) ∧ b.ctrl.state = .running := by
    have h1 : ((Board.run loopTarget (stopPorts true) emergencyRounds).map fun b =>
        decide (.emergencyStopButtonPressed ∈ told b.acts) && b.acts.all (fun | .stop => false | _ => true) &&
          decide (b.ctrl.state = .running)) = some true := by decide +kernel
    rw [Option.map_eq_some_iff] at h1
    obtain ⟨b, hb, h1⟩ := h1
    simp only [Bool.and_eq_true, decide_eq_true_eq] at h1
    exact ⟨b, hb, h1.1.1, h1.1.2, h1.2⟩
  obtain ⟨b, h1, h2, h3, h4⟩ := key
  rcases hall loopKit loopTarget (stopPorts true) _ b h1 h2 with h5 | h5
  · simpa using List.all_eq_true.1 h3 _ h5
  · exact h5 h4

/-- `buttons_ignored` speaks of something: in round eight the press is handled. -/
example : ((Board.run loopTarget (stopPorts true) (emergencyRounds.take 7)).bind fun b =>
      (b.loop loopTarget ⟨1, true, stopPorts false⟩).map fun b' =>
        (told b.acts, told b'.acts, b'.homer.state, b'.ctrl.state)) =
    some ([.homingStarted, .motionStarted], [.homingStarted, .motionStarted, .emergencyStopButtonPressed], .closing, .running) := by
  decide +kernel

/-- `homed_ignores` speaks of something: after homing, the switch that has just been used closes again, and the event is handled. -/
example : (Board.run loopTarget (zPorts true) (List.replicate 12 (zRound false) ++ List.replicate 16 (zRound true) ++
      List.replicate 6 (zRound false))).map
      (fun b => ((told b.acts).getLast?, b.homer.state, b.acts.getLast? matches some (.handled .limitSwitchZMaxClosed))) =
    some (some .limitSwitchZMaxClosed, .found, true) := by
  decide +kernel

end Moovr.Props
