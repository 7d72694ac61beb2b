import Verif.Lemmas.Homing
/-!
# Homing (C58–C61)

For every configuration, every history of calls and every behaviour of the switches and the motion controller. The axes of
the machine are X, Y and Z (`cfg.n ≤ 3`: all targets).
-/
namespace Moovr.Props
open Homer HomingSpec
variable {cfg : HomingConfig}

/-- C58: `homingCompleted` is reported only after, since the last `start()`, every homeable axis was homed in the order of
the configured sequence: its switch was seen closed, then reported open, then the offset move was commanded and started,
then standstill was reported. -/
theorem homing_complete (hn : cfg.n ≤ 3) (calls : List (Call × HomingEnv)) {pre post : List HomingAct}
    (h : (run cfg (fresh cfg) calls).2 = pre ++ .push .homingCompleted :: post) :
    ∃ before since, pre = before ++ .started :: since ∧ HomingAct.started ∉ since ∧ HomedInOrder cfg (axes cfg) since := by
  obtain ⟨-, h2⟩ := run_inv hn calls (inv_fresh (cfg := cfg))
  exact (h2 pre _ post h).1 rfl

/-- Only an axis with a switch at the right end is homed, and each such axis of the sequence is. -/
theorem homing_axes (a : Nat) : a ∈ axes cfg ↔ (∃ i < cfg.nmbrHomingAxis, cfg.homingSequence i = a) ∧ a < cfg.n ∧
    (if cfg.homingDirection a = true then cfg.hasLimitsMax a = true else cfg.hasLimitsMin a = true) := by
  simp only [axes, List.mem_filter, List.mem_map, List.mem_range]
  refine and_congr Iff.rfl (decide_eq_true_iff.trans (and_congr Iff.rfl ?_))
  cases cfg.homingDirection a <;> simp

/-- The environment where switch `closed` is closed and the machine stands still at 0. -/
def idle (closed : Nat → Bool) : HomingEnv := ⟨closed, false, fun _ => 0⟩

/-- A complete run of the shipped machine: Z, X, Y; the switch of Y is closed from the beginning. -/
def completeRun : List (Call × HomingEnv) :=
  ([.start, .event .homingStarted, .event .limitSwitchZMaxClosed, .event .motionStopped, .event .limitSwitchZMaxOpened,
    .event .motionStopped, .event .motionStarted, .event .motionStopped,
    .event .limitSwitchXMaxClosed, .event .motionStopped, .event .limitSwitchXMaxOpened, .event .motionStopped, .event .motionStopped,
    .event .limitSwitchYMaxOpened, .event .motionStopped, .event .motionStopped] : List Call).map fun c => (c, idle (· == 2))

/-- Completion is reached (as the last action), for the axes Z, X and Y in this order. -/
example : (run .cnc3axis (fresh .cnc3axis) completeRun).1.state = .found ∧
    (∃ pre, (run .cnc3axis (fresh .cnc3axis) completeRun).2 = pre ++ [.push .homingCompleted]) ∧
    axes .cnc3axis = [2, 0, 1] :=
  ⟨by decide +kernel, ⟨(run .cnc3axis (fresh .cnc3axis) completeRun).2.dropLast, rfl⟩, by decide +kernel⟩

/-- Not earlier: without the last event homing is not complete. -/
example : (run .cnc3axis (fresh .cnc3axis) completeRun.dropLast).1.state = .offsettingWaitForStop := by decide +kernel

/-! ## C59 -/

/-- The stage changes or something is done besides taking note of the event. -/
def Reacts (cfg : HomingConfig) (env : HomingEnv) (h : Homer) (e : Event) : Prop :=
  (handleEvents cfg env h e).1.state ≠ h.state ∨ (handleEvents cfg env h e).2 ≠ [.handled e]

/-- C59: homing reacts only to the event its stage waits for: the closing (opening) of the switch of the axis that is just
moved towards (away from) it, or a standstill it asked for; no other event changes the stage or causes a command. -/
theorem homing_reacts (hn : cfg.n ≤ 3) (calls : List (Call × HomingEnv)) (env : HomingEnv) (e : Event)
    (h : Reacts cfg env (run cfg (fresh cfg) calls).1 e) :
    match (run cfg (fresh cfg) calls).1.state with
    | .lost | .found => False
    | .closing => ∃ m q a, LastMove (run cfg (fresh cfg) calls).2 m q ∧ Approach cfg a m ∧ Closes cfg a e
    | .opening => ∃ m q a, LastMove (run cfg (fresh cfg) calls).2 m q ∧ Release cfg a m ∧ Opens cfg a e
    | _ => e = .motionStopped := by
  obtain ⟨hi, -⟩ := run_inv hn calls (inv_fresh (cfg := cfg))
  rw [List.nil_append] at hi
  generalize (run cfg (fresh cfg) calls).1 = s at h hi ⊢
  generalize (run cfg (fresh cfg) calls).2 = t at hi ⊢
  have last : ∀ {u p m q}, Since cfg s t u → u = p ++ HomingAct.append m :: q → (∀ x ∈ q, ¬ IsMove x) → LastMove t m q := by
    rintro u p m q hs rfl hq
    obtain ⟨b, d, v, e1, -, e3, -, -⟩ := hs.trace
    refine ⟨⟨b ++ .started :: (v ++ p), by rw [e1]; simp⟩, fun x hx => ⟨hq x hx, ?_⟩⟩
    rintro rfl
    exact e3 (by simp [hx])
  cases hst : s.state <;> simp only [Reacts, handleEvents, react, hst] at h ⊢
  · simp at h
  · by_contra hc; simp [hc, hst] at h
  · by_cases hc : s.limitSwitchClose = e
    · obtain ⟨u, hs, hu⟩ := hi.1 (by simp [hst]) (by simp [hst])
      simp only [Stage, hst] at hu
      obtain ⟨p, m, q, e1, e2, e3⟩ := hu
      exact ⟨m, q, _, last hs e1 e3, e2, (hs.selected.closes hn e).1 hc⟩
    · simp [hc, hst] at h
  · by_contra hc; simp [hc, hst] at h
  · by_cases hc : s.limitSwitchOpen = e
    · obtain ⟨u, hs, hu⟩ := hi.1 (by simp [hst]) (by simp [hst])
      simp only [Stage, hst] at hu
      obtain ⟨p, m, q, x, e1, e2, e3, -, -⟩ := hu
      exact ⟨m, q, _, last hs e1 e3, e2, (hs.selected.opens hn e).1 hc⟩
    · simp [hc, hst] at h
  · by_contra hc; simp [hc, hst] at h
  · by_contra hc; simp [hc, hst] at h
  · simp at h

/-- C59: an event of a switch of another axis, or of the switch at the other end, does not change anything. -/
theorem homing_ignores (hn : cfg.n ≤ 3) (calls : List (Call × HomingEnv)) (env : HomingEnv) {b : Nat} {d : Bool} {c o e : Event}
    (hb : (b, d, c, o) ∈ switches) (he : e = c ∨ e = o)
    (hl : ∀ m q, LastMove (run cfg (fresh cfg) calls).2 m q → m.axis = b → cfg.homingDirection b ≠ d) :
    ¬ Reacts cfg env (run cfg (fresh cfg) calls).1 e := by
  intro hr
  have h := homing_reacts hn calls env e hr
  have hne : e ≠ .motionStopped := by
    rintro rfl
    simp only [switches, List.mem_cons, Prod.mk.injEq, List.not_mem_nil, or_false] at hb
    rcases he with he | he <;> subst he <;> simp at hb
  have hu : ∀ a o', (a, cfg.homingDirection a, e, o') ∈ switches ∨ (a, cfg.homingDirection a, o', e) ∈ switches →
      a = b ∧ cfg.homingDirection a = d := by
    intro a o' ha
    have : ∀ x ∈ switches, ∀ y ∈ switches, (x.2.2.1 = y.2.2.1 ∨ x.2.2.1 = y.2.2.2 ∨ x.2.2.2 = y.2.2.1 ∨ x.2.2.2 = y.2.2.2) →
        x.1 = y.1 ∧ x.2.1 = y.2.1 := by decide
    rcases ha with ha | ha <;> rcases he with rfl | rfl
    · exact this _ ha _ hb (by simp)
    · exact this _ ha _ hb (by simp)
    · exact this _ ha _ hb (by simp)
    · exact this _ ha _ hb (by simp)
  cases hst : (run cfg (fresh cfg) calls).1.state <;> simp only [hst] at h
  all_goals first | exact hne h | skip
  · obtain ⟨m, q, a, h1, h2, o', h3⟩ := h
    obtain ⟨rfl, h4⟩ := hu a o' (.inl h3)
    exact hl m q h1 h2.1 h4
  · obtain ⟨m, q, a, h1, h2, o', h3⟩ := h
    obtain ⟨rfl, h4⟩ := hu a o' (.inr h3)
    exact hl m q h1 h2.1 h4

/-- While Z is approached, the switch of X closes: nothing happens. The switch of Z closes: the stage changes. -/
example : (handleEvents .cnc3axis (idle fun _ => false) (start .cnc3axis (idle fun _ => false) (fresh .cnc3axis)).1
      .limitSwitchXMaxClosed).1.state = .closing ∧
    (handleEvents .cnc3axis (idle fun _ => false) (start .cnc3axis (idle fun _ => false) (fresh .cnc3axis)).1
      .limitSwitchZMaxClosed).1.state = .closedWaitForStop := by decide +kernel

/-! ## C60 -/

/-- C60: every move of homing is an approach, release or offset move of one of the axes to be homed, with the configured
direction, length and speed; it is commanded when the motion controller was idle or reported standstill, after flushing
the queue, and started at once; an approach only when the switch was just seen open, a release only when it was just seen
closed or has stopped an approach, an offset move only when its opening has stopped a release. -/
theorem homing_moves (hn : cfg.n ≤ 3) (calls : List (Call × HomingEnv)) {pre post : List HomingAct} {m : HomingMove}
    (h : (run cfg (fresh cfg) calls).2 = pre ++ .append m :: post) :
    (∃ a ∈ axes cfg, ∃ before, pre = before ++ [.flush] ∧ Justified cfg before a m ∧ Still before) ∧
      ∃ after, post = .go :: after := by
  obtain ⟨-, h2⟩ := run_inv hn calls (inv_fresh (cfg := cfg))
  exact (h2 pre _ post h).2 m rfl

/-- C60: a move starts from the machine position at that time. -/
theorem homing_moves_start (h : Homer) (c : Call) (env : HomingEnv) {m : HomingMove} (hm : .append m ∈ (call cfg h (c, env)).2) :
    m.position = env.position := by
  have he : ∀ h : Homer, .append m ∈ enterState cfg env h → m.position = env.position := by
    intro h hm
    unfold enterState at hm
    split at hm <;> simp only [List.mem_cons, List.not_mem_nil, or_false, reduceCtorEq, false_or, HomingAct.append.injEq] at hm
    all_goals rw [hm]
  have hg : ∀ (h : Homer) (s : HomingState), .append m ∈ (goTo cfg env h s).2 → m.position = env.position :=
    fun h s hm => he _ hm
  have ha : ∀ h : Homer, .append m ∈ (approach cfg env h).2 → m.position = env.position := by
    intro h hm
    simp only [approach, goTo, List.mem_cons, reduceCtorEq, false_or] at hm
    exact he _ hm
  cases c with
  | start =>
    simp only [call, start] at hm
    split_ifs at hm
    · simp only [goTo, List.mem_append, List.mem_cons, reduceCtorEq, List.not_mem_nil, or_self, false_or] at hm
      exact he _ hm
    · simp only [List.mem_append, List.mem_cons, reduceCtorEq, List.not_mem_nil, or_self, false_or] at hm
      exact ha _ hm
    · simp at hm
  | event e =>
    simp only [call, handleEvents, List.mem_cons, reduceCtorEq, false_or] at hm
    unfold react at hm
    split at hm
    · simp at hm
    · split_ifs at hm
      · exact ha _ hm
      · simp at hm
    · split_ifs at hm
      · exact hg _ _ hm
      · simp at hm
    · split_ifs at hm
      · exact hg _ _ hm
      · simp at hm
    · split_ifs at hm
      · exact hg _ _ hm
      · simp at hm
    · split_ifs at hm
      · exact hg _ _ hm
      · simp at hm
    · split_ifs at hm
      · simp only at hm
        split_ifs at hm
        · exact ha _ hm
        · exact hg _ _ hm
      · simp at hm
    · simp at hm

/-- The moves of the complete run: axis, distance and speed. -/
example : (run .cnc3axis (fresh .cnc3axis) completeRun).2.filterMap (fun | .append m => some (m.axis, m.offset, m.speed) | _ => none) =
    [(2, 60, 10), (2, -60, 1), (2, -3, 10), (0, 300, 10), (0, -300, 1), (0, -3, 10), (1, -160, 1), (1, -3, 10)] := by
  decide +kernel

/-! ## C61 -/

/-- C61: if no axis of the sequence has the required limit switch, the homing controller stays lost and never commands
anything, whatever happens, and every `start()` reports `homingError`. -/
theorem homing_impossible (hc : ∀ i < cfg.nmbrHomingAxis, ¬ Homeable cfg (cfg.homingSequence i)) (calls : List (Call × HomingEnv)) :
    (run cfg (fresh cfg) calls).1.state = .lost ∧ (∀ x ∈ (run cfg (fresh cfg) calls).2, ¬ IsCommand x) ∧
    ∀ env, (start cfg env (run cfg (fresh cfg) calls).1).2 = [.started, .push .homingError] := by
  have ha : axes cfg = [] := by
    rw [axes, List.filter_eq_nil_iff]
    simpa [List.mem_map] using hc
  have hs : ∀ h env, (start cfg env h).1.state = h.state ∧ (start cfg env h).2 = [.started, .push .homingError] := by
    intro h env
    obtain ⟨s1, s2, -⟩ := selectAxis_spec (cfg := cfg) { h with homingSequenceIndex := 0 }
    have := s2 (by simpa [toDo_zero] using ha)
    unfold start
    simp only [this, Bool.false_eq_true, if_false]
    exact ⟨s1, trivial⟩
  have key : ∀ (cs : List (Call × HomingEnv)) (h : Homer), h.state = .lost →
      (run cfg h cs).1.state = .lost ∧ ∀ x ∈ (run cfg h cs).2, ¬ IsCommand x := by
    intro cs
    induction cs with
    | nil => intro h hl; exact ⟨hl, by simp [run]⟩
    | cons c cs ih =>
      intro h hl
      have hcall : (call cfg h c).1.state = .lost ∧ ∀ x ∈ (call cfg h c).2, ¬ IsCommand x := by
        rcases c with ⟨_ | e, env⟩
        · obtain ⟨h1, h2⟩ := hs h env
          refine ⟨h1.trans hl, ?_⟩
          simp only [call, h2]
          simp [IsCommand]
        · simp [call, handleEvents, react, hl, IsCommand]
      obtain ⟨i1, i2⟩ := ih _ hcall.1
      refine ⟨i1, fun x hx => ?_⟩
      rcases List.mem_append.1 hx with hx | hx
      · exact hcall.2 x hx
      · exact i2 x hx
  obtain ⟨k1, k2⟩ := key calls (fresh cfg) rfl
  exact ⟨k1, k2, fun env => (hs _ env).2⟩

/-- A machine with the switches at the wrong ends. -/
example : ∀ i < 3, ¬ Homeable { HomingConfig.cnc3axis with homingDirection := fun _ => false } (HomingConfig.cnc3axis.homingSequence i) := by
  decide +kernel

end Moovr.Props
