import Verif.Lemmas.MainLoop
/-! Helper lemmas: homing and the motion controller together. -/
namespace Moovr

namespace MotionCtrl
variable {K : MotionKit}

/-- A calculation at standstill changes neither state nor queue, nor position, and reports nothing. -/
theorem calcLoop_stopped (fuel : Nat) (c : MotionCtrl K) (hs : c.state = .stopped) (r) (h : calcLoop fuel c = some r) :
    r.1.state = .stopped ∧ r.1.buffer = c.buffer ∧ r.1.events = c.events ∧ r.1.machinePosition = c.machinePosition ∧
      r.1.time = c.time ∧ r.1.overrides = c.overrides := by
  induction fuel generalizing c r with
  | zero => simp [calcLoop] at h
  | succ fuel ih =>
    have ht : c.tick = some ({ c with signals := c.signals.next }, ⟨fun _ => none, [], none⟩) := by
      unfold tick; simp [isRunning, hs]
    unfold calcLoop at h
    rw [ht] at h
    simp only at h
    split at h
    · simp only [Option.some.injEq] at h
      subst h
      exact ⟨hs, rfl, rfl, rfl, rfl, rfl⟩
    · simp only [Option.map_eq_some_iff] at h
      obtain ⟨x, hx, rfl⟩ := h
      exact ih { c with signals := c.signals.next } hs x hx

/-- A tick with one motion in the queue. -/
theorem tick_single (c : MotionCtrl K) (hs : c.state ≠ .stopped) (hl : c.buffer.level = 1) (r) (h : c.tick = some r) :
    ((r.1.state = c.state ∧ r.1.buffer.level = 1 ∧ r.1.events = c.events) ∨
    (r.1.state = .stopped ∧ (r.1.buffer.level = 0 ∨ r.1.buffer.level = 1))) ∧ (r.1.buffer.level = 1 → r.1.buffer = c.buffer) := by
  unfold tick at h
  rw [if_pos (by simp [isRunning, hs])] at h
  simp only [Option.map_eq_some_iff] at h
  obtain ⟨x, hx, rfl⟩ := h
  have hlev : ∀ d : MotionCtrl K, d.buffer.level = 1 → (settle (d.buffer.level + 1) d = some x) →
      ((x.1.state = d.state ∧ x.1.buffer.level = 1 ∧ x.1.events = d.events) ∨ (x.1.state = .stopped ∧ x.1.buffer.level = 0)) ∧
      (x.1.buffer.level = 1 → x.1.buffer = d.buffer) := by
    intro d hd hx
    unfold settle at hx
    rw [if_neg (by omega : ¬ d.buffer.level > 1)] at hx
    split at hx
    · simp only [Option.some.injEq] at hx
      subst hx
      have h0 : d.lastMotion.buffer.level = 0 := by simp [lastMotion, pushEvent, MotionBuffer.pop, hd, u32sub]
      exact ⟨.inr ⟨rfl, h0⟩, fun h => by simp only at h; omega⟩
    · simp only [Option.some.injEq] at hx
      subst hx
      exact ⟨.inl ⟨rfl, hd, rfl⟩, fun _ => rfl⟩
  unfold sampleAndCheckStop at hx
  simp only at hx
  split at hx
  · obtain ⟨h | h, h'⟩ := hlev _ (by exact hl) hx
    · exact ⟨.inr ⟨h.1, .inr h.2.1⟩, h'⟩
    · exact ⟨.inr ⟨h.1, .inl h.2⟩, h'⟩
  · obtain ⟨h | h, h'⟩ := hlev _ (by exact hl) hx
    · exact ⟨.inl h, h'⟩
    · exact ⟨.inr ⟨h.1, .inl h.2⟩, h'⟩

theorem calcLoop_single (fuel : Nat) (c : MotionCtrl K) (hs : c.state ≠ .stopped) (hl : c.buffer.level = 1) (r)
    (h : calcLoop fuel c = some r) :
    ((r.1.state = c.state ∧ r.1.buffer.level = 1 ∧ r.1.events = c.events) ∨
    (r.1.state = .stopped ∧ (r.1.buffer.level = 0 ∨ r.1.buffer.level = 1))) ∧ (r.1.buffer.level = 1 → r.1.buffer = c.buffer) := by
  induction fuel generalizing c r with
  | zero => simp [calcLoop] at h
  | succ fuel ih =>
    unfold calcLoop at h
    split at h
    · cases h
    · rename_i c' t ht
      have h1 := tick_single c hs hl _ ht
      split at h
      · simp only [Option.some.injEq] at h
        subst h
        exact h1
      · simp only [Option.map_eq_some_iff] at h
        obtain ⟨x, hx, rfl⟩ := h
        obtain ⟨⟨a, b, e⟩ | ⟨a, b⟩, k⟩ := h1
        · obtain ⟨⟨a', b', e'⟩ | h, k'⟩ := ih c' (by simp only at a; rw [a]; exact hs) b x hx
          · exact ⟨.inl ⟨a'.trans a, b', e'.trans e⟩, fun h => (k' h).trans (k b)⟩
          · exact ⟨.inr h, fun h => (k' h).trans (k b)⟩
        · obtain ⟨s1, s2, -⟩ := calcLoop_stopped fuel c' a x hx
          exact ⟨.inr ⟨s1, by rw [s2]; exact b⟩, fun h => by rw [s2] at h ⊢; exact k h⟩

end MotionCtrl

namespace Board
open EventQueueSpec EventBuffer LoopSpec MotionCtrl
variable {K : MotionKit} (t : Target K)

/-- Number of reports `motionStopped` that are not yet handled. -/
def stops (b : Board K) : Nat := (pending b.calls).count .motionStopped

theorem count_pending_pushes (calls : List Call) (es : List Event) :
    (pending (calls ++ es.map .push)).count .motionStopped ≤ (pending calls).count .motionStopped + es.count .motionStopped := by
  induction es generalizing calls with
  | nil => simp
  | cons e es ih =>
    rw [List.map_cons, ← List.singleton_append, ← List.append_assoc]
    refine (ih _).trans ?_
    rw [pending_snoc, List.count_cons]
    simp only [next]
    split
    · rw [List.count_append, List.count_singleton]; omega
    · omega

theorem stops_withCtrl (b : Board K) (c : MotionCtrl K) : (b.withCtrl c).stops ≤ b.stops + stopCount b.ctrl c := by
  unfold withCtrl stops
  rw [(pushed_foldl (c.events.drop b.ctrl.events.length) { b with ctrl := c }).calls]
  exact count_pending_pushes _ _

theorem withCtrl_homer (b : Board K) (c : MotionCtrl K) : (b.withCtrl c).homer = b.homer ∧ (b.withCtrl c).acts = b.acts ∧
    (b.withCtrl c).myInputs = b.myInputs := by
  have h := pushed_foldl (c.events.drop b.ctrl.events.length) { b with ctrl := c }
  exact ⟨h.homer, h.acts, h.myInputs⟩

theorem withCtrl_fifo {b : Board K} {c : MotionCtrl K} (h : Fifo b) : Fifo (b.withCtrl c) :=
  (pushed_foldl (c.events.drop b.ctrl.events.length) { b with ctrl := c }).fifo ⟨h.queue, h.fifo⟩

/-- The controller executes a single motion, or has completed it. -/
def Executing (b : Board K) : Prop :=
  (b.ctrl.state = .running ∧ b.ctrl.buffer.level = 1 ∧ b.stops = 0) ∨
  (b.ctrl.state = .stopped ∧ b.ctrl.buffer.level = 0 ∧ b.stops ≤ 1)

/-- The controller brings a single motion to a stop, or has done so. -/
def Halting (b : Board K) : Prop :=
  (b.ctrl.state = .stopping ∧ b.ctrl.buffer.level = 1 ∧ b.stops = 0) ∨
  (b.ctrl.state = .stopped ∧ b.ctrl.buffer.level ≤ 1 ∧ b.stops ≤ 1)

/-- What the state of the homing controller says about the motion controller. -/
def Phase (b : Board K) : Prop :=
  match b.homer.state with
  | .lost | .found => b.ctrl.state = .stopped
  | .stopping => False
  | .closing | .opening | .offsettingWaitForStop => b.Executing
  | .closedWaitForStop | .openedWaitForStop => b.Halting

/-- The request of the last move that homing has ordered. -/
def ordered (acts : List HomingAct) : List (Option K.Req) :=
  ((acts.filterMap fun
    | .append m => some (some (t.request m))
    | _ => none).getLast?).toList

/-- The queue holds at most the move ordered last. -/
def Held (b : Board K) : Prop := b.ctrl.requests = [] ∨ b.ctrl.requests = ordered t b.acts

/-! ### Calculations -/

theorem phase_level {b : Board K} (hp : Phase b) : b.ctrl.state = .stopped ∨ b.ctrl.buffer.level = 1 := by
  unfold Phase at hp
  split at hp
  · exact .inl hp
  · exact .inl hp
  · exact hp.elim
  · exact hp.elim (fun h => .inr h.2.1) (fun h => .inl h.1)
  · exact hp.elim (fun h => .inr h.2.1) (fun h => .inl h.1)
  · exact hp.elim (fun h => .inr h.2.1) (fun h => .inl h.1)
  · exact hp.elim (fun h => .inr h.2.1) (fun h => .inl h.1)
  · exact hp.elim (fun h => .inr h.2.1) (fun h => .inl h.1)

theorem calc_held {b : Board K} (hp : Phase b) (hh : Held t b) {r} (h : b.ctrl.calcNext = some r) : Held t (b.withCtrl r.1) := by
  unfold Held at *
  rw [withCtrl_ctrl, (withCtrl_homer b r.1).2.1]
  by_cases hs : b.ctrl.state = .stopped
  · have : r.1.requests = b.ctrl.requests := by
      unfold requests; rw [(calcLoop_stopped _ _ hs _ h).2.1]
    rw [this]; exact hh
  · have hl := (phase_level hp).resolve_left hs
    obtain ⟨h1, h2⟩ := calcLoop_single _ _ hs hl _ h
    have h01 : r.1.buffer.level = 0 ∨ r.1.buffer.level = 1 := h1.elim (fun h => .inr h.2.1) (fun h => h.2)
    rcases h01 with h0 | h1
    · left; unfold requests; rw [h0]; rfl
    · have : r.1.requests = b.ctrl.requests := by unfold requests; rw [h2 h1]
      rw [this]; exact hh

theorem calc_phase {b : Board K} (hp : Phase b) (hr : Regular b.ctrl) {r} (h : b.ctrl.calcNext = some r) :
    Phase (b.withCtrl r.1) := by
  have hstop : b.ctrl.state = .stopped → (b.withCtrl r.1).ctrl.state = .stopped ∧
      (b.withCtrl r.1).ctrl.buffer = b.ctrl.buffer ∧ (b.withCtrl r.1).stops ≤ b.stops := by
    intro hs
    obtain ⟨a1, a2, a3, -⟩ := calcLoop_stopped _ _ hs _ h
    have := stops_withCtrl b r.1
    rw [withCtrl_ctrl]
    refine ⟨a1, a2, ?_⟩
    simpa [stopCount, a3] using this
  have hkeep : r.1.events = b.ctrl.events → (b.withCtrl r.1).stops ≤ b.stops := by
    intro h
    simpa [stopCount, h] using stops_withCtrl b r.1
  have hone := stops_withCtrl b r.1
  obtain ⟨h1, h2⟩ := hr r h
  unfold Phase at hp ⊢
  rw [(withCtrl_homer b r.1).1]
  have hexec : b.Executing → (b.withCtrl r.1).Executing := by
    rintro (⟨e1, e2, e3⟩ | ⟨e1, e2, e3⟩)
    · rcases calcLoop_single _ _ (by rw [e1]; simp) e2 _ h |>.1 with ⟨a, b', c⟩ | ⟨a, -⟩
      · exact .inl ⟨by rw [withCtrl_ctrl, a, e1], by rw [withCtrl_ctrl]; exact b', by have := hkeep c; omega⟩
      · exact .inr ⟨by rw [withCtrl_ctrl]; exact a, by rw [withCtrl_ctrl]; exact h2 e1 a, by omega⟩
    · obtain ⟨a1, a2, a3⟩ := hstop e1
      exact .inr ⟨a1, by rw [a2]; exact e2, by omega⟩
  have hhalt : b.Halting → (b.withCtrl r.1).Halting := by
    rintro (⟨e1, e2, e3⟩ | ⟨e1, e2, e3⟩)
    · rcases calcLoop_single _ _ (by rw [e1]; simp) e2 _ h |>.1 with ⟨a, b', c⟩ | ⟨a, b'⟩
      · exact .inl ⟨by rw [withCtrl_ctrl, a, e1], by rw [withCtrl_ctrl]; exact b', by have := hkeep c; omega⟩
      · exact .inr ⟨by rw [withCtrl_ctrl]; exact a, by rw [withCtrl_ctrl]; omega, by omega⟩
    · obtain ⟨a1, a2, a3⟩ := hstop e1
      exact .inr ⟨a1, by rw [a2]; exact e2, by omega⟩
  split <;> rename_i hst <;> rw [hst] at hp <;> simp only at hp
  · exact (hstop hp).1
  · exact (hstop hp).1
  · exact hexec hp
  · exact hexec hp
  · exact hexec hp
  · exact hhalt hp
  · exact hhalt hp

theorem fill_phase (k : Nat) : ∀ {b b' : Board K}, Phase b → Fifo b → Held t b →
    (∀ j, j < k → ∀ b₁, b.fill j = some b₁ → Regular b₁.ctrl) → b.fill k = some b' →
    Phase b' ∧ Fifo b' ∧ Held t b' ∧ b'.homer = b.homer ∧ b'.acts = b.acts ∧ b'.myInputs = b.myInputs := by
  induction k with
  | zero =>
    intro b b' hp hf hd _ h
    simp only [fill, Option.some.injEq] at h
    subst h
    exact ⟨hp, hf, hd, rfl, rfl, rfl⟩
  | succ k ih =>
    intro b b' hp hf hd hr h
    have h0 := hr 0 (by omega) b rfl
    unfold fill at h
    split at h
    · cases h
    · rename_i r hrr
      obtain ⟨i1, i2, i0, i3, i4, i5⟩ := ih (calc_phase hp h0 hrr) (withCtrl_fifo hf) (calc_held t hp hd hrr)
        (fun j hj b₁ hb₁ => hr (j + 1) (by omega) b₁ (by simp only [fill, hrr]; exact hb₁)) h
      obtain ⟨w1, w2, w3⟩ := withCtrl_homer b r.1
      exact ⟨i1, i2, i0, i3.trans w1, i4.trans w2, i5.trans w3⟩

/-! ### Other parts of an iteration -/

theorem Phase.congr {b b' : Board K} (h : Phase b) (h1 : b'.homer.state = b.homer.state) (h2 : b'.ctrl = b.ctrl)
    (h3 : b'.stops ≤ b.stops) : Phase b' := by
  have hE : b.Executing → b'.Executing := by
    unfold Executing
    rw [h2]
    exact Or.imp (fun h => ⟨h.1, h.2.1, by omega⟩) (fun h => ⟨h.1, h.2.1, by omega⟩)
  have hH : b.Halting → b'.Halting := by
    unfold Halting
    rw [h2]
    exact Or.imp (fun h => ⟨h.1, h.2.1, by omega⟩) (fun h => ⟨h.1, h.2.1, by omega⟩)
  unfold Phase at h ⊢
  rw [h1]
  split <;> rename_i hs <;> rw [hs] at h <;> simp only at h
  · rw [h2]; exact h
  · rw [h2]; exact h
  · exact hE h
  · exact hE h
  · exact hE h
  · exact hH h
  · exact hH h

theorem sampleInput_phase (b : Board K) (i : Nat)
    (hi : (b.myInputs i).onClose ≠ .motionStopped ∧ (b.myInputs i).onOpen ≠ .motionStopped) :
    (b.sampleInput i).homer = b.homer ∧ (b.sampleInput i).acts = b.acts ∧ (b.sampleInput i).ctrl = b.ctrl ∧
      (b.sampleInput i).stops ≤ b.stops ∧ (Fifo b → Fifo (b.sampleInput i)) ∧
      ∀ j, ((b.sampleInput i).myInputs j).onClose = (b.myInputs j).onClose ∧
        ((b.sampleInput i).myInputs j).onOpen = (b.myInputs j).onOpen := by
  unfold sampleInput
  simp only
  have hk := DebouncedInput.getEvent_events (b.myInputs i) (b.inputs.get i)
  have hrange := getEvent_range (b.myInputs i) (b.inputs.get i)
  generalize (b.myInputs i).getEvent (b.inputs.get i) = r at *
  have hmy : ∀ j, (if j = i then r.1 else b.myInputs j).onClose = (b.myInputs j).onClose ∧
      (if j = i then r.1 else b.myInputs j).onOpen = (b.myInputs j).onOpen := by
    intro j
    split
    · subst_vars; exact ⟨hk.2, hk.1⟩
    · exact ⟨rfl, rfl⟩
  split
  · have hp := pushed_push ({ b with myInputs := fun j => if j = i then r.1 else b.myInputs j }) r.2
    refine ⟨hp.homer, hp.acts, rfl, ?_, fun h => hp.fifo ⟨h.queue, h.fifo⟩, fun j => by rw [hp.myInputs]; exact hmy j⟩
    have := count_pending_pushes b.calls [r.2]
    have hne : r.2 ≠ .motionStopped := by
      rcases hrange with h | h | h <;> rw [h]
      · simp
      · exact hi.1
      · exact hi.2
    unfold stops
    rw [hp.calls]
    simpa [List.count_singleton, hne] using this
  · exact ⟨rfl, rfl, rfl, le_refl _, fun h => ⟨h.queue, h.fifo⟩, hmy⟩

/-- Inputs never report motion events. -/
def InputsOk (b : Board K) : Prop := ∀ i, (b.myInputs i).onClose ≠ .motionStopped ∧ (b.myInputs i).onOpen ≠ .motionStopped

theorem sample_phase {b : Board K} (hp : Phase b) (hf : Fifo b) (hi : InputsOk b) (p : Ports) :
    Phase (b.sample p) ∧ Fifo (b.sample p) ∧ InputsOk (b.sample p) ∧ (b.sample p).homer = b.homer ∧ (b.sample p).acts = b.acts ∧
      (b.sample p).ctrl = b.ctrl := by
  unfold sample
  have h0 : Phase { b with inputs := b.inputs.sample p } ∧ Fifo { b with inputs := b.inputs.sample p } ∧
      InputsOk { b with inputs := b.inputs.sample p } := ⟨hp.congr rfl rfl (le_refl _), ⟨hf.queue, hf.fifo⟩, hi⟩
  have hgen : ∀ (l : List Nat) (b : Board K), Phase b → Fifo b → InputsOk b → Phase (l.foldl sampleInput b) ∧
      Fifo (l.foldl sampleInput b) ∧ InputsOk (l.foldl sampleInput b) ∧ (l.foldl sampleInput b).homer = b.homer ∧
      (l.foldl sampleInput b).acts = b.acts ∧ (l.foldl sampleInput b).ctrl = b.ctrl := by
    intro l
    induction l with
    | nil => intro b h1 h2 h3; exact ⟨h1, h2, h3, rfl, rfl, rfl⟩
    | cons i l ih =>
      intro b h1 h2 h3
      obtain ⟨s1, s2, s3, s4, s5, s6⟩ := sampleInput_phase b i (h3 i)
      obtain ⟨a1, a2, a3, a4, a5, a6⟩ := ih (b.sampleInput i) (h1.congr (by rw [s1]) s3 s4) (s5 h2)
        (fun j => by rw [(s6 j).1, (s6 j).2]; exact h3 j)
      exact ⟨a1, a2, a3, a4.trans s1, a5.trans s2, a6.trans s3⟩
  exact hgen _ _ h0.1 h0.2.1 h0.2.2

/-! ### Homing -/

/-- What the homing controller can do when it is told an event. -/
theorem react_cases (cfg : HomingConfig) (env : HomingEnv) (h : Homer) (e : Event) (hs : h.state ≠ .stopping) :
    Homer.react cfg env h e = (h, []) ∨
    ((Homer.react cfg env h e).2 = [.stop] ∧
      ((h.state = .closing ∧ (Homer.react cfg env h e).1.state = .closedWaitForStop) ∨
       (h.state = .opening ∧ (Homer.react cfg env h e).1.state = .openedWaitForStop))) ∨
    (e = .motionStopped ∧ (h.state = .closedWaitForStop ∨ h.state = .openedWaitForStop ∨ h.state = .offsettingWaitForStop) ∧
      ((Homer.react cfg env h e).1.state = .closing ∨ (Homer.react cfg env h e).1.state = .opening ∨
        (Homer.react cfg env h e).1.state = .offsettingWaitForStop) ∧
      ∃ pre m, (pre = [] ∨ ∃ i c, pre = [.sawClosed i c]) ∧ m.position = env.position ∧
        (Homer.react cfg env h e).2 = pre ++ [.flush, .append m, .go]) ∨
    (e = .motionStopped ∧ h.state = .offsettingWaitForStop ∧ (Homer.react cfg env h e).1.state = .found ∧
      (Homer.react cfg env h e).2 = [.push .homingCompleted]) := by
  unfold Homer.react
  split <;> rename_i hst
  · exact .inl rfl
  · exact absurd hst hs
  · split
    · exact .inr (.inl ⟨rfl, .inl ⟨hst, rfl⟩⟩)
    · exact .inl rfl
  · split
    · rename_i he
      exact .inr (.inr (.inl ⟨he, .inl hst, .inr (.inl rfl), [], _, .inl rfl, rfl, rfl⟩))
    · exact .inl rfl
  · split
    · exact .inr (.inl ⟨rfl, .inr ⟨hst, rfl⟩⟩)
    · exact .inl rfl
  · split
    · rename_i he
      exact .inr (.inr (.inl ⟨he, .inr (.inl hst), .inr (.inr rfl), [], _, .inl rfl, rfl, rfl⟩))
    · exact .inl rfl
  · split
    · rename_i he
      simp only
      split
      · refine .inr (.inr (.inl ⟨he, .inr (.inr hst), ?_⟩))
        unfold Homer.approach
        simp only
        cases env.closed (Homer.nextAxis cfg h).1.theLimitSwitch
        · exact ⟨.inl rfl, [_], _, .inr ⟨_, _, rfl⟩, rfl, rfl⟩
        · exact ⟨.inr (.inl rfl), [_], _, .inr ⟨_, _, rfl⟩, rfl, rfl⟩
      · exact .inr (.inr (.inr ⟨he, hst, rfl, rfl⟩))
    · exact .inl rfl
  · exact .inl rfl

/-- A homing move is ordered at standstill: afterwards it is the only one in the queue, and running. -/
theorem order_phase {b : Board K} (hs : b.ctrl.state = .stopped) (m : HomingMove) :
    let b' := [HomingAct.flush, .append m, .go].foldl (exec t) b
    b'.ctrl.state = .running ∧ b'.ctrl.buffer.level = 1 ∧ b'.ctrl.requests = [some (t.request m)] ∧ b'.stops ≤ b.stops ∧
      b'.homer = b.homer ∧ b'.acts = b.acts ∧ b'.myInputs = b.myInputs ∧ (Fifo b → Fifo b') ∧
      b'.ctrl = (b.ctrl.flushMotionBuffer.append (t.request m)).start := by
  simp only [List.foldl_cons, List.foldl_nil, exec]
  generalize h1 : b.withCtrl b.ctrl.flushMotionBuffer = b₁
  generalize h2 : b₁.withCtrl (b₁.ctrl.append (t.request m)) = b₂
  have c1 : b₁.ctrl = { b.ctrl with time := b.ctrl.time.reinit, buffer := b.ctrl.buffer.flush } := by
    rw [← h1, withCtrl_ctrl, flushMotionBuffer, if_pos (by simp [isRunning, hs])]
  have c2 : b₂.ctrl = b₁.ctrl.append (t.request m) := by rw [← h2, withCtrl_ctrl]
  have l2 : b₂.ctrl.buffer.level = 1 ∧ b₂.ctrl.requests = [some (t.request m)] ∧ b₂.ctrl.state = .stopped ∧ b₂.ctrl.events = b.ctrl.events := by
    rw [c2, c1]
    refine ⟨rfl, ?_, hs, rfl⟩
    rfl
  have c3 : b₂.ctrl.start = optimize { b₂.ctrl.pushEvent .motionStarted with state := .running } := by
    unfold start
    rw [if_pos (by simp [MotionBuffer.isEmpty, l2.1])]
  have hsame := sameButProf_optimize { b₂.ctrl.pushEvent .motionStarted with state := .running }
  rw [← c3] at hsame
  have s1 := stops_withCtrl b b.ctrl.flushMotionBuffer
  have s2 := stops_withCtrl b₁ (b₁.ctrl.append (t.request m))
  have s3 := stops_withCtrl b₂ b₂.ctrl.start
  rw [h1] at s1
  rw [h2] at s2
  have e1 : stopCount b.ctrl b.ctrl.flushMotionBuffer = 0 := by
    have : b.ctrl.flushMotionBuffer = b₁.ctrl := by rw [← h1, withCtrl_ctrl]
    simp [stopCount, this, c1]
  have e2 : stopCount b₁.ctrl (b₁.ctrl.append (t.request m)) = 0 := by
    rw [← c2]; simp [stopCount, l2.2.2.2, c1]
  have e3 : stopCount b₂.ctrl b₂.ctrl.start = 0 := by
    simp [stopCount, hsame.events, MotionCtrl.pushEvent]
  have w1 := withCtrl_homer b b.ctrl.flushMotionBuffer
  have w2 := withCtrl_homer b₁ (b₁.ctrl.append (t.request m))
  have w3 := withCtrl_homer b₂ b₂.ctrl.start
  rw [h1] at w1
  rw [h2] at w2
  refine ⟨?_, ?_, ?_, by omega, ?_, ?_, ?_, ?_, ?_⟩
  · rw [withCtrl_ctrl, hsame.state]
  · rw [withCtrl_ctrl, hsame.level]; exact l2.1
  · rw [withCtrl_ctrl, hsame.requests]; exact l2.2.1
  · rw [w3.1, w2.1, w1.1]
  · rw [w3.2.1, w2.2.1, w1.2.1]
  · rw [w3.2.2, w2.2.2, w1.2.2]
  · intro hf
    refine withCtrl_fifo ?_
    rw [← h2]
    refine withCtrl_fifo ?_
    rw [← h1]
    exact withCtrl_fifo hf
  · rw [withCtrl_ctrl, c2, ← h1, withCtrl_ctrl]

/-- `handle`, if no event is pending and if one is. -/
theorem handle_eq (b : Board K) (h : Fifo b) :
    (pending b.calls = [] ∧ b.handle t = b.onQueue .hasEvents) ∨
    ∃ e q b₂, pending b.calls = e :: q ∧ b₂ = (b.onQueue .hasEvents).onQueue .pop ∧ pending b₂.calls = q ∧
      b.handle t = b₂.withHomer t (Homer.handleEvents t.cfg b₂.env b₂.homer e) := by
  have hq := h.queue
  have hst := stored_after b.calls
  have hlev : b.queue.level = (pending b.calls).length := by rw [hq]; exact level_after _
  by_cases hp : pending b.calls = []
  · have hh : b.queue.hasEvents = false := by simp [hasEvents, hlev, hp]
    exact .inl ⟨hp, by simp [handle, hh]⟩
  · obtain ⟨e, q, hq'⟩ : ∃ e q, pending b.calls = e :: q := by
      cases hpp : pending b.calls with
      | nil => exact absurd hpp hp
      | cons e q => exact ⟨e, q, rfl⟩
    have hpos : 0 < b.queue.level := by rw [hlev, hq']; simp
    have hh : b.queue.hasEvents = true := by simp [hasEvents, hpos]
    have hpop : (b.onQueue .hasEvents).queue.popEvent.2 = e := by
      have hwf := wf_after b.calls
      rw [← hq] at hwf hst
      obtain ⟨l, hl⟩ : ∃ l, b.queue.level = l + 1 := ⟨b.queue.level - 1, by omega⟩
      have h1 : (b.onQueue .hasEvents).queue = b.queue := rfl
      rw [h1, popEvent, if_pos hpos]
      have h2 : b.queue.stored = e :: q := hst.trans hq'
      simp only [stored, hl, Ring.contents_succ hwf.head_lt, List.cons.injEq] at h2
      exact h2.1
    refine .inr ⟨e, q, _, hq', rfl, ?_, by simp only [handle, hh, if_true, hpop]⟩
    simp only [onQueue, pending_snoc, hq']
    rfl

/-- Handling an event: if a move is ordered, the controller stood still. -/
theorem handle_phase {b : Board K} (hp : Phase b) (hf : Fifo b)
    (hstop : .stop ∈ (b.handle t).acts.drop b.acts.length → b.ctrl.buffer.level ≠ 0) :
    Phase (b.handle t) ∧ (b.handle t).myInputs = b.myInputs ∧ b.acts <+: (b.handle t).acts ∧
      (∀ m, .append m ∈ (b.handle t).acts.drop b.acts.length →
        b.ctrl.state = .stopped ∧ (b.handle t).ctrl.state = .running ∧ (b.handle t).ctrl.requests = [some (t.request m)] ∧
        m.position = b.ctrl.machinePosition ∧
        (b.handle t).ctrl = (b.ctrl.flushMotionBuffer.append (t.request m)).start) ∧
      ((∀ m, .append m ∉ (b.handle t).acts.drop b.acts.length) → .stop ∉ (b.handle t).acts.drop b.acts.length →
        (b.handle t).ctrl = b.ctrl) ∧ (Held t b → Held t (b.handle t)) := by
  rcases handle_eq t b hf with ⟨h1, h2⟩ | ⟨e, q, b₂, h1, h2, h3, h4⟩
  · rw [h2]
    refine ⟨hp.congr rfl rfl ?_, rfl, List.prefix_refl _, ?_, fun _ _ => rfl, fun h => h⟩
    · simp [stops, onQueue, pending_snoc, next]
    · intro m hm; simp [onQueue] at hm
  · have hc : b₂.ctrl = b.ctrl := by rw [h2]; rfl
    have hh : b₂.homer = b.homer := by rw [h2]; rfl
    have ha : b₂.acts = b.acts := by rw [h2]; rfl
    have hm : b₂.myInputs = b.myInputs := by rw [h2]; rfl
    have he : b₂.env.position = b.ctrl.machinePosition := by rw [h2]; rfl
    have hst : b.stops = b₂.stops + (if e = .motionStopped then 1 else 0) := by
      unfold stops
      rw [h1, h3, List.count_cons]
      congr 1
      by_cases h : e = .motionStopped <;> simp [h]
    have hns : b₂.homer.state ≠ .stopping := by
      intro hs
      unfold Phase at hp
      rw [hh] at hs
      rw [hs] at hp
      exact hp
    have hacts : (Homer.handleEvents t.cfg b₂.env b₂.homer e).2 = .handled e :: (Homer.react t.cfg b₂.env b₂.homer e).2 := rfl
    have hhom : (Homer.handleEvents t.cfg b₂.env b₂.homer e).1 = (Homer.react t.cfg b₂.env b₂.homer e).1 := rfl
    have hw : b.handle t = (Homer.react t.cfg b₂.env b₂.homer e).2.foldl (exec t)
        { b₂ with homer := (Homer.react t.cfg b₂.env b₂.homer e).1,
                  acts := b.acts ++ .handled e :: (Homer.react t.cfg b₂.env b₂.homer e).2 } := by
      rw [h4, withHomer, hacts, hhom, List.foldl_cons, ha]
      rfl
    generalize hr : Homer.react t.cfg b₂.env b₂.homer e = r at *
    have hcases := react_cases t.cfg b₂.env b₂.homer e hns
    rw [hr] at hcases
    rw [hh] at hcases
    rcases hcases with hc1 | ⟨hc1, hc2⟩ | ⟨hc1, hc2, hc3, pre, m, hc4, hc5, hc6⟩ | ⟨hc1, hc2, hc3, hc4⟩
    · -- nothing
      rw [hc1] at hw
      simp only [List.foldl_nil] at hw
      rw [hw]
      refine ⟨hp.congr rfl hc ?_, hm, List.prefix_append _ _, ?_, fun _ _ => hc, ?_⟩
      · show b₂.stops ≤ _
        omega
      · intro m hm; simp at hm
      · intro hd
        unfold Held at *
        show b₂.ctrl.requests = [] ∨ b₂.ctrl.requests = _
        rw [hc]
        simpa [ordered] using hd
    · -- stop
      rw [hc1] at hw
      simp only [List.foldl_cons, List.foldl_nil, exec] at hw
      obtain ⟨w1, w2, w3⟩ := withCtrl_homer { b₂ with homer := r.1, acts := b.acts ++ [.handled e, .stop] } b₂.ctrl.stop
      have wc := withCtrl_ctrl { b₂ with homer := r.1, acts := b.acts ++ [.handled e, .stop] } b₂.ctrl.stop
      have ws := stops_withCtrl { b₂ with homer := r.1, acts := b.acts ++ [.handled e, .stop] } b₂.ctrl.stop
      rw [← hw] at w1 w2 w3 wc ws
      have hdrop : (b.handle t).acts.drop b.acts.length = [.handled e, .stop] := by rw [w2]; simp
      rw [hdrop] at hstop
      have hlev := hstop (by simp)
      have hex : b.Executing := by
        unfold Phase at hp
        rcases hc2 with ⟨h, -⟩ | ⟨h, -⟩ <;> rw [h] at hp <;> exact hp
      rcases hex with ⟨x1, x2, x3⟩ | ⟨-, x2, -⟩
      · have hsame := sameButProf_optimize { b₂.ctrl.pushEvent .stopRequested with state := .stopping }
        have hstopc : b₂.ctrl.stop = optimize { b₂.ctrl.pushEvent .stopRequested with state := .stopping } := rfl
        rw [← hstopc] at hsame
        have hz : stopCount b₂.ctrl b₂.ctrl.stop = 0 := by simp [stopCount, hsame.events, MotionCtrl.pushEvent]
        have hH : (b.handle t).Halting := by
          refine .inl ⟨by rw [wc, hsame.state], by rw [wc, hsame.level]; show b₂.ctrl.buffer.level = 1; rw [hc]; exact x2, ?_⟩
          have : b₂.stops ≤ b.stops := by omega
          have ws' : (b.handle t).stops ≤ b₂.stops + stopCount b₂.ctrl b₂.ctrl.stop := ws
          omega
        refine ⟨?_, w3.trans hm, ⟨_, w2.symm⟩, ?_, ?_, ?_⟩
        · unfold Phase
          rw [w1]
          rcases hc2 with ⟨-, h⟩ | ⟨-, h⟩ <;> simp only [h] <;> exact hH
        · intro m hm; rw [hdrop] at hm; simp at hm
        · intro _ hn; rw [hdrop] at hn; simp at hn
        · intro hd
          unfold Held at *
          have hreq : (b.handle t).ctrl.requests = b.ctrl.requests := by
            rw [wc, hsame.requests, ← hc]
            rfl
          rw [hreq, w2]
          simpa [ordered] using hd
      · exact absurd x2 hlev
    · -- a move
      have hpos : 0 < b.stops := by rw [hst, if_pos hc1]; omega
      have hstopped : b.ctrl.state = .stopped ∧ b.stops ≤ 1 := by
        unfold Phase at hp
        rcases hc2 with h | h | h <;> rw [h] at hp <;> simp only at hp
        · rcases hp with ⟨-, -, x⟩ | ⟨x, -, y⟩
          · omega
          · exact ⟨x, y⟩
        · rcases hp with ⟨-, -, x⟩ | ⟨x, -, y⟩
          · omega
          · exact ⟨x, y⟩
        · rcases hp with ⟨-, -, x⟩ | ⟨x, -, y⟩
          · omega
          · exact ⟨x, y⟩
      rw [if_pos hc1] at hst
      rw [hc6] at hw
      have hpre : ∀ b' : Board K, (pre ++ [HomingAct.flush, .append m, .go]).foldl (exec t) b' =
          [HomingAct.flush, .append m, .go].foldl (exec t) b' := by
        intro b'
        rcases hc4 with rfl | ⟨i, c, rfl⟩
        · rfl
        · rfl
      rw [hpre] at hw
      obtain ⟨o1, o2, o3, o4, o5, o6, o7, -, o8⟩ := order_phase t
        (b := { b₂ with homer := r.1, acts := b.acts ++ .handled e :: (pre ++ [.flush, .append m, .go]) })
        (by show b₂.ctrl.state = _; rw [hc]; exact hstopped.1) m
      rw [← hw] at o1 o2 o3 o4 o5 o6 o7 o8
      have o4' : (b.handle t).stops ≤ b₂.stops := o4
      have hE : (b.handle t).Executing := .inl ⟨o1, o2, by omega⟩
      have hdrop : (b.handle t).acts.drop b.acts.length = .handled e :: (pre ++ [.flush, .append m, .go]) := by rw [o6]; simp
      refine ⟨?_, o7.trans hm, ⟨_, o6.symm⟩, ?_, ?_, ?_⟩
      · unfold Phase
        rw [o5]
        rcases hc3 with h | h | h <;> simp only [h] <;> exact hE
      · intro m' hm'
        rw [hdrop] at hm'
        have : m' = m := by rcases hc4 with rfl | ⟨i, c, rfl⟩ <;> simpa using hm'
        subst this
        refine ⟨hstopped.1, o1, o3, hc5.trans he, ?_⟩
        rw [o8]
        show (b₂.ctrl.flushMotionBuffer.append (t.request m')).start = _
        rw [hc]
      · intro hn
        refine absurd ?_ (hn m)
        rw [hdrop]
        simp
      · intro _
        refine .inr ?_
        rw [o3, o6]
        rcases hc4 with rfl | ⟨i, c, rfl⟩ <;> simp [ordered]
    · -- found
      have hpos : 0 < b.stops := by rw [hst, if_pos hc1]; omega
      have hstopped : b.ctrl.state = .stopped := by
        unfold Phase at hp
        rw [hc2] at hp
        rcases hp with ⟨-, -, x⟩ | ⟨x, -, y⟩
        · omega
        · exact x
      rw [hc4] at hw
      simp only [List.foldl_cons, List.foldl_nil, exec] at hw
      have hpp := pushed_push { b₂ with homer := r.1, acts := b.acts ++ [.handled e, .push .homingCompleted] } .homingCompleted
      rw [← hw] at hpp
      have hcc : (b.handle t).ctrl = b.ctrl := by rw [hw]; exact hc
      refine ⟨?_, hpp.myInputs.trans hm, ⟨_, hpp.acts.symm⟩, ?_, fun _ _ => hcc, ?_⟩
      · unfold Phase
        rw [hpp.homer]
        simp only [hc3]
        rw [hcc]
        exact hstopped
      · intro m hm; rw [hpp.acts] at hm; simp at hm
      · intro hd
        unfold Held at *
        rw [hcc, hpp.acts]
        simpa [ordered] using hd

/-! ### The whole program -/

/-- Invariant. -/
structure HomingInv (b : Board K) : Prop where
  phase : Phase b
  fifo : Fifo b
  inputs : InputsOk b
  held : Held t b

theorem loop_phase {b : Board K} (h : HomingInv t b) {r : Round} (ho : OrderlyRound t b r) {b' : Board K} (hl : b.loop t r = some b') :
    HomingInv t b' ∧ b.acts <+: b'.acts ∧ ∃ b₁, b.fill r.calcs = some b₁ ∧
      (∀ m, .append m ∈ b'.acts.drop b.acts.length → b₁.ctrl.state = .stopped ∧ b'.ctrl.state = .running ∧
        b'.ctrl.requests = [some (t.request m)] ∧ m.position = b₁.ctrl.machinePosition ∧
        b'.ctrl = (b₁.ctrl.flushMotionBuffer.append (t.request m)).start) ∧
      ((∀ m, .append m ∉ b'.acts.drop b.acts.length) → .stop ∉ b'.acts.drop b.acts.length → b'.ctrl = b₁.ctrl) := by
  have hl' := hl
  unfold loop at hl
  split at hl
  · cases hl
  · rename_i b₁ hb₁
    obtain ⟨f1, f2, f0, f3, f4, f5⟩ := fill_phase t r.calcs h.phase h.fifo h.held ho.regular hb₁
    have fi : InputsOk b₁ := fun i => by rw [f5]; exact h.inputs i
    obtain ⟨b₂, hb₂, s1, s2, s3, s4, s5, s6⟩ : ∃ b₂, (if r.expired then b₁.sample r.ports else b₁) = b₂ ∧ Phase b₂ ∧ Fifo b₂ ∧
        InputsOk b₂ ∧ b₂.homer = b₁.homer ∧ b₂.acts = b₁.acts ∧ b₂.ctrl = b₁.ctrl := by
      split
      · exact ⟨_, rfl, sample_phase f1 f2 fi r.ports⟩
      · exact ⟨_, rfl, f1, f2, fi, rfl, rfl, rfl⟩
    rw [hb₂] at hl
    simp only [Option.some.injEq] at hl
    have hacts : b₂.acts = b.acts := s5.trans f4
    have hstop := ho.stop b₁ b' hb₁ hl'
    obtain ⟨g1, g2, g3, g4, g5, g6⟩ := handle_phase t s1 s2 (by rw [hl, hacts, s6]; exact hstop)
    obtain ⟨-, -, -, -, -, hfifo, -⟩ := handle_spec t b₂ s2
    have hheld := g6 (by unfold Held at *; rw [s5, s6]; exact f0)
    rw [hl] at g1 g2 g3 g4 g5 hfifo hheld
    rw [hacts] at g3 g4 g5
    rw [s6] at g4 g5
    exact ⟨⟨g1, hfifo, fun i => by rw [g2]; exact s3 i, hheld⟩, g3, b₁, hb₁, g4, g5⟩

theorem loops_phase (rs : List Round) : ∀ {b b' : Board K}, HomingInv t b → Orderly t b rs → b.loops t rs = some b' → HomingInv t b' := by
  induction rs with
  | nil =>
    intro b b' h _ hl
    simp only [loops, Option.some.injEq] at hl
    subst hl
    exact h
  | cons r rs ih =>
    intro b b' h ho hl
    unfold loops at hl
    split at hl
    · cases hl
    · rename_i b₁ hb₁
      exact ih (loop_phase t h ho.1 hb₁).1 (ho.2 b₁ hb₁) hl

theorem myInputs₀_ok (i : Nat) : (myInputs₀ i).onClose ≠ .motionStopped ∧ (myInputs₀ i).onOpen ≠ .motionStopped := by
  unfold myInputs₀
  split <;> exact ⟨by simp [DebouncedInput.mk'], by simp [DebouncedInput.mk']⟩

/-- What the homing controller does when it is started at standstill. -/
theorem start_cases (cfg : HomingConfig) (env : HomingEnv) (h : Homer) (hr : env.running = false) :
    ((Homer.start cfg env h).1.state = h.state ∧ (Homer.start cfg env h).2 = [.started, .push .homingError]) ∨
    (((Homer.start cfg env h).1.state = .closing ∨ (Homer.start cfg env h).1.state = .opening) ∧
      ∃ i c m, m.position = env.position ∧
        (Homer.start cfg env h).2 = [.started, .push .homingStarted, .sawRunning false, .sawClosed i c, .flush, .append m, .go]) := by
  unfold Homer.start
  simp only [hr, Bool.false_eq_true, if_false]
  split
  · refine .inr ?_
    unfold Homer.approach
    simp only
    cases env.closed (Homer.selectAxis cfg { h with homingSequenceIndex := 0 }).1.theLimitSwitch
    · exact ⟨.inl rfl, _, _, _, rfl, rfl⟩
    · exact ⟨.inr rfl, _, _, _, rfl, rfl⟩
  · rename_i hs
    exact .inl ⟨(Homer.selectAxis_spec (cfg := cfg) { h with homingSequenceIndex := 0 }).1, rfl⟩

/-- The board in `setup`, just before homing is started. -/
def beforeHoming (p : Ports) : Board K :=
  let b : Board K := (fresh t).onQueue .reinit
  let b := { b with inputs := b.inputs.sample p }
  let b := { b with myInputs := fun i => if i < nmbrInputs then (b.myInputs i).doInitialize (b.inputs.get i) else b.myInputs i }
  let b := b.withCtrl (b.ctrl.configure t.maxTicks t.width)
  b.withCtrl b.ctrl.resetMachinePosition

theorem setup_eq (p : Ports) : setup t p = (beforeHoming t p).withHomer t (Homer.start t.cfg (beforeHoming t p).env (beforeHoming t p).homer) := rfl

theorem beforeHoming_spec (p : Ports) : (beforeHoming t p).ctrl = ((MotionCtrl.fresh K).configure t.maxTicks t.width).resetMachinePosition ∧
    (beforeHoming t p).calls = [.reinit] ∧ Fifo (beforeHoming t p) ∧ InputsOk (beforeHoming t p) ∧
    (beforeHoming t p).homer = .fresh t.cfg ∧ (beforeHoming t p).acts = [] := by
  refine ⟨rfl, rfl, ⟨rfl, rfl⟩, ?_, rfl, rfl⟩
  intro i
  have h := myInputs₀_ok i
  have : (beforeHoming t p).myInputs i = if i < nmbrInputs then (myInputs₀ i).doInitialize (((fresh t : Board K).inputs.sample p).get i)
      else myInputs₀ i := rfl
  rw [this]
  split
  · cases ((fresh t : Board K).inputs.sample p).get i <;> exact h
  · exact h

theorem setup_phase (p : Ports) : HomingInv t (setup t p) ∧ ∀ m, .append m ∈ (setup t p).acts →
    (setup t p).ctrl.state = .running ∧ (setup t p).ctrl.requests = [some (t.request m)] ∧ m.position = (fun _ => 0) ∧
    (setup t p).ctrl = ((beforeHoming t p).ctrl.flushMotionBuffer.append (t.request m)).start := by
  obtain ⟨c1, c2, c3, c4, c5, c6⟩ := beforeHoming_spec t p
  rw [setup_eq]
  generalize beforeHoming t p = b at *
  have hs : b.ctrl.state = .stopped := by rw [c1]; rfl
  have hr : b.env.running = false := by simp [env, isRunning, hs]
  have hpos : b.env.position = fun _ => 0 := by
    have : b.env.position = b.ctrl.machinePosition := rfl
    rw [this, c1]
    funext a
    simp only [resetMachinePosition]
    split <;> rfl
  have hst : b.stops = 0 := by simp [stops, c2, pending, next]
  have hcases := start_cases t.cfg b.env b.homer hr
  generalize Homer.start t.cfg b.env b.homer = r at hcases
  unfold withHomer
  rcases hcases with ⟨h1, h2⟩ | ⟨h1, i, c, m, h2, h3⟩
  · rw [h2]
    have hpp := pushed_push { b with homer := r.1, acts := b.acts ++ [.started, .push .homingError] } .homingError
    refine ⟨⟨?_, hpp.fifo ⟨c3.queue, ?_⟩, ?_, .inl ?_⟩, ?_⟩
    · have hl : ([HomingAct.started, .push .homingError].foldl (exec t)
          { b with homer := r.1, acts := b.acts ++ [.started, .push .homingError] }).homer.state = .lost := by
        show r.1.state = _
        rw [h1, c5]; rfl
      unfold Phase
      rw [hl]
      exact hs
    · have := c3.fifo
      rw [c6] at this ⊢
      exact this
    · exact c4
    · show b.ctrl.requests = []
      rw [c1]; rfl
    · intro m hm
      have hm : HomingAct.append m ∈ b.acts ++ [.started, .push .homingError] := hm
      rw [c6] at hm
      simp at hm
  · rw [h3]
    have hsplit : ∀ b' : Board K, [HomingAct.started, .push .homingStarted, .sawRunning false, .sawClosed i c, .flush, .append m, .go].foldl (exec t) b' =
        [HomingAct.flush, .append m, .go].foldl (exec t) (b'.push .homingStarted) := fun _ => rfl
    rw [hsplit]
    generalize hb₁ : ({ b with homer := r.1, acts := b.acts ++ [.started, .push .homingStarted, .sawRunning false, .sawClosed i c, .flush, .append m, .go] } : Board K) = b₁
    have hpp := pushed_push b₁ .homingStarted
    have hcc : (b₁.push .homingStarted).ctrl = b.ctrl := by rw [← hb₁]; rfl
    have hss : (b₁.push .homingStarted).stops ≤ 0 := by
      have := count_pending_pushes b₁.calls [.homingStarted]
      have hc : b₁.calls = b.calls := by rw [← hb₁]
      unfold stops at hst ⊢
      rw [hpp.calls]
      refine this.trans ?_
      rw [hc, hst]
      simp
    obtain ⟨o1, o2, o3, o4, o5, o6, o7, o8, o9⟩ := order_phase t (b := b₁.push .homingStarted) (by rw [hcc]; exact hs) m
    generalize [HomingAct.flush, .append m, .go].foldl (exec t) (b₁.push .homingStarted) = b₂ at *
    have hE : b₂.Executing := .inl ⟨o1, o2, by omega⟩
    have hhom : b₂.homer = r.1 := by rw [o5, hpp.homer, ← hb₁]
    have hact : b₂.acts = [.started, .push .homingStarted, .sawRunning false, .sawClosed i c, .flush, .append m, .go] := by
      rw [o6, hpp.acts, ← hb₁, c6]; rfl
    refine ⟨⟨?_, o8 (hpp.fifo ⟨?_, ?_⟩), ?_, .inr ?_⟩, ?_⟩
    · unfold Phase
      rw [hhom]
      rcases h1 with h | h <;> simp only [h] <;> exact hE
    · rw [← hb₁]; exact c3.queue
    · have := c3.fifo
      rw [← hb₁]
      rw [c6] at this ⊢
      exact this
    · intro j
      rw [o7, hpp.myInputs, ← hb₁]
      exact c4 j
    · rw [o3, hact]; rfl
    · intro m' hm'
      rw [hact] at hm'
      have : m' = m := by simpa using hm'
      subst this
      exact ⟨o1, o3, h2.trans hpos, by rw [o9, hcc]⟩

end Board
end Moovr
