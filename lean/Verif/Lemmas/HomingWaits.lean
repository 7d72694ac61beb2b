import Verif.Lemmas.HomingMotion
/-! Helper lemmas: what homing waits for. -/
namespace Moovr

namespace MotionCtrl
variable {K : MotionKit}

/-- Standstill is reported when it is reached. -/
def Tells (c c' : MotionCtrl K) : Prop :=
  ∃ es, c'.events = c.events ++ es ∧ (c'.state = .stopped → c.state = .stopped ∨ .motionStopped ∈ es)

theorem Tells.refl {c c' : MotionCtrl K} (h : c'.events = c.events) (hs : c'.state = c.state) : Tells c c' :=
  ⟨[], by simp [h], fun h => .inl (by rw [← hs]; exact h)⟩

theorem Tells.trans {a b c : MotionCtrl K} (h : Tells a b) (h' : Tells b c) : Tells a c := by
  obtain ⟨es, e1, e2⟩ := h
  obtain ⟨fs, f1, f2⟩ := h'
  refine ⟨es ++ fs, by rw [f1, e1, List.append_assoc], fun hs => ?_⟩
  rcases f2 hs with h | h
  · rcases e2 h with h | h
    · exact .inl h
    · exact .inr (by simp [h])
  · exact .inr (by simp [h])

theorem tells_settle (fuel : Nat) (c : MotionCtrl K) (r) (h : settle fuel c = some r) : Tells c r.1 := by
  induction fuel generalizing c with
  | zero => simp [settle] at h
  | succ fuel ih =>
    unfold settle at h
    split at h
    · split at h
      · exact Tells.trans (b := c.nextMotion) ⟨[.motionCompleted], rfl, fun h => .inl h⟩ (ih c.nextMotion h)
      · simp only [Option.some.injEq] at h
        subst h
        exact ⟨[.motionStopped, .motionCompleted, .allMotionsCompleted], by simp [lastMotion, pushEvent], fun _ => .inr (by simp)⟩
    · simp only [Option.some.injEq] at h
      subst h
      exact .refl rfl rfl

theorem tells_sample (c : MotionCtrl K) : Tells c c.sampleAndCheckStop := by
  unfold sampleAndCheckStop
  simp only
  split
  · exact ⟨[.motionStopped], rfl, fun _ => .inr (by simp)⟩
  · exact .refl rfl rfl

theorem tells_tick (c : MotionCtrl K) (r) (h : c.tick = some r) : Tells c r.1 := by
  unfold tick at h
  simp only at h
  split at h
  · simp only [Option.map_eq_some_iff] at h
    obtain ⟨x, hx, rfl⟩ := h
    have h1 : Tells c { c with signals := c.signals.next } := .refl rfl rfl
    exact (h1.trans (tells_sample _)).trans (tells_settle _ _ _ hx)
  · simp only [Option.some.injEq] at h
    subst h
    exact .refl rfl rfl

theorem tells_calcLoop (fuel : Nat) (c : MotionCtrl K) (r) (h : calcLoop fuel c = some r) : Tells c r.1 := by
  induction fuel generalizing c r with
  | zero => simp [calcLoop] at h
  | succ fuel ih =>
    unfold calcLoop at h
    split at h
    · cases h
    · rename_i c' t ht
      have h1 := tells_tick c _ ht
      split at h
      · simp only [Option.some.injEq] at h
        subst h
        exact h1.trans (.refl rfl rfl)
      · simp only [Option.map_eq_some_iff] at h
        obtain ⟨x, hx, rfl⟩ := h
        exact h1.trans (ih c' x hx)

end MotionCtrl

namespace Board
open EventQueueSpec EventBuffer LoopSpec MotionCtrl
variable {K : MotionKit} (t : Target K)

theorem noOverflow_prefix {a b : List Call} (h : NoOverflow b) (hp : a <+: b) : NoOverflow a := by
  obtain ⟨c, rfl⟩ := hp
  intro before e after he
  exact h before e (after ++ c) (by rw [he]; simp)

/-- Without overflow everything offered becomes pending. -/
theorem pending_pushes (es : List Event) : ∀ (calls : List Call), NoOverflow (calls ++ es.map .push) → (∀ e ∈ es, e ≠ .none) →
    pending (calls ++ es.map .push) = pending calls ++ es := by
  induction es with
  | nil => intro calls _ _; simp
  | cons e es ih =>
    intro calls ho hn
    rw [List.map_cons, ← List.singleton_append, ← List.append_assoc] at ho ⊢
    rw [ih _ ho (fun e he => hn e (by simp [he])), pending_snoc]
    have h1 := noOverflow_prefix ho (List.prefix_append _ _) calls e [] (by simp)
    rw [next, if_pos ⟨hn e (by simp), h1⟩]
    simp

/-- Homing waits for standstill. -/
def WaitsStop (b : Board K) : Prop :=
  b.homer.state = .closedWaitForStop ∨ b.homer.state = .openedWaitForStop ∨ b.homer.state = .offsettingWaitForStop

/-- If homing waits for standstill and the machine does stand still, the report is under way. -/
def Awaits (b : Board K) : Prop := b.WaitsStop → b.ctrl.state = .stopped → 1 ≤ b.stops

theorem pushed_stops {b b' : Board K} {es : List Event} (h : Pushed b b' es) (hn : ∀ e ∈ es, e ≠ .none) (ho : NoOverflow b'.calls) :
    b'.stops = b.stops + es.count .motionStopped := by
  unfold stops
  rw [h.calls] at ho ⊢
  rw [pending_pushes _ _ ho hn, List.count_append]

theorem calc_awaits {b : Board K} (h : Awaits b) {r} (hr : b.ctrl.calcNext = some r) (ho : NoOverflow (b.withCtrl r.1).calls) :
    Awaits (b.withCtrl r.1) := by
  obtain ⟨es, hp, he⟩ := pushed_withCtrl (reported_calcNext _ _ hr)
  obtain ⟨fs, e1, e2⟩ := tells_calcLoop _ _ _ hr
  have hn : ∀ e ∈ es, e ≠ .none := fun e hm => (other_of_motion (he e hm)).2.1
  have hcalls := (pushed_foldl (r.1.events.drop b.ctrl.events.length) { b with ctrl := r.1 }).calls
  have hes : es = fs := by
    have h1 := hp.calls
    unfold withCtrl at h1
    rw [hcalls] at h1
    have h2 := List.append_cancel_left h1
    rw [e1, List.drop_left] at h2
    have := congrArg offered h2
    rw [offered_push, offered_push] at this
    exact this.symm
  subst hes
  intro hw hs
  rw [withCtrl_ctrl] at hs
  rw [pushed_stops hp hn ho]
  rcases e2 hs with h' | h'
  · have := h (by unfold WaitsStop at *; rw [hp.homer] at hw; exact hw) h'
    omega
  · have := List.count_pos_iff.2 h'
    omega

theorem fill_calls (k : Nat) : ∀ {b b' : Board K}, b.fill k = some b' → b.calls <+: b'.calls := by
  intro b b' h
  obtain ⟨es, hp, -⟩ := pushed_fill k b b' h
  exact ⟨_, hp.calls.symm⟩

theorem fill_awaits (k : Nat) : ∀ {b b' : Board K}, Awaits b → b.fill k = some b' → NoOverflow b'.calls → Awaits b' := by
  induction k with
  | zero =>
    intro b b' h hf _
    simp only [fill, Option.some.injEq] at hf
    subst hf
    exact h
  | succ k ih =>
    intro b b' h hf ho
    unfold fill at hf
    split at hf
    · cases hf
    · rename_i r hr
      exact ih (calc_awaits h hr (noOverflow_prefix ho (fill_calls k hf))) hf ho

/-- More reports, the rest as before. -/
theorem Awaits.congr {b b' : Board K} (h : Awaits b) (h1 : b'.homer.state = b.homer.state) (h2 : b'.ctrl = b.ctrl)
    (h3 : b.stops ≤ b'.stops) : Awaits b' := by
  intro hw hs
  rw [h2] at hs
  have := h (by unfold WaitsStop at *; rw [h1] at hw; exact hw) hs
  omega

theorem sampleInput_stops (b : Board K) (i : Nat) : (b.sampleInput i).homer = b.homer ∧ (b.sampleInput i).ctrl = b.ctrl ∧
    b.stops ≤ (b.sampleInput i).stops := by
  unfold sampleInput
  simp only
  split
  · refine ⟨rfl, rfl, ?_⟩
    simp only [stops, push, onQueue, pending_snoc, next]
    split
    · rw [List.count_append]; omega
    · exact le_refl _
  · exact ⟨rfl, rfl, le_refl _⟩

theorem sample_awaits {b : Board K} (h : Awaits b) (p : Ports) : Awaits (b.sample p) := by
  unfold sample
  have : ∀ (l : List Nat) (b : Board K), Awaits b → Awaits (l.foldl sampleInput b) := by
    intro l
    induction l with
    | nil => intro b h; exact h
    | cons i l ih =>
      intro b h
      obtain ⟨h1, h2, h3⟩ := sampleInput_stops b i
      exact ih _ (h.congr (by rw [h1]) h2 h3)
  exact this _ _ (h.congr rfl rfl (le_refl _))

theorem react_waiting (cfg : HomingConfig) (env : HomingEnv) (h : Homer)
    (hw : h.state = .closedWaitForStop ∨ h.state = .openedWaitForStop ∨ h.state = .offsettingWaitForStop) :
    (Homer.react cfg env h .motionStopped).2 ≠ [] := by
  unfold Homer.react
  rcases hw with hw | hw | hw <;> simp only [hw, if_true]
  · simp [Homer.goTo, Homer.enterState]
  · simp [Homer.goTo, Homer.enterState]
  · split
    · simp [Homer.approach]
    · simp [Homer.goTo, Homer.enterState]

theorem handle_awaits {b : Board K} (h : Awaits b) (hp : Phase b) (hf : Fifo b)
    (hstop : .stop ∈ (b.handle t).acts.drop b.acts.length → b.ctrl.buffer.level ≠ 0) : Awaits (b.handle t) := by
  obtain ⟨-, -, -, hmove, -, -⟩ := handle_phase t hp hf hstop
  rcases handle_eq t b hf with ⟨h1, h2⟩ | ⟨e, q, b₂, h1, h2, h3, h4⟩
  · rw [h2]
    exact h.congr rfl rfl (by simp [stops, onQueue, pending_snoc, next])
  · have hc : b₂.ctrl = b.ctrl := by rw [h2]; rfl
    have hh : b₂.homer = b.homer := by rw [h2]; rfl
    have ha : b₂.acts = b.acts := by rw [h2]; rfl
    have hns : b₂.homer.state ≠ .stopping := by
      intro hs
      unfold Phase at hp
      rw [hh] at hs
      rw [hs] at hp
      exact hp
    have hw : b.handle t = (Homer.react t.cfg b₂.env b₂.homer e).2.foldl (exec t)
        { b₂ with homer := (Homer.react t.cfg b₂.env b₂.homer e).1,
                  acts := b.acts ++ .handled e :: (Homer.react t.cfg b₂.env b₂.homer e).2 } := by
      rw [h4, withHomer, ← ha]
      rfl
    have hcases := react_cases t.cfg b₂.env b₂.homer e hns
    rcases hcases with hc1 | ⟨hc1, -⟩ | ⟨-, -, -, pre, m, hc4, -, hc6⟩ | ⟨-, -, hc3, hc4⟩
    · -- nothing
      rw [hc1] at hw
      simp only [List.foldl_nil] at hw
      intro hws hs
      rw [hw] at hws hs ⊢
      have hws' : b.WaitsStop := by unfold WaitsStop at *; rw [← hh]; exact hws
      have hst := h hws' (by rw [← hc]; exact hs)
      show 1 ≤ b₂.stops
      have hne : e ≠ .motionStopped := by
        rintro rfl
        refine react_waiting t.cfg b₂.env b₂.homer (by rw [hh]; exact hws') ?_
        rw [hc1]
      unfold stops at hst ⊢
      rw [h1, List.count_cons_of_ne hne] at hst
      rw [h3]
      exact hst
    · -- stop
      rw [hc1] at hw
      simp only [List.foldl_cons, List.foldl_nil, exec] at hw
      intro _ hs
      have wc := withCtrl_ctrl { b₂ with homer := (Homer.react t.cfg b₂.env b₂.homer e).1, acts := b.acts ++ [.handled e, .stop] } b₂.ctrl.stop
      rw [← hw] at wc
      have hsame := sameButProf_optimize { b₂.ctrl.pushEvent .stopRequested with state := .stopping }
      rw [wc] at hs
      have : b₂.ctrl.stop.state = .stopping := hsame.state
      rw [this] at hs
      cases hs
    · -- a move
      intro _ hs
      have hm : HomingAct.append m ∈ (b.handle t).acts.drop b.acts.length := by
        have hacts : (b.handle t).acts = b.acts ++ .handled e :: (Homer.react t.cfg b₂.env b₂.homer e).2 := by
          obtain ⟨es, hpp, -⟩ := pushed_execs t (Homer.react t.cfg b₂.env b₂.homer e).2
            { b₂ with homer := (Homer.react t.cfg b₂.env b₂.homer e).1,
                      acts := b.acts ++ .handled e :: (Homer.react t.cfg b₂.env b₂.homer e).2 } (okAct_react _ _ _ _)
          rw [hw, hpp.acts]
        rw [hacts, List.drop_left, hc6]
        simp
      have := (hmove m hm).2.1
      rw [this] at hs
      cases hs
    · -- found
      intro hws _
      exfalso
      have : (b.handle t).homer.state = .found := by
        obtain ⟨es, hpp, -⟩ := pushed_execs t (Homer.react t.cfg b₂.env b₂.homer e).2
            { b₂ with homer := (Homer.react t.cfg b₂.env b₂.homer e).1,
                      acts := b.acts ++ .handled e :: (Homer.react t.cfg b₂.env b₂.homer e).2 } (okAct_react _ _ _ _)
        rw [hw, hpp.homer]
        exact hc3
      unfold WaitsStop at hws
      simp [this] at hws

theorem loop_calls {b b' : Board K} {r : Round} (hf : Fifo b) (hl : b.loop t r = some b') (b₁ : Board K) (hb₁ : b.fill r.calcs = some b₁) :
    b₁.calls <+: b'.calls := by
  unfold loop at hl
  rw [hb₁] at hl
  simp only [Option.some.injEq] at hl
  subst hl
  have hsub : b₁.calls <+: (if r.expired then b₁.sample r.ports else b₁).calls := by
    split
    · unfold sample
      have : ∀ (l : List Nat) (b : Board K), b.calls <+: (l.foldl sampleInput b).calls := by
        intro l
        induction l with
        | nil => intro b; exact List.prefix_refl _
        | cons i l ih =>
          intro b
          refine List.IsPrefix.trans ?_ (ih _)
          unfold sampleInput
          simp only
          split
          · exact List.prefix_append _ _
          · exact List.prefix_refl _
      exact this _ { b₁ with inputs := b₁.inputs.sample r.ports }
    · exact List.prefix_refl _
  refine hsub.trans ?_
  generalize (if r.expired then b₁.sample r.ports else b₁) = b₂
  unfold handle
  simp only
  split
  · obtain ⟨es, hpp, -⟩ := pushed_execs t (Homer.handleEvents t.cfg ((b₂.onQueue .hasEvents).onQueue .pop).env
        ((b₂.onQueue .hasEvents).onQueue .pop).homer (b₂.onQueue .hasEvents).queue.popEvent.2).2
      { (b₂.onQueue .hasEvents).onQueue .pop with
        homer := (Homer.handleEvents t.cfg ((b₂.onQueue .hasEvents).onQueue .pop).env
          ((b₂.onQueue .hasEvents).onQueue .pop).homer (b₂.onQueue .hasEvents).queue.popEvent.2).1,
        acts := ((b₂.onQueue .hasEvents).onQueue .pop).acts ++ (Homer.handleEvents t.cfg ((b₂.onQueue .hasEvents).onQueue .pop).env
          ((b₂.onQueue .hasEvents).onQueue .pop).homer (b₂.onQueue .hasEvents).queue.popEvent.2).2 } (by
        intro a ha
        simp only [Homer.handleEvents, List.mem_cons] at ha
        rcases ha with rfl | ha
        · trivial
        · exact okAct_react _ _ _ _ a ha)
    unfold withHomer
    rw [hpp.calls]
    exact ⟨[.hasEvents, .pop] ++ es.map .push, by simp [onQueue]⟩
  · exact List.prefix_append _ _

theorem loop_awaits {b b' : Board K} {r : Round} (h : Awaits b) (hi : HomingInv t b) (ho : OrderlyRound t b r) (hl : b.loop t r = some b')
    (hn : NoOverflow b'.calls) : Awaits b' := by
  have hl' := hl
  unfold loop at hl
  split at hl
  · cases hl
  · rename_i b₁ hb₁
    have hstop := ho.stop b₁ b' hb₁ hl'
    have h1 := fill_awaits r.calcs h hb₁ (noOverflow_prefix hn (loop_calls t hi.fifo hl' b₁ hb₁))
    obtain ⟨f1, f2, f0, f3, f4, f5⟩ := fill_phase t r.calcs hi.phase hi.fifo hi.held ho.regular hb₁
    have fi : InputsOk b₁ := fun i => by rw [f5]; exact hi.inputs i
    simp only [Option.some.injEq] at hl
    subst hl
    by_cases he : r.expired
    · simp only [he, if_true] at hstop ⊢
      obtain ⟨s1, s2, s3, s4, s5, s6⟩ := sample_phase f1 f2 fi r.ports
      refine handle_awaits t (sample_awaits h1 _) s1 s2 ?_
      rw [s5, s6, f4]
      exact hstop
    · simp only [he, Bool.false_eq_true, if_false] at hstop ⊢
      refine handle_awaits t h1 f1 f2 ?_
      rw [f4]
      exact hstop

theorem loops_calls (rs : List Round) : ∀ {b b' : Board K}, HomingInv t b → Orderly t b rs → b.loops t rs = some b' →
    b.calls <+: b'.calls := by
  induction rs with
  | nil =>
    intro b b' _ _ hl
    simp only [loops, Option.some.injEq] at hl
    subst hl
    exact List.prefix_refl _
  | cons r rs ih =>
    intro b b' hi ho hl
    unfold loops at hl
    split at hl
    · cases hl
    · rename_i b₁ hb₁
      have h2 := ih (loop_phase t hi ho.1 hb₁).1 (ho.2 b₁ hb₁) hl
      obtain ⟨-, -, b₂, hb₂, -⟩ := loop_phase t hi ho.1 hb₁
      exact ((fill_calls _ hb₂).trans (loop_calls t hi.fifo hb₁ b₂ hb₂)).trans h2

theorem loops_awaits (rs : List Round) : ∀ {b b' : Board K}, Awaits b → HomingInv t b → Orderly t b rs → b.loops t rs = some b' →
    NoOverflow b'.calls → Awaits b' := by
  induction rs with
  | nil =>
    intro b b' h _ _ hl _
    simp only [loops, Option.some.injEq] at hl
    subst hl
    exact h
  | cons r rs ih =>
    intro b b' h hi ho hl hn
    unfold loops at hl
    split at hl
    · cases hl
    · rename_i b₁ hb₁
      have hi' := (loop_phase t hi ho.1 hb₁).1
      exact ih (loop_awaits t h hi ho.1 hb₁ (noOverflow_prefix hn (loops_calls t rs hi' (ho.2 b₁ hb₁) hl))) hi' (ho.2 b₁ hb₁) hl hn

theorem setup_awaits (p : Ports) : Awaits (setup t p) := by
  intro hw _
  exfalso
  obtain ⟨c1, c2, c3, c4, c5, c6⟩ := beforeHoming_spec t p
  rw [setup_eq] at hw
  generalize beforeHoming t p = b at *
  have hr : b.env.running = false := by
    have hs : b.ctrl.state = .stopped := by rw [c1]; rfl
    simp [env, isRunning, hs]
  have hcases := start_cases t.cfg b.env b.homer hr
  obtain ⟨es, hpp, -⟩ := pushed_execs t (Homer.start t.cfg b.env b.homer).2
    { b with homer := (Homer.start t.cfg b.env b.homer).1, acts := b.acts ++ (Homer.start t.cfg b.env b.homer).2 } (okAct_start _ _ _)
  have hhom : (b.withHomer t (Homer.start t.cfg b.env b.homer)).homer = (Homer.start t.cfg b.env b.homer).1 := hpp.homer
  unfold WaitsStop at hw
  rw [hhom] at hw
  rcases hcases with ⟨h, -⟩ | ⟨h | h, -⟩
  · rw [h, c5] at hw
    simp [Homer.fresh] at hw
  · simp [h] at hw
  · simp [h] at hw

/-! ### Actions are only added -/

theorem handle_acts (b : Board K) : b.acts <+: (b.handle t).acts := by
  unfold handle
  simp only
  split
  · generalize hr : Homer.handleEvents t.cfg ((b.onQueue .hasEvents).onQueue .pop).env
        ((b.onQueue .hasEvents).onQueue .pop).homer (b.onQueue .hasEvents).queue.popEvent.2 = r
    have hok : ∀ a ∈ r.2, OkAct a := by
      intro a ha
      rw [← hr] at ha
      simp only [Homer.handleEvents, List.mem_cons] at ha
      rcases ha with rfl | ha
      · trivial
      · exact okAct_react _ _ _ _ a ha
    obtain ⟨es, hpp, -⟩ := pushed_execs t r.2
      { (b.onQueue .hasEvents).onQueue .pop with homer := r.1, acts := ((b.onQueue .hasEvents).onQueue .pop).acts ++ r.2 } hok
    unfold withHomer
    rw [hpp.acts]
    exact List.prefix_append _ _
  · exact List.prefix_refl _

theorem loops_acts (rs : List Round) : ∀ {b b' : Board K}, b.loops t rs = some b' → b.acts <+: b'.acts := by
  induction rs with
  | nil =>
    intro b b' hl
    simp only [loops, Option.some.injEq] at hl
    subst hl
    exact List.prefix_refl _
  | cons r rs ih =>
    intro b b' hl
    unfold loops at hl
    split at hl
    · cases hl
    · rename_i b₁ hb₁
      refine List.IsPrefix.trans ?_ (ih hl)
      unfold loop at hb₁
      split at hb₁
      · cases hb₁
      · rename_i b₂ hb₂
        obtain ⟨es, hp, -⟩ := pushed_fill _ _ _ hb₂
        simp only [Option.some.injEq] at hb₁
        subst hb₁
        rw [← hp.acts]
        refine List.IsPrefix.trans ?_ (handle_acts t _)
        split
        · unfold sample
          have : ∀ (l : List Nat) (b : Board K), (l.foldl sampleInput b).acts = b.acts := by
            intro l
            induction l with
            | nil => intro b; rfl
            | cons i l ih =>
              intro b
              rw [List.foldl_cons, ih]
              unfold sampleInput
              simp only
              split <;> rfl
          rw [this]
          exact List.prefix_refl _
        · exact List.prefix_refl _

end Board
end Moovr
