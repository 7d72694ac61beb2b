import Verif.Lemmas.HomingMotion
/-! Helper lemmas: how many events wait in the queue of the main program. -/
namespace Moovr

namespace MotionCtrl
variable {K : MotionKit}

/-- The reports of a tick that ends motion, if one motion is in the queue. -/
def EndReports (es : List Event) : Prop :=
  es = [.motionStopped] ∨ es = [.motionStopped, .motionCompleted, .allMotionsCompleted] ∨
    es = [.motionStopped, .motionStopped, .motionCompleted, .allMotionsCompleted]

theorem tick_events (c : MotionCtrl K) (hs : c.state ≠ .stopped) (hl : c.buffer.level = 1) (r) (h : c.tick = some r) :
    (r.1.state = c.state ∧ r.1.buffer.level = 1 ∧ r.1.events = c.events) ∨
    (r.1.state = .stopped ∧ ∃ es, r.1.events = c.events ++ es ∧ EndReports es) := by
  unfold tick at h
  rw [if_pos (by simp [isRunning, hs])] at h
  simp only [Option.map_eq_some_iff] at h
  obtain ⟨x, hx, rfl⟩ := h
  have hlev : ∀ d : MotionCtrl K, d.buffer.level = 1 → (settle (d.buffer.level + 1) d = some x) →
      (x.1.state = d.state ∧ x.1.buffer.level = 1 ∧ x.1.events = d.events) ∨
      (x.1.state = .stopped ∧ x.1.events = d.events ++ [.motionStopped, .motionCompleted, .allMotionsCompleted]) := by
    intro d hd hx
    unfold settle at hx
    rw [if_neg (by omega : ¬ d.buffer.level > 1)] at hx
    split at hx
    · simp only [Option.some.injEq] at hx
      subst hx
      exact .inr ⟨rfl, by simp [lastMotion, pushEvent]⟩
    · simp only [Option.some.injEq] at hx
      subst hx
      exact .inl ⟨rfl, hd, rfl⟩
  unfold sampleAndCheckStop at hx
  simp only at hx
  split at hx
  · rcases hlev _ (by exact hl) hx with h | h
    · exact .inr ⟨h.1, [.motionStopped], h.2.2, .inl rfl⟩
    · refine .inr ⟨h.1, [.motionStopped, .motionStopped, .motionCompleted, .allMotionsCompleted], ?_, .inr (.inr rfl)⟩
      rw [h.2]
      simp [pushEvent]
  · rcases hlev _ (by exact hl) hx with h | h
    · exact .inl h
    · exact .inr ⟨h.1, _, h.2, .inr (.inl rfl)⟩

theorem calcLoop_events (fuel : Nat) (c : MotionCtrl K) (hs : c.state ≠ .stopped) (hl : c.buffer.level = 1) (r)
    (h : calcLoop fuel c = some r) :
    (r.1.state = c.state ∧ r.1.buffer.level = 1 ∧ r.1.events = c.events) ∨
    (r.1.state = .stopped ∧ ∃ es, r.1.events = c.events ++ es ∧ EndReports es) := by
  induction fuel generalizing c r with
  | zero => simp [calcLoop] at h
  | succ fuel ih =>
    unfold calcLoop at h
    split at h
    · cases h
    · rename_i c' t ht
      have h1 := tick_events c hs hl _ ht
      split at h
      · simp only [Option.some.injEq] at h
        subst h
        exact h1
      · simp only [Option.map_eq_some_iff] at h
        obtain ⟨x, hx, rfl⟩ := h
        rcases h1 with ⟨a, b, e⟩ | ⟨a, es, b, d⟩
        · simp only at a b e
          rcases ih c' (by rw [a]; exact hs) b x hx with ⟨a', b', e'⟩ | ⟨a', es, b', d⟩
          · exact .inl ⟨a'.trans a, b', e'.trans e⟩
          · exact .inr ⟨a', es, by rw [b', e], d⟩
        · obtain ⟨s1, -, s3, -⟩ := calcLoop_stopped fuel c' a x hx
          exact .inr ⟨s1, es, by rw [s3]; exact b, d⟩

end MotionCtrl

namespace Board
open EventQueueSpec EventBuffer LoopSpec MotionCtrl
variable {K : MotionKit} (t : Target K)

/-- Number of events that no input has reported. -/
def others (q : List Event) : Nat := q.countP fun e => !isInput e

/-- Behind a report `motionStopped` wait at most two further reports. -/
def AfterStop : List Event → Prop
  | [] => True
  | e :: q => (e = .motionStopped → others q ≤ 2) ∧ AfterStop q

/-- What waits in the queue while the motion controller is in state `s`; all events of inputs are among the first `k`. -/
structure Calm (k : Nat) (s : MotionState) (q : List Event) : Prop where
  runs : s = .running → others q ≤ 3
  halts : s = .stopping → others q ≤ 4
  all : others q ≤ 7
  after : AfterStop q
  inputs : q.countP isInput ≤ 9
  drained : ∀ e ∈ q.drop k, isInput e = false

theorem Calm.length {k s q} (h : Calm k s q) : q.length ≤ 16 := by
  have h1 := List.length_eq_countP_add_countP (isInput ·) (l := q)
  have h2 : q.countP (fun e => !isInput e) ≤ 7 := h.all
  have h3 : q.countP (fun a => decide ¬isInput a = true) = q.countP (fun e => !isInput e) := by
    congr 1; funext e; cases isInput e <;> rfl
  have h4 := h.inputs
  rw [h3] at h1
  have h5 : q.countP (isInput ·) = q.countP isInput := rfl
  omega

theorem others_append (q r : List Event) : others (q ++ r) = others q + others r := List.countP_append

theorem afterStop_of_notMem {q : List Event} (h : Event.motionStopped ∉ q) : AfterStop q := by
  induction q with
  | nil => trivial
  | cons e q ih =>
    rw [List.mem_cons, not_or] at h
    exact ⟨fun he => absurd he.symm h.1, ih h.2⟩

theorem afterStop_append {q r : List Event} (h : Event.motionStopped ∉ q) (hr : AfterStop r) : AfterStop (q ++ r) := by
  induction q with
  | nil => exact hr
  | cons e q ih =>
    rw [List.mem_cons, not_or] at h
    exact ⟨fun he => absurd he.symm h.1, ih h.2⟩

theorem afterStop_input {q : List Event} {x : Event} (h : AfterStop q) (hx : isInput x = true) : AfterStop (q ++ [x]) := by
  induction q with
  | nil => exact ⟨fun _ => by simp [others], trivial⟩
  | cons e q ih =>
    refine ⟨fun he => ?_, ih h.2⟩
    show others (q ++ [x]) ≤ 2
    rw [others_append]
    have := h.1 he
    simp only [others, List.countP_singleton, hx] at this ⊢
    simpa using this

theorem drained_append {k : Nat} {q es : List Event} (h : ∀ e ∈ q.drop k, isInput e = false) (hes : ∀ e ∈ es, isInput e = false) :
    ∀ e ∈ (q ++ es).drop k, isInput e = false := by
  intro e he
  rw [List.drop_append, List.mem_append] at he
  exact he.elim (h e) fun he => hes e (List.mem_of_mem_drop he)

theorem countP_input_append {q es : List Event} (hes : ∀ e ∈ es, isInput e = false) : (q ++ es).countP isInput = q.countP isInput := by
  have : es.countP isInput = 0 := List.countP_eq_zero.2 fun e he => by rw [hes e he]; simp
  rw [List.countP_append, this, Nat.add_zero]

theorem drained_tail {k : Nat} {e : Event} {q : List Event} (h : ∀ x ∈ (e :: q).drop k, isInput x = false) :
    ∀ x ∈ q.drop (k - 1), isInput x = false := by
  intro x hx
  cases k with
  | zero => exact h x (by simp only [Nat.zero_sub, List.drop_zero] at hx ⊢; simp [hx])
  | succ k => exact h x (by simpa using hx)

theorem noOverflow_snoc {calls : List Call} {c : Call} (h : NoOverflow calls) (hc : ∀ e, c = .push e → (pending calls).length < capacity) :
    NoOverflow (calls ++ [c]) := by
  intro before e after he
  rcases List.eq_nil_or_concat after with rfl | ⟨a, x, rfl⟩
  · obtain ⟨h1, h2⟩ := List.append_inj' he rfl
    subst h1
    exact hc e (by simpa using h2)
  · have he' : calls ++ [c] = (before ++ .push e :: a) ++ [x] := by simpa using he
    obtain ⟨h1, -⟩ := List.append_inj' he' rfl
    exact h before e a h1

theorem room_push (es : List Event) : ∀ {calls : List Call}, NoOverflow calls → (∀ e ∈ es, e ≠ .none) →
    (pending calls).length + es.length ≤ 16 →
    pending (calls ++ es.map .push) = pending calls ++ es ∧ NoOverflow (calls ++ es.map .push) := by
  induction es with
  | nil => intro calls h _ _; simpa using h
  | cons e es ih =>
    intro calls h hn hl
    simp only [List.length_cons] at hl
    have hlt : (pending calls).length < capacity := by unfold capacity; omega
    have h1 : pending (calls ++ [.push e]) = pending calls ++ [e] := by
      rw [pending_snoc]
      simp only [next]
      rw [if_pos ⟨hn e (by simp), hlt⟩]
    obtain ⟨a, b⟩ := ih (noOverflow_snoc h (c := .push e) fun _ _ => hlt) (fun x hx => hn x (by simp [hx]))
      (by rw [h1, List.length_append, List.length_singleton]; omega)
    rw [h1] at a
    simp only [List.append_assoc, List.singleton_append, List.map_cons] at a b ⊢
    exact ⟨a, b⟩

/-- No event has been lost, and the queue is as `Calm` says. -/
structure Roomy (k : Nat) (b : Board K) : Prop where
  room : NoOverflow b.calls
  calm : Calm k b.ctrl.state (pending b.calls)

theorem roomy_push {k : Nat} {b b' : Board K} {es : List Event} (h : NoOverflow b.calls) (hc : b'.calls = b.calls ++ es.map .push)
    (hn : ∀ e ∈ es, e ≠ .none) (hq : Calm k b'.ctrl.state (pending b.calls ++ es)) : Roomy k b' := by
  have hl := hq.length
  rw [List.length_append] at hl
  obtain ⟨h1, h2⟩ := room_push es h hn hl
  rw [← hc] at h1 h2
  exact ⟨h2, by rw [h1]; exact hq⟩

theorem withCtrl_calls {b : Board K} {c : MotionCtrl K} {es : List Event} (h : c.events = b.ctrl.events ++ es) :
    (b.withCtrl c).calls = b.calls ++ es.map .push := by
  unfold withCtrl
  have : c.events.drop b.ctrl.events.length = es := by rw [h]; simp
  rw [this, (pushed_foldl es { b with ctrl := c }).calls]

theorem notMem_of_stops {b : Board K} (h : b.stops = 0) : Event.motionStopped ∉ pending b.calls := List.count_eq_zero.1 h

theorem phase_moving {b : Board K} (hp : Phase b) (hs : b.ctrl.state ≠ .stopped) : b.stops = 0 := by
  have hE : b.Executing → b.stops = 0 := fun h => h.elim (fun h => h.2.2) (fun h => absurd h.1 hs)
  have hH : b.Halting → b.stops = 0 := fun h => h.elim (fun h => h.2.2) (fun h => absurd h.1 hs)
  unfold Phase at hp
  split at hp
  · exact absurd hp hs
  · exact absurd hp hs
  · exact hp.elim
  · exact hE hp
  · exact hE hp
  · exact hE hp
  · exact hH hp
  · exact hH hp

theorem phase_stops {b : Board K} (hp : Phase b) (hs : b.homer.state = .closedWaitForStop ∨ b.homer.state = .openedWaitForStop ∨
    b.homer.state = .offsettingWaitForStop) : b.stops ≤ 1 := by
  unfold Phase at hp
  rcases hs with h | h | h <;> rw [h] at hp <;> simp only at hp
  · rcases hp with ⟨-, -, x⟩ | ⟨-, -, x⟩ <;> omega
  · rcases hp with ⟨-, -, x⟩ | ⟨-, -, x⟩ <;> omega
  · rcases hp with ⟨-, -, x⟩ | ⟨-, -, x⟩ <;> omega

/-! ### Calculations -/

theorem calc_roomy {k : Nat} {b : Board K} (hp : Phase b) (hb : Roomy k b) (hr : Regular b.ctrl) {r} (h : b.ctrl.calcNext = some r) :
    Roomy k (b.withCtrl r.1) := by
  have hc := withCtrl_ctrl b r.1
  have same : r.1.events = b.ctrl.events → r.1.state = b.ctrl.state → Roomy k (b.withCtrl r.1) := by
    intro h1 h2
    refine roomy_push (es := []) hb.room (withCtrl_calls (by simpa using h1)) (by simp) ?_
    rw [hc, h2, List.append_nil]
    exact hb.calm
  by_cases hs : b.ctrl.state = .stopped
  · obtain ⟨a1, -, a3, -⟩ := calcLoop_stopped _ _ hs _ h
    exact same a3 (a1.trans hs.symm)
  · have hl := (phase_level hp).resolve_left hs
    rcases calcLoop_events _ _ hs hl _ h with ⟨a, -, e⟩ | ⟨a, es, e, d⟩
    · exact same e a
    · have hq := notMem_of_stops (phase_moving hp hs)
      have h4 : others (pending b.calls) ≤ 4 := by
        have h1 := hb.calm.runs
        have h2 := hb.calm.halts
        cases hst : b.ctrl.state with
        | stopped => exact absurd hst hs
        | running => have := h1 hst; omega
        | stopping => exact h2 hst
      have hcount := (hr r h).1
      have hes : es = [.motionStopped] ∨ es = [.motionStopped, .motionCompleted, .allMotionsCompleted] := by
        rcases d with d | d | d
        · exact .inl d
        · exact .inr d
        · exfalso
          unfold stopCount at hcount
          rw [e, d] at hcount
          simp at hcount
      have f1 : ∀ e ∈ es, e ≠ .none ∧ isInput e = false := by
        rcases hes with rfl | rfl <;> decide
      have f2 : others es ≤ 3 := by rcases hes with rfl | rfl <;> decide
      have f3 : AfterStop es := by
        rcases hes with rfl | rfl <;> simp [AfterStop, others, isInput, inputEvents]
      refine roomy_push hb.room (withCtrl_calls e) (fun e he => (f1 e he).1) ?_
      rw [hc, a]
      refine ⟨by simp, by simp, ?_, afterStop_append hq f3, ?_, drained_append hb.calm.drained fun e he => (f1 e he).2⟩
      · rw [others_append]; omega
      · rw [countP_input_append fun e he => (f1 e he).2]; exact hb.calm.inputs

theorem fill_roomy (n : Nat) : ∀ {k : Nat} {b b' : Board K}, Phase b → Roomy k b →
    (∀ j, j < n → ∀ b₁, b.fill j = some b₁ → Regular b₁.ctrl) → b.fill n = some b' → Roomy k b' := by
  induction n with
  | zero =>
    intro k b b' _ hb _ h
    simp only [fill, Option.some.injEq] at h
    subst h
    exact hb
  | succ n ih =>
    intro k b b' hp hb hr h
    have h0 := hr 0 (by omega) b rfl
    unfold fill at h
    split at h
    · cases h
    · rename_i r hrr
      exact ih (calc_phase hp h0 hrr) (calc_roomy hp hb h0 hrr)
        (fun j hj b₁ hb₁ => hr (j + 1) (by omega) b₁ (by simp only [fill, hrr]; exact hb₁)) h

/-! ### Sampling -/

/-- Inputs report events of inputs. -/
def InputsReal (b : Board K) : Prop := ∀ i, isInput (b.myInputs i).onClose = true ∧ isInput (b.myInputs i).onOpen = true

/-- The queue while `n` inputs have been sampled. -/
structure Sampling (n : Nat) (b : Board K) : Prop where
  room : NoOverflow b.calls
  runs : b.ctrl.state = .running → others (pending b.calls) ≤ 3
  halts : b.ctrl.state = .stopping → others (pending b.calls) ≤ 4
  all : others (pending b.calls) ≤ 7
  after : AfterStop (pending b.calls)
  inputs : (pending b.calls).countP isInput ≤ n
  real : InputsReal b

theorem Sampling.calm {n : Nat} {b : Board K} (h : Sampling n b) (hn : n ≤ 9) : Calm 16 b.ctrl.state (pending b.calls) := by
  have h1 : Calm (pending b.calls).length b.ctrl.state (pending b.calls) :=
    ⟨h.runs, h.halts, h.all, h.after, h.inputs.trans hn, by simp⟩
  have h2 := h1.length
  refine ⟨h.runs, h.halts, h.all, h.after, h.inputs.trans hn, ?_⟩
  rw [List.drop_eq_nil_of_le h2]
  simp

theorem sampleInput_sampling {n : Nat} {b : Board K} (h : Sampling n b) (hn : n < 9) (i : Nat) :
    Sampling (n + 1) (b.sampleInput i) ∧ (b.sampleInput i).ctrl = b.ctrl := by
  have hk := DebouncedInput.getEvent_events (b.myInputs i) (b.inputs.get i)
  have hrange := getEvent_range (b.myInputs i) (b.inputs.get i)
  unfold sampleInput
  simp only
  generalize (b.myInputs i).getEvent (b.inputs.get i) = r at *
  have hmy : ∀ j, isInput (if j = i then r.1 else b.myInputs j).onClose = true ∧
      isInput (if j = i then r.1 else b.myInputs j).onOpen = true := by
    intro j
    split
    · rw [hk.1, hk.2]; exact h.real i
    · exact h.real j
  split
  · rename_i hne
    have hin : isInput r.2 = true := by
      rcases hrange with h' | h' | h'
      · exact absurd h'.symm hne
      · rw [h']; exact (h.real i).1
      · rw [h']; exact (h.real i).2
    have hlen : (pending b.calls).length < 16 := by
      have h1 : Calm (pending b.calls ++ [r.2]).length b.ctrl.state (pending b.calls ++ [r.2]) := by
        refine ⟨?_, ?_, ?_, afterStop_input h.after hin, ?_, by simp⟩
        · intro hs; rw [others_append]; simpa [others, hin] using h.runs hs
        · intro hs; rw [others_append]; simpa [others, hin] using h.halts hs
        · rw [others_append]; simpa [others, hin] using h.all
        · rw [List.countP_append]
          have := h.inputs
          simp only [List.countP_singleton, hin, if_true]
          omega
      have h2 := h1.length
      rw [List.length_append, List.length_singleton] at h2
      omega
    have hq : pending (b.calls ++ [.push r.2]) = pending b.calls ++ [r.2] := by
      rw [pending_snoc]
      simp only [next]
      rw [if_pos ⟨fun h => hne h.symm, hlen⟩]
    refine ⟨⟨?_, ?_, ?_, ?_, ?_, ?_, hmy⟩, rfl⟩
    · exact noOverflow_snoc h.room fun _ _ => hlen
    · show b.ctrl.state = _ → others (pending (b.calls ++ [.push r.2])) ≤ 3
      intro hs; rw [hq, others_append]; simpa [others, hin] using h.runs hs
    · show b.ctrl.state = _ → others (pending (b.calls ++ [.push r.2])) ≤ 4
      intro hs; rw [hq, others_append]; simpa [others, hin] using h.halts hs
    · show others (pending (b.calls ++ [.push r.2])) ≤ 7
      rw [hq, others_append]; simpa [others, hin] using h.all
    · show AfterStop (pending (b.calls ++ [.push r.2]))
      rw [hq]; exact afterStop_input h.after hin
    · show (pending (b.calls ++ [.push r.2])).countP isInput ≤ n + 1
      rw [hq, List.countP_append]
      have := h.inputs
      simp only [List.countP_singleton, hin, if_true]
      omega
  · exact ⟨⟨h.room, h.runs, h.halts, h.all, h.after, h.inputs.trans (Nat.le_succ n), hmy⟩, rfl⟩

theorem sample_roomy {b : Board K} (hb : Roomy 0 b) (hi : InputsReal b) (p : Ports) :
    Roomy 16 (b.sample p) ∧ InputsReal (b.sample p) := by
  have hgen : ∀ (l : List Nat) (n : Nat) (b : Board K), Sampling n b → n + l.length ≤ 9 → Sampling (n + l.length) (l.foldl sampleInput b) := by
    intro l
    induction l with
    | nil => intro n b h _; exact h
    | cons i l ih =>
      intro n b h hn
      simp only [List.length_cons] at hn ⊢
      have h1 := (sampleInput_sampling h (by omega) i).1
      have h2 := ih (n + 1) _ h1 (by omega)
      rw [show n + (l.length + 1) = n + 1 + l.length by omega]
      exact h2
  have h0 : Sampling 0 { b with inputs := b.inputs.sample p } := by
    refine ⟨hb.room, hb.calm.runs, hb.calm.halts, hb.calm.all, hb.calm.after, ?_, hi⟩
    have := hb.calm.drained
    rw [List.drop_zero] at this
    rw [Nat.le_zero, List.countP_eq_zero]
    intro e he
    rw [this e he]
    simp
  have h1 := hgen (List.range nmbrInputs) 0 _ h0 (by simp [nmbrInputs])
  have h2 : Sampling 9 (b.sample p) := by
    unfold sample
    simpa [nmbrInputs] using h1
  exact ⟨⟨h2.room, h2.calm (le_refl _)⟩, h2.real⟩

/-! ### Handling -/

theorem Calm.tail {k : Nat} {s : MotionState} {e : Event} {q : List Event} (h : Calm k s (e :: q)) : Calm (k - 1) s q := by
  have ho : others q ≤ others (e :: q) := by simp only [others, List.countP_cons]; omega
  refine ⟨fun hs => ho.trans (h.runs hs), fun hs => ho.trans (h.halts hs), ho.trans h.all, h.after.2, ?_, drained_tail h.drained⟩
  have := h.inputs
  rw [List.countP_cons] at this
  omega

/-- An event that is not of an input is appended. -/
theorem Calm.append {k : Nat} {s s' : MotionState} {q : List Event} {x : Event} (h : Calm k s q) (hq : Event.motionStopped ∉ q)
    (hx : isInput x = false) (hx' : x ≠ .motionStopped) (h3 : others q ≤ 2 ∨ others q ≤ 3 ∧ s' = .stopping) : Calm k s' (q ++ [x]) := by
  have ho : others (q ++ [x]) = others q + 1 := by rw [others_append]; simp [others, hx]
  have hm : ∀ e ∈ [x], isInput e = false := fun e he => by rw [List.mem_singleton.1 he]; exact hx
  refine ⟨?_, ?_, ?_, afterStop_of_notMem ?_, ?_, drained_append h.drained hm⟩
  · intro hs
    rw [ho]
    rcases h3 with h | ⟨-, h⟩
    · omega
    · rw [hs] at h; cases h
  · intro _; rw [ho]; omega
  · rw [ho]; omega
  · simp [hq, Ne.symm hx']
  · rw [countP_input_append hm]; exact h.inputs

theorem order_calls {b : Board K} (hs : b.ctrl.state = .stopped) (m : HomingMove) :
    ([HomingAct.flush, .append m, .go].foldl (exec t) b).calls = b.calls ++ [.push .motionStarted] := by
  simp only [List.foldl_cons, List.foldl_nil, exec]
  generalize h1 : b.withCtrl b.ctrl.flushMotionBuffer = b₁
  generalize h2 : b₁.withCtrl (b₁.ctrl.append (t.request m)) = b₂
  have c1 : b₁.ctrl = { b.ctrl with time := b.ctrl.time.reinit, buffer := b.ctrl.buffer.flush } := by
    rw [← h1, withCtrl_ctrl, flushMotionBuffer, if_pos (by simp [isRunning, hs])]
  have c2 : b₂.ctrl = b₁.ctrl.append (t.request m) := by rw [← h2, withCtrl_ctrl]
  have l2 : b₂.ctrl.buffer.level = 1 ∧ b₂.ctrl.events = b.ctrl.events := by
    rw [c2, c1]
    exact ⟨rfl, rfl⟩
  have c3 : b₂.ctrl.start = optimize { b₂.ctrl.pushEvent .motionStarted with state := .running } := by
    unfold start
    rw [if_pos (by simp [MotionBuffer.isEmpty, l2.1])]
  have hsame := sameButProf_optimize { b₂.ctrl.pushEvent .motionStarted with state := .running }
  rw [← c3] at hsame
  have e1 : b₁.calls = b.calls := by
    rw [← h1]
    have : b.ctrl.flushMotionBuffer = b₁.ctrl := by rw [← h1, withCtrl_ctrl]
    simpa using withCtrl_calls (b := b) (es := []) (by rw [this, c1, List.append_nil])
  have e2 : b₂.calls = b₁.calls := by
    rw [← h2]
    simpa using withCtrl_calls (b := b₁) (es := []) (c := b₁.ctrl.append (t.request m)) (by rw [← c2, l2.2, c1, List.append_nil])
  rw [withCtrl_calls (es := [.motionStarted]) (by rw [hsame.events]; rfl), e2, e1]
  rfl

theorem handle_roomy {k : Nat} {b : Board K} (hp : Phase b) (hf : Fifo b) (hb : Roomy k b)
    (hstop : .stop ∈ (b.handle t).acts.drop b.acts.length → b.ctrl.buffer.level ≠ 0) : Roomy (k - 1) (b.handle t) := by
  rcases handle_eq t b hf with ⟨h1, h2⟩ | ⟨e, q, b₂, h1, h2, h3, h4⟩
  · rw [h2]
    refine ⟨noOverflow_snoc hb.room (fun e he => by cases he), ?_⟩
    have hq : pending (b.onQueue .hasEvents).calls = [] := by simp [onQueue, pending_snoc, next, h1]
    rw [hq]
    exact ⟨by simp [others], by simp [others], by simp [others], trivial, by simp, by simp⟩
  · have hc : b₂.ctrl = b.ctrl := by rw [h2]; rfl
    have hh : b₂.homer = b.homer := by rw [h2]; rfl
    have ha : b₂.acts = b.acts := by rw [h2]; rfl
    have hroom : NoOverflow b₂.calls := by
      rw [h2]
      refine noOverflow_snoc (noOverflow_snoc hb.room (fun e he => by cases he)) (fun e he => by cases he)
    have hcalm0 := hb.calm
    rw [h1] at hcalm0
    have hcalm := hcalm0.tail
    have hns : b₂.homer.state ≠ .stopping := by
      intro hs
      unfold Phase at hp
      rw [hh] at hs
      rw [hs] at hp
      exact hp
    have hacts : (Homer.handleEvents t.cfg b₂.env b₂.homer e).2 = .handled e :: (Homer.react t.cfg b₂.env b₂.homer e).2 := rfl
    have hhom : (Homer.handleEvents t.cfg b₂.env b₂.homer e).1 = (Homer.react t.cfg b₂.env b₂.homer e).1 := rfl
    have hw : b.handle t = (Homer.react t.cfg b₂.env b₂.homer e).2.foldl (exec t)
        { b₂ with homer := (Homer.react t.cfg b₂.env b₂.homer e).1,
                  acts := b.acts ++ .handled e :: (Homer.react t.cfg b₂.env b₂.homer e).2 } := by
      rw [h4, withHomer, hacts, hhom, List.foldl_cons, ha]
      rfl
    generalize hr : Homer.react t.cfg b₂.env b₂.homer e = r at *
    have hcases := react_cases t.cfg b₂.env b₂.homer e hns
    rw [hr] at hcases
    rw [hh] at hcases
    rcases hcases with hc1 | ⟨hc1, hc2⟩ | ⟨hc1, hc2, hc3, pre, m, hc4, hc5, hc6⟩ | ⟨hc1, hc2, hc3, hc4⟩
    · rw [hc1] at hw
      simp only [List.foldl_nil] at hw
      rw [hw]
      refine ⟨hroom, ?_⟩
      show Calm (k - 1) b₂.ctrl.state (pending b₂.calls)
      rw [hc, h3]
      exact hcalm
    · -- stop
      rw [hc1] at hw
      simp only [List.foldl_cons, List.foldl_nil, exec] at hw
      obtain ⟨-, w2, -⟩ := withCtrl_homer { b₂ with homer := r.1, acts := b.acts ++ [.handled e, .stop] } b₂.ctrl.stop
      have wc := withCtrl_ctrl { b₂ with homer := r.1, acts := b.acts ++ [.handled e, .stop] } b₂.ctrl.stop
      have hsame := sameButProf_optimize { b₂.ctrl.pushEvent .stopRequested with state := .stopping }
      have hstopc : b₂.ctrl.stop = optimize { b₂.ctrl.pushEvent .stopRequested with state := .stopping } := rfl
      rw [← hstopc] at hsame
      have wq := withCtrl_calls (b := { b₂ with homer := r.1, acts := b.acts ++ [.handled e, .stop] }) (c := b₂.ctrl.stop)
        (es := [.stopRequested]) (by rw [hsame.events]; rfl)
      rw [← hw] at w2 wc wq
      have hlev := hstop (by rw [w2]; simp)
      have hex : b.Executing := by
        unfold Phase at hp
        rcases hc2 with ⟨h, -⟩ | ⟨h, -⟩ <;> rw [h] at hp <;> exact hp
      rcases hex with ⟨x1, x2, x3⟩ | ⟨-, x2, -⟩
      · have hq : Event.motionStopped ∉ q := fun hq => notMem_of_stops x3 (by rw [h1]; simp [hq])
        refine roomy_push hroom wq (by simp) ?_
        rw [wc, hsame.state, h3]
        exact hcalm.append hq (by decide) (by simp) (.inr ⟨hcalm.runs x1, rfl⟩)
      · exact absurd x2 hlev
    · -- a move
      have hstops := phase_stops hp hc2
      have hq : Event.motionStopped ∉ q := by
        intro hq
        have : 0 < q.count .motionStopped := List.count_pos_iff.2 hq
        unfold stops at hstops
        rw [h1, hc1, List.count_cons_self] at hstops
        omega
      have hstopped : b.ctrl.state = .stopped := by
        by_contra hs
        exact notMem_of_stops (phase_moving hp hs) (by rw [h1, hc1]; simp)
      rw [hc6] at hw
      have hpre : ∀ b' : Board K, (pre ++ [HomingAct.flush, .append m, .go]).foldl (exec t) b' =
          [HomingAct.flush, .append m, .go].foldl (exec t) b' := by
        intro b'
        rcases hc4 with rfl | ⟨i, c, rfl⟩
        · rfl
        · rfl
      rw [hpre] at hw
      have hs' : ({ b₂ with homer := r.1, acts := b.acts ++ .handled e :: (pre ++ [.flush, .append m, .go]) } : Board K).ctrl.state =
          .stopped := by show b₂.ctrl.state = _; rw [hc]; exact hstopped
      have o1 := (order_phase t hs' m).1
      have oq := order_calls t hs' m
      rw [← hw] at o1 oq
      refine roomy_push (es := [.motionStarted]) hroom oq (by simp) ?_
      rw [o1, h3]
      exact hcalm.append hq (by decide) (by simp) (.inl (hcalm0.after.1 hc1))
    · -- found
      have hstops := phase_stops hp (.inr (.inr hc2))
      have hq : Event.motionStopped ∉ q := by
        intro hq
        have : 0 < q.count .motionStopped := List.count_pos_iff.2 hq
        unfold stops at hstops
        rw [h1, hc1, List.count_cons_self] at hstops
        omega
      rw [hc4] at hw
      simp only [List.foldl_cons, List.foldl_nil, exec] at hw
      have hpp := pushed_push { b₂ with homer := r.1, acts := b.acts ++ [.handled e, .push .homingCompleted] } .homingCompleted
      rw [← hw] at hpp
      refine roomy_push hroom hpp.calls (by simp) ?_
      rw [h3]
      exact hcalm.append hq (by decide) (by simp) (.inl (hcalm0.after.1 hc1))

/-! ### The whole program -/

theorem handle_myInputs {b : Board K} (hp : Phase b) (hf : Fifo b)
    (hstop : .stop ∈ (b.handle t).acts.drop b.acts.length → b.ctrl.buffer.level ≠ 0) : (b.handle t).myInputs = b.myInputs :=
  (handle_phase t hp hf hstop).2.1

theorem loop_roomy {k : Nat} {b : Board K} (h : HomingInv t b) (hb : Roomy k b) (hi : InputsReal b) {r : Round}
    (ho : OrderlyRound t b r) (hk : r.expired = true → k = 0) {b' : Board K} (hl : b.loop t r = some b') :
    Roomy (if r.expired then 15 else k - 1) b' ∧ InputsReal b' := by
  have hl' := hl
  unfold loop at hl
  split at hl
  · cases hl
  · rename_i b₁ hb₁
    obtain ⟨f1, f2, f0, f3, f4, f5⟩ := fill_phase t r.calcs h.phase h.fifo h.held ho.regular hb₁
    have fr := fill_roomy r.calcs h.phase hb ho.regular hb₁
    have fi : InputsOk b₁ := fun i => by rw [f5]; exact h.inputs i
    have fi' : InputsReal b₁ := fun i => by rw [f5]; exact hi i
    have hstop := ho.stop b₁ b' hb₁ hl'
    cases hx : r.expired with
    | false =>
      simp only [hx, Bool.false_eq_true, if_false, Option.some.injEq] at hl ⊢
      have hs : .stop ∈ (b₁.handle t).acts.drop b₁.acts.length → b₁.ctrl.buffer.level ≠ 0 := by rw [hl, f4]; exact hstop
      have h1 := handle_roomy t f1 f2 fr hs
      have h2 := handle_myInputs t f1 f2 hs
      rw [hl] at h1 h2
      exact ⟨h1, fun i => by rw [h2]; exact fi' i⟩
    | true =>
      simp only [hx, if_true, Option.some.injEq] at hl ⊢
      rw [hk hx] at fr
      obtain ⟨s1, s2, s3, s4, s5, s6⟩ := sample_phase f1 f2 fi r.ports
      obtain ⟨sr, si⟩ := sample_roomy fr fi' r.ports
      have hs : .stop ∈ ((b₁.sample r.ports).handle t).acts.drop (b₁.sample r.ports).acts.length →
          (b₁.sample r.ports).ctrl.buffer.level ≠ 0 := by rw [hl, s5, f4, s6]; exact hstop
      have h1 := handle_roomy t s1 s2 sr hs
      have h2 := handle_myInputs t s1 s2 hs
      rw [hl] at h1 h2
      exact ⟨h1, fun i => by rw [h2]; exact si i⟩

/-- Between two samplings there are 15 iterations without, and `k` before the first. -/
structure Rare (k : Nat) (rs : List Round) : Prop where
  between : ∀ a r mid r' c, rs = a ++ r :: (mid ++ r' :: c) → r.expired = true → r'.expired = true → 15 ≤ mid.length
  first : ∀ mid r' c, rs = mid ++ r' :: c → r'.expired = true → k ≤ mid.length

theorem Rare.tail {k : Nat} {r : Round} {rs : List Round} (h : Rare k (r :: rs)) :
    (r.expired = true → k = 0) ∧ Rare (if r.expired then 15 else k - 1) rs := by
  refine ⟨fun hx => Nat.le_zero.1 (h.first [] r rs rfl hx), ⟨fun a x mid x' c he => h.between (r :: a) x mid x' c (by rw [he]; rfl), ?_⟩⟩
  intro mid r' c he hx'
  split
  · rename_i hx
    exact h.between [] r mid r' c (by rw [he]; rfl) hx hx'
  · have := h.first (r :: mid) r' c (by rw [he]; rfl) hx'
    rw [List.length_cons] at this
    omega

theorem loops_roomy (rs : List Round) : ∀ {k : Nat} {b b' : Board K}, HomingInv t b → Roomy k b → InputsReal b → Orderly t b rs →
    Rare k rs → b.loops t rs = some b' → NoOverflow b'.calls := by
  induction rs with
  | nil =>
    intro k b b' _ hb _ _ _ hl
    simp only [loops, Option.some.injEq] at hl
    subst hl
    exact hb.room
  | cons r rs ih =>
    intro k b b' h hb hi ho hr hl
    unfold loops at hl
    split at hl
    · cases hl
    · rename_i b₁ hb₁
      obtain ⟨h1, h2⟩ := hr.tail
      obtain ⟨l1, l2⟩ := loop_roomy t h hb hi ho.1 h1 hb₁
      exact ih (loop_phase t h ho.1 hb₁).1 l1 l2 (ho.2 b₁ hb₁) h2 hl

theorem myInputs₀_real (i : Nat) : isInput (myInputs₀ i).onClose = true ∧ isInput (myInputs₀ i).onOpen = true := by
  unfold myInputs₀
  split <;> exact ⟨rfl, rfl⟩

theorem withHomer_myInputs (b : Board K) (r : Homer × List HomingAct) (h : ∀ a ∈ r.2, OkAct a) : (b.withHomer t r).myInputs = b.myInputs := by
  obtain ⟨es, p, -⟩ := pushed_execs t r.2 { b with homer := r.1, acts := b.acts ++ r.2 } h
  exact p.myInputs

theorem setup_roomy (p : Ports) : Roomy 0 (setup t p) ∧ InputsReal (setup t p) := by
  obtain ⟨c1, c2, c3, c4, c5, c6⟩ := beforeHoming_spec t p
  have hin : InputsReal (beforeHoming t p) := by
    intro i
    have h := myInputs₀_real i
    have : (beforeHoming t p).myInputs i = if i < nmbrInputs then (myInputs₀ i).doInitialize (((fresh t : Board K).inputs.sample p).get i)
        else myInputs₀ i := rfl
    rw [this]
    split
    · cases ((fresh t : Board K).inputs.sample p).get i <;> exact h
    · exact h
  rw [setup_eq]
  generalize beforeHoming t p = b at *
  have hs : b.ctrl.state = .stopped := by rw [c1]; rfl
  have hr : b.env.running = false := by simp [env, isRunning, hs]
  refine ⟨?_, fun i => by rw [withHomer_myInputs t _ _ (okAct_start _ _ _)]; exact hin i⟩
  have hroom : NoOverflow b.calls := by
    rw [c2]
    intro before e after he
    cases before with
    | nil => simp at he
    | cons x before => simp at he
  have hpend : pending b.calls = [] := by rw [c2]; rfl
  have hcalm : ∀ (s : MotionState) (q : List Event), q = [.homingError] ∨ q = [.homingStarted, .motionStarted] → Calm 0 s q := by
    rintro s q (rfl | rfl) <;>
      exact ⟨fun _ => by decide, fun _ => by decide, by decide, afterStop_of_notMem (by simp), by decide, by decide⟩
  rcases start_cases t.cfg b.env b.homer hr with ⟨h1, h2⟩ | ⟨h1, i, c, m, h2, h3⟩
  · unfold withHomer
    rw [h2]
    simp only [List.foldl_cons, List.foldl_nil, exec]
    refine roomy_push (b := b) (es := [.homingError]) hroom rfl (by simp) ?_
    rw [hpend]
    exact hcalm _ _ (.inl rfl)
  · unfold withHomer
    rw [h3]
    simp only [List.foldl_cons, exec]
    generalize hb' : push { b with homer := (Homer.start t.cfg b.env b.homer).1, acts := _ } Event.homingStarted = b'
    have hs' : b'.ctrl.state = .stopped := by rw [← hb']; exact hs
    have oq := order_calls t hs' m
    have hcalls : b'.calls = b.calls ++ [.push .homingStarted] := by rw [← hb']; rfl
    simp only [List.foldl_cons, exec] at oq
    refine roomy_push (b := b) (es := [.homingStarted, .motionStarted]) hroom ?_ (by simp) ?_
    · rw [oq, hcalls, List.append_assoc]; rfl
    · rw [hpend]
      exact hcalm _ _ (.inr rfl)

end Board
end Moovr
