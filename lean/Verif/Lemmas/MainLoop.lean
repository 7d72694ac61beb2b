import Verif.Model.MainLoop
import Verif.Spec.MainLoop
import Verif.Lemmas.EventBuffer
import Verif.Lemmas.Debounce
import Verif.Lemmas.Homing
import Verif.Lemmas.Inputs
import Verif.Lemmas.MotionCtrl
/-! Helper lemmas for the main loop. -/
namespace Moovr

namespace MotionCtrl
variable {K : MotionKit}

/-- Events of the motion controller. -/
def isMotionEvent (e : Event) : Bool :=
  [Event.motionCompleted, .allMotionsCompleted, .motionStarted, .stopRequested, .motionStopped, .motionBufferOverflow].contains e

/-- `c'` has reported more events than `c`, all of motion. -/
def Reported (c c' : MotionCtrl K) : Prop := ∃ es, c'.events = c.events ++ es ∧ ∀ e ∈ es, isMotionEvent e = true

theorem Reported.refl {c c' : MotionCtrl K} (h : c'.events = c.events) : Reported c c' := ⟨[], by simp [h], by simp⟩

theorem Reported.trans {a b c : MotionCtrl K} (h : Reported a b) (h' : Reported b c) : Reported a c := by
  obtain ⟨es, e1, e2⟩ := h
  obtain ⟨fs, f1, f2⟩ := h'
  refine ⟨es ++ fs, by rw [f1, e1, List.append_assoc], ?_⟩
  intro e he
  rcases List.mem_append.1 he with he | he
  · exact e2 e he
  · exact f2 e he

theorem Reported.one {c : MotionCtrl K} {e : Event} (h : isMotionEvent e = true) {c' : MotionCtrl K} (h' : c'.events = c.events ++ [e]) :
    Reported c c' := ⟨[e], h', by simpa using h⟩

theorem events_optimizePair (c : MotionCtrl K) (j : Nat) : (c.optimizePair j).events = c.events := rfl

theorem events_foldl_optimizePair (l : List Nat) (c : MotionCtrl K) : (l.foldl optimizePair c).events = c.events := by
  induction l generalizing c with
  | nil => rfl
  | cons j l ih => rw [List.foldl_cons, ih, events_optimizePair]

theorem events_optimize (c : MotionCtrl K) : c.optimize.events = c.events := by
  unfold optimize
  split
  · rfl
  · split
    · rfl
    · split <;> exact events_foldl_optimizePair _ _

theorem reported_start (c : MotionCtrl K) : Reported c c.start := by
  unfold start
  split
  · refine .one (e := .motionStarted) rfl ?_
    rw [events_optimize]; rfl
  · exact .refl rfl

theorem reported_stop (c : MotionCtrl K) : Reported c c.stop := by
  refine .one (e := .stopRequested) rfl ?_
  unfold stop
  rw [events_optimize]; rfl

theorem reported_flush (c : MotionCtrl K) : Reported c c.flushMotionBuffer := by
  unfold flushMotionBuffer
  split <;> exact .refl rfl

theorem reported_append (c : MotionCtrl K) (r : K.Req) : Reported c (c.append r) := by
  unfold append
  split
  · exact .refl rfl
  · exact .one (e := .motionBufferOverflow) rfl rfl

theorem reported_settle (fuel : Nat) (c : MotionCtrl K) (r) (h : settle fuel c = some r) : Reported c r.1 := by
  induction fuel generalizing c with
  | zero => simp [settle] at h
  | succ fuel ih =>
    unfold settle at h
    split at h
    · split at h
      · exact (Reported.one (e := .motionCompleted) rfl rfl).trans (ih c.nextMotion h)
      · simp only [Option.some.injEq] at h
        subst h
        exact ⟨[.motionStopped, .motionCompleted, .allMotionsCompleted], by simp [lastMotion, pushEvent], by decide⟩
    · simp only [Option.some.injEq] at h
      subst h
      exact .refl rfl

theorem reported_sample (c : MotionCtrl K) : Reported c c.sampleAndCheckStop := by
  unfold sampleAndCheckStop
  simp only
  split
  · exact .one (e := .motionStopped) rfl rfl
  · exact .refl rfl

theorem reported_tick (c : MotionCtrl K) (r) (h : c.tick = some r) : Reported c r.1 := by
  unfold tick at h
  simp only at h
  split at h
  · simp only [Option.map_eq_some_iff] at h
    obtain ⟨x, hx, rfl⟩ := h
    have h1 : Reported c { c with signals := c.signals.next } := .refl rfl
    exact (h1.trans (reported_sample _)).trans (reported_settle _ _ _ hx)
  · simp only [Option.some.injEq] at h
    subst h
    exact .refl rfl

theorem reported_calcLoop (fuel : Nat) (c : MotionCtrl K) (r) (h : calcLoop fuel c = some r) : Reported c r.1 := by
  induction fuel generalizing c r with
  | zero => simp [calcLoop] at h
  | succ fuel ih =>
    unfold calcLoop at h
    split at h
    · cases h
    · rename_i c' t ht
      have h1 := reported_tick c _ ht
      split at h
      · simp only [Option.some.injEq] at h
        subst h
        exact h1.trans (.refl rfl)
      · simp only [Option.map_eq_some_iff] at h
        obtain ⟨x, hx, rfl⟩ := h
        exact h1.trans (ih c' x hx)

theorem reported_calcNext (c : MotionCtrl K) (r) (h : c.calcNext = some r) : Reported c r.1 := reported_calcLoop _ _ _ h

end MotionCtrl

namespace LoopSpec
open EventQueueSpec EventBuffer

theorem offered_append (a b : List Call) : offered (a ++ b) = offered a ++ offered b := by simp [offered]

theorem offered_push (es : List Event) : offered (es.map .push) = es := by
  induction es with
  | nil => rfl
  | cons e es ih => simpa [offered] using ih

end LoopSpec

namespace Board
open EventQueueSpec EventBuffer LoopSpec
variable {K : MotionKit} (t : Target K)

/-- The events handed to the homing controller. -/
def handledEvents (acts : List HomingAct) : List Event :=
  acts.filterMap fun
    | .handled e => some e
    | _ => none

/-- The queue is what its calls make of it, and the homing controller has got what the queue has handed out. -/
structure Fifo (b : Board K) : Prop where
  queue : b.queue = after b.calls
  fifo : acceptedRev b.calls.reverse = handledEvents b.acts ++ pending b.calls

/-- From `b` to `b'` only pushes happened, of events `es`; inputs and homing controller are unchanged. -/
structure Pushed (b b' : Board K) (es : List Event) : Prop where
  inputs : b'.inputs = b.inputs
  myInputs : b'.myInputs = b.myInputs
  homer : b'.homer = b.homer
  acts : b'.acts = b.acts
  calls : b'.calls = b.calls ++ es.map .push
  fifo : Fifo b → Fifo b'

theorem Pushed.trans {a b c : Board K} {es fs : List Event} (h : Pushed a b es) (h' : Pushed b c fs) : Pushed a c (es ++ fs) :=
  ⟨h'.inputs.trans h.inputs, h'.myInputs.trans h.myInputs, h'.homer.trans h.homer, h'.acts.trans h.acts,
    by rw [h'.calls, h.calls, List.map_append, List.append_assoc], fun hf => h'.fifo (h.fifo hf)⟩

theorem pushed_push (b : Board K) (e : Event) : Pushed b (b.push e) [e] := by
  refine ⟨rfl, rfl, rfl, rfl, rfl, fun h => ⟨?_, ?_⟩⟩
  · simp only [push, onQueue, h.queue, after_snoc]
  · simp only [push, onQueue, List.reverse_append, List.reverse_singleton, List.singleton_append, acceptedRev, List.reverse_reverse,
      pending_snoc, next]
    split
    · rw [h.fifo, List.append_assoc]
    · exact h.fifo

theorem pushed_foldl (es : List Event) (b : Board K) : Pushed b (es.foldl push b) es := by
  induction es generalizing b with
  | nil => exact ⟨rfl, rfl, rfl, rfl, by simp, id⟩
  | cons e es ih => exact (pushed_push b e).trans (ih (b.push e))

theorem pushed_withCtrl {b : Board K} {c : MotionCtrl K} (h : MotionCtrl.Reported b.ctrl c) :
    ∃ es, Pushed b (b.withCtrl c) es ∧ ∀ e ∈ es, MotionCtrl.isMotionEvent e = true := by
  obtain ⟨es, h1, h2⟩ := h
  refine ⟨es, ?_, h2⟩
  have : c.events.drop b.ctrl.events.length = es := by rw [h1]; simp
  unfold withCtrl
  rw [this]
  have h0 : Pushed b { b with ctrl := c } [] := ⟨rfl, rfl, rfl, rfl, by simp, fun h => ⟨h.queue, h.fifo⟩⟩
  exact h0.trans (pushed_foldl es _)

theorem foldl_push_ctrl (es : List Event) (b : Board K) : (es.foldl push b).ctrl = b.ctrl := by
  induction es generalizing b with
  | nil => rfl
  | cons e es ih => rw [List.foldl_cons, ih]; rfl

theorem withCtrl_ctrl (b : Board K) (c : MotionCtrl K) : (b.withCtrl c).ctrl = c := by
  unfold withCtrl; rw [foldl_push_ctrl]

/-- An event that something happened (not one of the errors of the queue). -/
def Real (e : Event) : Prop := e ≠ .none ∧ e ≠ .eventBufferUnderflow ∧ e ≠ .eventBufferOverflow

theorem real_of_input {e : Event} (h : isInput e = true) : Real e := by
  cases e <;> first | (exact absurd h (by decide)) | exact ⟨by simp, by simp, by simp⟩

/-- Not an event of an input. -/
def Other (e : Event) : Prop := isInput e = false ∧ Real e

theorem other_of_motion {e : Event} (h : MotionCtrl.isMotionEvent e = true) : Other e := by
  cases e <;> first | (exact absurd h (by decide)) | exact ⟨rfl, by simp, by simp, by simp⟩

theorem pushed_fill (k : Nat) (b b' : Board K) (h : b.fill k = some b') : ∃ es, Pushed b b' es ∧ ∀ e ∈ es, Other e := by
  induction k generalizing b with
  | zero =>
    simp only [fill, Option.some.injEq] at h
    subst h
    exact ⟨[], ⟨rfl, rfl, rfl, rfl, by simp, id⟩, by simp⟩
  | succ k ih =>
    unfold fill at h
    split at h
    · cases h
    · rename_i r hr
      obtain ⟨es, p, o⟩ := pushed_withCtrl (MotionCtrl.reported_calcNext _ _ hr)
      obtain ⟨fs, p', o'⟩ := ih _ h
      refine ⟨es ++ fs, p.trans p', ?_⟩
      intro e he
      rcases List.mem_append.1 he with he | he
      · exact other_of_motion (o e he)
      · exact o' e he

/-- The events pushed by the homing controller itself. -/
def OkAct : HomingAct → Prop
  | .push e => Other e
  | _ => True

theorem pushed_exec (b : Board K) (a : HomingAct) (h : OkAct a) : ∃ es, Pushed b (b.exec t a) es ∧ ∀ e ∈ es, Other e := by
  have nothing : ∃ es, Pushed b b es ∧ ∀ e ∈ es, Other e := ⟨[], ⟨rfl, rfl, rfl, rfl, by simp, id⟩, by simp⟩
  have motion : ∀ c : MotionCtrl K, MotionCtrl.Reported b.ctrl c → ∃ es, Pushed b (b.withCtrl c) es ∧ ∀ e ∈ es, Other e := by
    intro c hc
    obtain ⟨es, p, o⟩ := pushed_withCtrl hc
    exact ⟨es, p, fun e he => other_of_motion (o e he)⟩
  cases a with
  | started => exact nothing
  | handled e => exact nothing
  | sawClosed i b => exact nothing
  | sawRunning b => exact nothing
  | push e => exact ⟨[e], pushed_push b e, fun x hx => by rw [List.mem_singleton.1 hx]; exact h⟩
  | stop => exact motion _ (MotionCtrl.reported_stop _)
  | flush => exact motion _ (MotionCtrl.reported_flush _)
  | append m => exact motion _ (MotionCtrl.reported_append _ _)
  | go => exact motion _ (MotionCtrl.reported_start _)

theorem pushed_execs (acts : List HomingAct) (b : Board K) (h : ∀ a ∈ acts, OkAct a) :
    ∃ es, Pushed b (acts.foldl (exec t) b) es ∧ ∀ e ∈ es, Other e := by
  induction acts generalizing b with
  | nil => exact ⟨[], ⟨rfl, rfl, rfl, rfl, by simp, id⟩, by simp⟩
  | cons a acts ih =>
    obtain ⟨es, p, o⟩ := pushed_exec t b a (h a (by simp))
    obtain ⟨fs, p', o'⟩ := ih (b.exec t a) (fun x hx => h x (by simp [hx]))
    refine ⟨es ++ fs, p.trans p', ?_⟩
    intro e he
    rcases List.mem_append.1 he with he | he
    · exact o e he
    · exact o' e he

/-! ### The homing controller -/

theorem okAct_enterState (cfg : HomingConfig) (env : HomingEnv) (h : Homer) : ∀ a ∈ Homer.enterState cfg env h, OkAct a := by
  intro a ha
  unfold Homer.enterState at ha
  simp only at ha
  split at ha <;> simp at ha <;> (rcases ha with rfl | rfl | rfl) <;> trivial

theorem okAct_goTo (cfg : HomingConfig) (env : HomingEnv) (h : Homer) (s : HomingState) :
    ∀ a ∈ (Homer.goTo cfg env h s).2, OkAct a := okAct_enterState _ _ _

theorem okAct_approach (cfg : HomingConfig) (env : HomingEnv) (h : Homer) : ∀ a ∈ (Homer.approach cfg env h).2, OkAct a := by
  intro a ha
  simp only [Homer.approach, Homer.goTo, List.mem_cons] at ha
  rcases ha with rfl | ha
  · trivial
  · exact okAct_enterState _ _ _ a ha

theorem okAct_react (cfg : HomingConfig) (env : HomingEnv) (h : Homer) (e : Event) : ∀ a ∈ (Homer.react cfg env h e).2, OkAct a := by
  unfold Homer.react
  simp only
  repeat' split
  all_goals first
    | (intro a ha; simp at ha)
    | exact okAct_approach _ _ _
    | exact okAct_goTo _ _ _ _

theorem okAct_start (cfg : HomingConfig) (env : HomingEnv) (h : Homer) : ∀ a ∈ (Homer.start cfg env h).2, OkAct a := by
  unfold Homer.start
  simp only
  split
  · split
    · intro a ha
      simp only [List.cons_append, List.nil_append, List.mem_cons] at ha
      rcases ha with rfl | rfl | rfl | ha
      · trivial
      · exact ⟨rfl, by simp [Real]⟩
      · trivial
      · exact okAct_goTo _ _ _ _ a ha
    · intro a ha
      simp only [List.cons_append, List.nil_append, List.mem_cons] at ha
      rcases ha with rfl | rfl | rfl | ha
      · trivial
      · exact ⟨rfl, by simp [Real]⟩
      · trivial
      · exact okAct_approach _ _ _ a ha
  · intro a ha
    simp only [List.mem_cons, List.not_mem_nil, or_false] at ha
    rcases ha with rfl | rfl
    · trivial
    · exact ⟨rfl, by simp [Real]⟩

/-- Never a `handled` among the actions of a reaction. -/
def Quiet (acts : List HomingAct) : Prop := handledEvents acts = []

theorem quiet_enterState (cfg : HomingConfig) (env : HomingEnv) (h : Homer) : Quiet (Homer.enterState cfg env h) := by
  unfold Homer.enterState Quiet
  simp only
  split <;> rfl

theorem quiet_goTo (cfg : HomingConfig) (env : HomingEnv) (h : Homer) (s : HomingState) : Quiet (Homer.goTo cfg env h s).2 :=
  quiet_enterState _ _ _

theorem quiet_cons {a : HomingAct} {l : List HomingAct} (ha : ∀ e, a ≠ .handled e) (h : Quiet l) : Quiet (a :: l) := by
  unfold Quiet handledEvents at *
  cases a with
  | handled e => exact absurd rfl (ha e)
  | _ => simpa using h

theorem quiet_approach (cfg : HomingConfig) (env : HomingEnv) (h : Homer) : Quiet (Homer.approach cfg env h).2 :=
  quiet_cons (by simp) (quiet_enterState _ _ _)

theorem quiet_react (cfg : HomingConfig) (env : HomingEnv) (h : Homer) (e : Event) : Quiet (Homer.react cfg env h e).2 := by
  unfold Homer.react
  simp only
  repeat' split
  all_goals first
    | rfl
    | exact quiet_approach _ _ _

theorem quiet_start (cfg : HomingConfig) (env : HomingEnv) (h : Homer) : Quiet (Homer.start cfg env h).2 := by
  unfold Homer.start
  simp only
  split
  · split
    · exact quiet_cons (by simp) (quiet_cons (by simp) (quiet_cons (by simp) (quiet_goTo _ _ _ _)))
    · exact quiet_cons (by simp) (quiet_cons (by simp) (quiet_cons (by simp) (quiet_approach _ _ _)))
  · rfl

theorem handledEvents_append (a b : List HomingAct) : handledEvents (a ++ b) = handledEvents a ++ handledEvents b := by
  simp [handledEvents]

theorem handled_handleEvents (cfg : HomingConfig) (env : HomingEnv) (h : Homer) (e : Event) :
    handledEvents (Homer.handleEvents cfg env h e).2 = [e] := by
  have := quiet_react cfg env h e
  unfold Quiet at this
  simp only [Homer.handleEvents]
  rw [← List.singleton_append, handledEvents_append, this]
  rfl

/-! ### Sampling -/

theorem sampleInputs (n : Nat) (b : Board K) :
    let b' := (List.range n).foldl sampleInput b
    let es := (List.range n).filterMap fun i =>
      let e := ((b.myInputs i).getEvent (b.inputs.get i)).2
      if e = .none then none else some e
    b'.inputs = b.inputs ∧
    (∀ i, b'.myInputs i = if i < n then ((b.myInputs i).getEvent (b.inputs.get i)).1 else b.myInputs i) ∧
    b'.homer = b.homer ∧ b'.acts = b.acts ∧ b'.ctrl = b.ctrl ∧ b'.calls = b.calls ++ es.map .push ∧ (Fifo b → Fifo b') := by
  induction n with
  | zero => simp
  | succ n ih =>
    simp only [List.range_succ, List.foldl_append, List.foldl_cons, List.foldl_nil, List.filterMap_append] at ih ⊢
    generalize (List.range n).foldl sampleInput b = c at ih ⊢
    obtain ⟨i1, i2, i3, i4, i4', i5, i6⟩ := ih
    have hn : c.myInputs n = b.myInputs n := by rw [i2, if_neg (Nat.lt_irrefl _)]
    have hin : c.inputs.get n = b.inputs.get n := by rw [i1]
    unfold sampleInput
    simp only [hn, hin]
    generalize hr : (b.myInputs n).getEvent (b.inputs.get n) = r
    have hmy : ∀ i, (if i = n then r.1 else c.myInputs i) =
        if i < n + 1 then ((b.myInputs i).getEvent (b.inputs.get i)).1 else b.myInputs i := by
      intro i
      by_cases hi : i = n
      · subst hi; simp [hr]
      · rw [if_neg hi, i2]
        by_cases hlt : i < n
        · rw [if_pos hlt, if_pos (by omega)]
        · rw [if_neg hlt, if_neg (by omega)]
    by_cases he : r.2 = .none
    · rw [if_neg (by simp [he])]
      exact ⟨i1, hmy, i3, i4, i4', by simp [i5, he, hr], fun h => ⟨(i6 h).queue, (i6 h).fifo⟩⟩
    · rw [if_pos (by simpa using fun h => he h.symm)]
      have hp := pushed_push ({ c with myInputs := fun j => if j = n then r.1 else c.myInputs j }) r.2
      refine ⟨hp.inputs.trans i1, fun i => (congrFun hp.myInputs i).trans (hmy i), hp.homer.trans i3, hp.acts.trans i4, i4', ?_,
        fun h => hp.fifo ⟨(i6 h).queue, (i6 h).fifo⟩⟩
      rw [hp.calls]
      simp [i5, he, hr]

/-! ### Rounds -/

/-- Input `i` after the sampling rounds `ps`. -/
def fed (p₀ : Ports) (ps : List Ports) (i : Nat) : DebouncedInput × List Event :=
  ((myInputs₀ i).doInitialize (pin i p₀)).feed (ps.map (pin i))

/-- The events of sampling round `r`. -/
def fedEvents (p₀ : Ports) (ps : List Ports) (r : Nat) : List Event :=
  (List.range 9).filterMap fun i =>
    let e := (fed p₀ ps i).2.getD r .none
    if e = .none then none else some e

/-- Invariant of the main loop: `ps` are the ports in the sampling rounds so far. -/
structure LoopInv (p₀ : Ports) (ps : List Ports) (b : Board K) : Prop where
  fifo : Fifo b
  inputs : ∀ i < 9, b.myInputs i = (fed p₀ ps i).1
  events : (offered b.calls).filter isInput = (List.range ps.length).flatMap (fedEvents p₀ ps)
  real : ∀ e ∈ offered b.calls, Real e

theorem get_sample (s : Inputs) (p : Ports) (i : Nat) (hi : i < 9) : (s.sample p).get i = pin i p := by
  have hg : (s.sample p).get i = (s.sample p).theInputs.getLsbD i := by
    rw [Inputs.get, if_neg (by simp only [Inputs.nmbrInputs]; omega), Inputs.testBit _ _ (by omega)]
  rw [hg]
  simp only [Inputs.sample, Inputs.inputMask, BitVec.getLsbD_xor, BitVec.getLsbD_or, BitVec.getLsbD_and, BitVec.getLsbD_ushiftRight, pin]
  have : i = 0 ∨ i = 1 ∨ i = 2 ∨ i = 3 ∨ i = 4 ∨ i = 5 ∨ i = 6 ∨ i = 7 ∨ i = 8 := by omega
  rcases this with rfl | rfl | rfl | rfl | rfl | rfl | rfl | rfl | rfl <;> simp

theorem filter_other {es : List Event} (h : ∀ e ∈ es, Other e) : es.filter isInput = [] := by
  rw [List.filter_eq_nil_iff]
  intro e he hc
  rw [(h e he).1] at hc
  cases hc

theorem LoopInv.pushed {p₀ : Ports} {ps : List Ports} {b b' : Board K} {es : List Event} (h : LoopInv p₀ ps b) (hp : Pushed b b' es)
    (ho : ∀ e ∈ es, Other e) : LoopInv p₀ ps b' :=
  ⟨hp.fifo h.fifo, fun i hi => by rw [hp.myInputs]; exact h.inputs i hi, by
    rw [hp.calls, offered_append, offered_push, List.filter_append, filter_other ho, List.append_nil]; exact h.events, by
    rw [hp.calls, offered_append, offered_push]
    intro e he
    rcases List.mem_append.1 he with he | he
    · exact h.real e he
    · exact (ho e he).2⟩

theorem fed_snoc (p₀ : Ports) (ps : List Ports) (p : Ports) (i : Nat) :
    fed p₀ (ps ++ [p]) i = (((fed p₀ ps i).1.getEvent (pin i p)).1, (fed p₀ ps i).2 ++ [((fed p₀ ps i).1.getEvent (pin i p)).2]) := by
  simp only [fed, List.map_append, List.map_cons, List.map_nil, DebouncedInput.feed_append, DebouncedInput.feed]

theorem length_fed (p₀ : Ports) (ps : List Ports) (i : Nat) : (fed p₀ ps i).2.length = ps.length := by
  simp [fed, DebouncedInput.length_feed]

theorem fedEvents_snoc (p₀ : Ports) (ps : List Ports) (p : Ports) (r : Nat) (hr : r < ps.length) :
    fedEvents p₀ (ps ++ [p]) r = fedEvents p₀ ps r := by
  unfold fedEvents
  congr 1
  funext i
  have : (fed p₀ (ps ++ [p]) i).2.getD r .none = (fed p₀ ps i).2.getD r .none := by
    rw [fed_snoc]
    simp only [List.getD_eq_getElem?_getD]
    rw [List.getElem?_append_left (by rw [length_fed]; exact hr)]
  rw [this]

theorem fedEvents_last (p₀ : Ports) (ps : List Ports) (p : Ports) :
    fedEvents p₀ (ps ++ [p]) ps.length = (List.range 9).filterMap fun i =>
      let e := ((fed p₀ ps i).1.getEvent (pin i p)).2
      if e = .none then none else some e := by
  unfold fedEvents
  congr 1
  funext i
  have : (fed p₀ (ps ++ [p]) i).2.getD ps.length .none = ((fed p₀ ps i).1.getEvent (pin i p)).2 := by
    rw [fed_snoc]
    simp only [List.getD_eq_getElem?_getD]
    rw [← length_fed p₀ ps i, List.getElem?_append_right (Nat.le_refl _)]
    simp
  rw [this]

theorem myInputs₀_events (i : Nat) (hi : i < 9) (high : Bool) :
    (if high then (myInputs₀ i).onClose else (myInputs₀ i).onOpen) = inputEvent i high := by
  have : i = 0 ∨ i = 1 ∨ i = 2 ∨ i = 3 ∨ i = 4 ∨ i = 5 ∨ i = 6 ∨ i = 7 ∨ i = 8 := by omega
  rcases this with rfl | rfl | rfl | rfl | rfl | rfl | rfl | rfl | rfl <;> cases high <;> rfl

theorem inputEvent_isInput (i : Nat) (hi : i < 9) (high : Bool) : isInput (inputEvent i high) = true ∧ inputEvent i high ≠ .none := by
  have : i = 0 ∨ i = 1 ∨ i = 2 ∨ i = 3 ∨ i = 4 ∨ i = 5 ∨ i = 6 ∨ i = 7 ∨ i = 8 := by omega
  rcases this with rfl | rfl | rfl | rfl | rfl | rfl | rfl | rfl | rfl <;> cases high <;> decide

theorem feed_keeps (d : DebouncedInput) (xs : List Bool) : (d.feed xs).1.onOpen = d.onOpen ∧ (d.feed xs).1.onClose = d.onClose := by
  induction xs generalizing d with
  | nil => exact ⟨rfl, rfl⟩
  | cons x xs ih =>
    obtain ⟨h1, h2⟩ := DebouncedInput.getEvent_events d x
    obtain ⟨i1, i2⟩ := ih (d.getEvent x).1
    exact ⟨i1.trans h1, i2.trans h2⟩

theorem getEvent_range (d : DebouncedInput) (x : Bool) :
    (d.getEvent x).2 = .none ∨ (d.getEvent x).2 = d.onClose ∨ (d.getEvent x).2 = d.onOpen := by
  unfold DebouncedInput.getEvent
  (repeat' split) <;> simp

theorem fed_event_isInput (p₀ : Ports) (ps : List Ports) (p : Ports) (i : Nat) (hi : i < 9)
    (h : ((fed p₀ ps i).1.getEvent (pin i p)).2 ≠ .none) : isInput ((fed p₀ ps i).1.getEvent (pin i p)).2 = true := by
  have hk := feed_keeps ((myInputs₀ i).doInitialize (pin i p₀)) (ps.map (pin i))
  have hd : ((myInputs₀ i).doInitialize (pin i p₀)).onOpen = (myInputs₀ i).onOpen ∧
      ((myInputs₀ i).doInitialize (pin i p₀)).onClose = (myInputs₀ i).onClose := by
    cases pin i p₀ <;> exact ⟨rfl, rfl⟩
  have h1 := (inputEvent_isInput i hi true).1
  have h2 := (inputEvent_isInput i hi false).1
  rw [← myInputs₀_events i hi] at h1 h2
  simp only [if_true, Bool.false_eq_true, if_false] at h1 h2
  have hk1 : (fed p₀ ps i).1.onOpen = (myInputs₀ i).onOpen := hk.1.trans hd.1
  have hk2 : (fed p₀ ps i).1.onClose = (myInputs₀ i).onClose := hk.2.trans hd.2
  rcases getEvent_range (fed p₀ ps i).1 (pin i p) with e | e | e
  · exact absurd e h
  · rw [e, hk2]; exact h1
  · rw [e, hk1]; exact h2

theorem flatMap_range_congr {α : Type} (n : Nat) (f g : Nat → List α) (h : ∀ r < n, f r = g r) :
    (List.range n).flatMap f = (List.range n).flatMap g := by
  induction n with
  | zero => rfl
  | succ n ih =>
    simp only [List.range_succ, List.flatMap_append, List.flatMap_cons, List.flatMap_nil, List.append_nil]
    rw [ih (fun r hr => h r (by omega)), h n (by omega)]

theorem filterMap_congr_mem {α β : Type} (l : List α) (f g : α → Option β) (h : ∀ a ∈ l, f a = g a) : l.filterMap f = l.filterMap g := by
  induction l with
  | nil => rfl
  | cons a l ih => simp only [List.filterMap_cons, h a (by simp), ih fun x hx => h x (by simp [hx])]

theorem LoopInv.sample {p₀ : Ports} {ps : List Ports} {b : Board K} (h : LoopInv p₀ ps b) (p : Ports) :
    LoopInv p₀ (ps ++ [p]) (b.sample p) ∧ (∃ es : List Event, (b.sample p).calls = b.calls ++ es.map .push) ∧ (b.sample p).homer = b.homer ∧
      (b.sample p).acts = b.acts ∧ (b.sample p).ctrl = b.ctrl := by
  obtain ⟨i1, i2, i3, i4, i4', i5, i6⟩ := sampleInputs nmbrInputs { b with inputs := b.inputs.sample p }
  have hev : ∀ i < 9, ((b.myInputs i).getEvent ((b.inputs.sample p).get i)) = (fed p₀ ps i).1.getEvent (pin i p) := by
    intro i hi
    rw [h.inputs i hi, get_sample _ _ _ hi]
  have hes : ((List.range nmbrInputs).filterMap fun i =>
      let e := ((b.myInputs i).getEvent ((b.inputs.sample p).get i)).2
      if e = .none then none else some e) = fedEvents p₀ (ps ++ [p]) ps.length := by
    rw [fedEvents_last]
    refine filterMap_congr_mem _ _ _ fun i hi => ?_
    simp only
    rw [hev i (List.mem_range.1 hi)]
  refine ⟨⟨i6 ⟨h.fifo.queue, h.fifo.fifo⟩, ?_, ?_, ?_⟩, ⟨_, i5⟩, i3, i4, i4'⟩
  · intro i hi
    rw [show (b.sample p).myInputs i = _ from i2 i, if_pos (show i < nmbrInputs from hi)]
    simp only
    rw [hev i hi, fed_snoc]
  · rw [show (b.sample p).calls = _ from i5]
    simp only
    rw [hes, offered_append, offered_push, List.filter_append, h.events]
    simp only [List.length_append, List.length_singleton, List.range_succ, List.flatMap_append, List.flatMap_cons,
      List.flatMap_nil, List.append_nil]
    rw [flatMap_range_congr _ _ _ fun r hr => fedEvents_snoc p₀ ps p r hr]
    congr 1
    rw [List.filter_eq_self]
    intro e he
    rw [fedEvents_last, List.mem_filterMap] at he
    obtain ⟨i, hi, he⟩ := he
    simp only at he
    split at he
    · cases he
    · rename_i hne
      simp only [Option.some.injEq] at he
      rw [← he]
      exact fed_event_isInput p₀ ps p i (List.mem_range.1 hi) hne
  · rw [show (b.sample p).calls = _ from i5, offered_append, offered_push]
    intro e he
    rcases List.mem_append.1 he with he | he
    · exact h.real e he
    · rw [List.mem_filterMap] at he
      obtain ⟨i, hi, he⟩ := he
      simp only at he
      split at he
      · cases he
      · rename_i hne
        simp only [Option.some.injEq] at he
        rw [← he]
        refine real_of_input ?_
        rw [hev i (List.mem_range.1 hi)] at hne ⊢
        exact fed_event_isInput p₀ ps p i (List.mem_range.1 hi) hne

/-- Handling at most one event. -/
theorem handle_spec (b : Board K) (h : Fifo b) :
    ∃ (es : List Event) (cs : List Call), (∀ e ∈ es, Other e) ∧ (b.handle t).calls = b.calls ++ cs ++ es.map .push ∧ (b.handle t).myInputs = b.myInputs ∧ Fifo (b.handle t) ∧
      handledEvents (b.handle t).acts = handledEvents b.acts ++ (pending b.calls).take 1 ∧ (cs = [.hasEvents] ∨ cs = [.hasEvents, .pop]) ∧
      pending (b.calls ++ cs) = (pending b.calls).drop 1 ∧
      ((b.handle t).homer, (b.handle t).acts) = (match (pending b.calls).head? with
        | none => (b.homer, b.acts)
        | some e => ((Homer.handleEvents t.cfg b.env b.homer e).1, b.acts ++ (Homer.handleEvents t.cfg b.env b.homer e).2)) := by
  have hq := h.queue
  have hst := stored_after b.calls
  have hlev : b.queue.level = (pending b.calls).length := by rw [hq]; exact level_after _
  by_cases hp : pending b.calls = []
  · have hh : b.queue.hasEvents = false := by simp [hasEvents, hlev, hp]
    have hb : b.handle t = b.onQueue .hasEvents := by simp [handle, hh]
    rw [hb]
    refine ⟨[], [.hasEvents], by simp, by simp [onQueue], rfl, ⟨?_, ?_⟩, by simp [onQueue, hp], .inl rfl, ?_, ?_⟩
    · simp only [onQueue, hq, after_snoc]
    · simp only [onQueue, List.reverse_append, List.reverse_singleton, List.singleton_append, acceptedRev, pending_snoc, next]
      exact h.fifo
    · simp [pending_snoc, next, hp]
    · simp [hp, onQueue]
  · obtain ⟨e, q, hq'⟩ : ∃ e q, pending b.calls = e :: q := by
      cases hpp : pending b.calls with
      | nil => exact absurd hpp hp
      | cons e q => exact ⟨e, q, rfl⟩
    have hpos : 0 < b.queue.level := by rw [hlev, hq']; simp
    have hh : b.queue.hasEvents = true := by simp [hasEvents, hpos]
    have hpop : (b.onQueue .hasEvents).queue.popEvent.2 = e := by
      have hwf := wf_after b.calls
      rw [← hq] at hwf hst
      obtain ⟨l, hl⟩ : ∃ l, b.queue.level = l + 1 := ⟨b.queue.level - 1, by omega⟩
      have h1 : (b.onQueue .hasEvents).queue = b.queue := rfl
      rw [h1, popEvent, if_pos hpos]
      have h2 : b.queue.stored = e :: q := hst.trans hq'
      simp only [stored, hl, Ring.contents_succ hwf.head_lt, List.cons.injEq] at h2
      exact h2.1
    generalize hb₂ : (b.onQueue .hasEvents).onQueue .pop = b₂
    have hb : b.handle t = b₂.withHomer t (Homer.handleEvents t.cfg b₂.env b₂.homer e) := by
      simp only [handle, hh, if_true, hpop, hb₂]
    have henv : b₂.env = b.env := by rw [← hb₂]; rfl
    have hhomer : b₂.homer = b.homer := by rw [← hb₂]; rfl
    have hacts : b₂.acts = b.acts := by rw [← hb₂]; rfl
    rw [henv, hhomer] at hb
    have hcalls : b₂.calls = b.calls ++ [.hasEvents, .pop] := by rw [← hb₂]; simp [onQueue]
    have hmy : b₂.myInputs = b.myInputs := by rw [← hb₂]; rfl
    have hqueue : b₂.queue = after b₂.calls := by
      rw [← hb₂]; simp only [onQueue, hq, after_snoc]
    have hok : ∀ a ∈ (Homer.handleEvents t.cfg b.env b.homer e).2, OkAct a := by
      intro a ha
      simp only [Homer.handleEvents, List.mem_cons] at ha
      rcases ha with rfl | ha
      · trivial
      · exact okAct_react _ _ _ _ a ha
    generalize hr : Homer.handleEvents t.cfg b.env b.homer e = r at *
    obtain ⟨es, hpu, ho⟩ := pushed_execs t r.2 { b₂ with homer := r.1, acts := b₂.acts ++ r.2 } hok
    have hrh : handledEvents r.2 = [e] := by rw [← hr]; exact handled_handleEvents _ _ _ _
    have hpend : pending (b.calls ++ [Call.hasEvents, .pop]) = q := by
      rw [show b.calls ++ [Call.hasEvents, .pop] = b.calls ++ [.hasEvents] ++ [.pop] by simp, pending_snoc, pending_snoc, hq']
      rfl
    refine ⟨es, [.hasEvents, .pop], ho, ?_, ?_, ?_, ?_, .inr rfl, ?_, ?_⟩
    · rw [hb]; unfold withHomer; rw [hpu.calls, hcalls]
    · rw [hb]; unfold withHomer; rw [hpu.myInputs]; exact hmy
    · rw [hb]; unfold withHomer
      refine hpu.fifo ⟨hqueue, ?_⟩
      simp only [hcalls, hacts, handledEvents_append, hrh, hpend]
      rw [show (b.calls ++ [Call.hasEvents, .pop]).reverse = Call.pop :: .hasEvents :: b.calls.reverse by simp]
      simp only [acceptedRev]
      rw [h.fifo, hq']
      simp
    · rw [hb]; unfold withHomer
      rw [hpu.acts]
      simp only [hacts, handledEvents_append, hrh, hq']
      rfl
    · rw [hpend, hq']; rfl
    · rw [hb]; unfold withHomer
      rw [hpu.acts, hpu.homer, hq']
      simp only [hacts, List.head?_cons, hr]

/-! ### The whole program -/

theorem run_snoc (cfg : HomingConfig) (h : Homer) (cs : List (Homer.Call × HomingEnv)) (c : Homer.Call × HomingEnv) :
    Homer.run cfg h (cs ++ [c]) = ((Homer.call cfg (Homer.run cfg h cs).1 c).1,
      (Homer.run cfg h cs).2 ++ (Homer.call cfg (Homer.run cfg h cs).1 c).2) := by
  induction cs generalizing h with
  | nil => simp [Homer.run]
  | cons x cs ih => simp [Homer.run, ih]

/-- The homing controller has been started and has handled the events handed to it, reading debounced switches. -/
def History (p₀ : Ports) (ps : List Ports) (b : Board K) : Prop :=
  ∃ hist : List (Homer.Call × HomingEnv), Homer.run t.cfg (.fresh t.cfg) hist = (b.homer, b.acts) ∧
    hist.map (·.1) = .start :: (handledEvents b.acts).map .event ∧
    ∀ x ∈ hist, ∃ ps', ps' <+: ps ∧ ∀ i < 9, x.2.closed i = (fed p₀ ps' i).1.isClosed

theorem History.mono {p₀ : Ports} {ps qs : List Ports} {b b' : Board K} (h : History t p₀ ps b) (hp : ps <+: qs) (h1 : b'.homer = b.homer)
    (h2 : b'.acts = b.acts) : History t p₀ qs b' := by
  obtain ⟨hist, e1, e2, e3⟩ := h
  refine ⟨hist, by rw [e1, h1, h2], by rw [e2, h2], fun x hx => ?_⟩
  obtain ⟨ps', a, b⟩ := e3 x hx
  exact ⟨ps', a.trans hp, b⟩

/-- The ports in the sampling rounds. -/
def sampled (rounds : List Round) : List Ports := (rounds.filter (·.expired)).map (·.ports)

theorem setup_inv (p : Ports) : LoopInv p [] (setup t p) ∧ History t p [] (setup t p) ∧
    ∃ es : List Event, (setup t p).calls = .reinit :: es.map .push := by
  generalize hb₀ : (fresh t).onQueue .reinit = b₀
  have f0 : Fifo b₀ := by
    rw [← hb₀]
    exact ⟨rfl, rfl⟩
  obtain ⟨my, hmy⟩ : ∃ my : Nat → DebouncedInput, my = fun i =>
    if i < nmbrInputs then (b₀.myInputs i).doInitialize ((b₀.inputs.sample p).get i) else b₀.myInputs i := ⟨_, rfl⟩
  have hmy' : ∀ i < 9, my i = (fed p [] i).1 := by
    intro i hi
    rw [hmy]
    simp only
    rw [if_pos (show i < nmbrInputs from hi), get_sample _ _ _ hi, ← hb₀]
    rfl
  generalize hb₁ : ({ b₀ with inputs := b₀.inputs.sample p, myInputs := my } : Board K) = b₁
  have f1 : Fifo b₁ := by rw [← hb₁]; exact ⟨f0.queue, f0.fifo⟩
  have hc1 : b₁.calls = [.reinit] := by rw [← hb₁, ← hb₀]; rfl
  obtain ⟨es₂, p₂, o₂⟩ := pushed_withCtrl (b := b₁) (c := b₁.ctrl.configure t.maxTicks t.width) (.refl rfl)
  generalize hb₂ : b₁.withCtrl (b₁.ctrl.configure t.maxTicks t.width) = b₂ at *
  obtain ⟨es₃, p₃, o₃⟩ := pushed_withCtrl (b := b₂) (c := b₂.ctrl.resetMachinePosition) (.refl rfl)
  generalize hb₃ : b₂.withCtrl b₂.ctrl.resetMachinePosition = b₃ at *
  have p₁₃ := p₂.trans p₃
  have hset : setup t p = b₃.withHomer t (Homer.start t.cfg b₃.env b₃.homer) := by
    rw [← hb₃, ← hb₂, ← hb₁, hmy, ← hb₀]; rfl
  have hok := okAct_start t.cfg b₃.env b₃.homer
  have hqu := quiet_start t.cfg b₃.env b₃.homer
  have hh : b₃.homer = .fresh t.cfg := by rw [p₁₃.homer, ← hb₁, ← hb₀]; rfl
  have ha : b₃.acts = [] := by rw [p₁₃.acts, ← hb₁, ← hb₀]; rfl
  generalize hr : Homer.start t.cfg b₃.env b₃.homer = r at *
  obtain ⟨es, hpu, ho⟩ := pushed_execs t r.2 { b₃ with homer := r.1, acts := b₃.acts ++ r.2 } hok
  have hs : setup t p = r.2.foldl (exec t) { b₃ with homer := r.1, acts := b₃.acts ++ r.2 } := hset
  have hoff : (setup t p).calls = .reinit :: (es₂ ++ es₃ ++ es).map .push := by
    rw [hs, hpu.calls]
    simp only [p₁₃.calls, hc1]
    simp
  have hmy3 : ∀ i < 9, b₃.myInputs i = (fed p [] i).1 := by
    intro i hi
    rw [p₁₃.myInputs, ← hb₁]
    exact hmy' i hi
  have hoth : ∀ e ∈ es₂ ++ es₃ ++ es, Other e := by
    intro e he
    simp only [List.mem_append] at he
    rcases he with (he | he) | he
    · exact other_of_motion (o₂ e he)
    · exact other_of_motion (o₃ e he)
    · exact ho e he
  have hoff' : offered (setup t p).calls = es₂ ++ es₃ ++ es := by
    rw [hoff, show offered (Call.reinit :: (es₂ ++ es₃ ++ es).map .push) = offered ((es₂ ++ es₃ ++ es).map .push) from rfl, offered_push]
  refine ⟨⟨?_, ?_, ?_, ?_⟩, ?_, _, hoff⟩
  · rw [hs]
    refine hpu.fifo ?_
    have f3 := p₁₃.fifo f1
    refine ⟨f3.queue, ?_⟩
    simp only [handledEvents_append]
    rw [show handledEvents r.2 = [] from hqu, List.append_nil]
    exact f3.fifo
  · intro i hi
    rw [hs, hpu.myInputs]
    exact hmy3 i hi
  · rw [hoff', filter_other hoth]
    rfl
  · rw [hoff']
    exact fun e he => (hoth e he).2
  · refine ⟨[(.start, b₃.env)], ?_, ?_, ?_⟩
    · rw [hs, hpu.homer, hpu.acts]
      simp only [ha, List.nil_append, Homer.run, Homer.call, List.append_nil]
      rw [← hh, hr]
    · rw [hs, hpu.acts]
      simp only [ha, List.nil_append, List.map_cons, List.map_nil]
      rw [show handledEvents r.2 = [] from hqu]
      rfl
    · intro x hx
      rw [List.mem_singleton] at hx
      subst hx
      refine ⟨[], List.prefix_rfl, fun i hi => ?_⟩
      simp only [env]
      rw [hmy3 i hi]

/-- One iteration. -/
theorem loop_inv {p₀ : Ports} {ps : List Ports} {b b' : Board K} {r : Round} (h : LoopInv p₀ ps b) (hh : History t p₀ ps b)
    (hl : b.loop t r = some b') :
    LoopInv p₀ (ps ++ sampled [r]) b' ∧ History t p₀ (ps ++ sampled [r]) b' ∧
    ∃ (es fs : List Event) (cs : List Call), b'.calls = b.calls ++ es.map .push ++ cs ++ fs.map .push ∧ (cs = [.hasEvents] ∨ cs = [.hasEvents, .pop]) ∧
      pending (b.calls ++ es.map .push ++ cs) = (pending (b.calls ++ es.map .push)).drop 1 ∧
      handledEvents b'.acts = handledEvents b.acts ++ (pending (b.calls ++ es.map .push)).take 1 := by
  unfold loop at hl
  split at hl
  · cases hl
  · rename_i b₁ hf
    simp only [Option.some.injEq] at hl
    obtain ⟨es₁, p₁, o₁⟩ := pushed_fill _ _ _ hf
    have i₁ := h.pushed p₁ o₁
    have hh₁ : History t p₀ ps b₁ := hh.mono t List.prefix_rfl p₁.homer p₁.acts
    generalize hb₂ : (if r.expired = true then b₁.sample r.ports else b₁) = b₂ at hl
    have key : LoopInv p₀ (ps ++ sampled [r]) b₂ ∧ (∃ es : List Event, b₂.calls = b₁.calls ++ es.map .push) ∧ b₂.homer = b₁.homer ∧
        b₂.acts = b₁.acts := by
      rw [← hb₂]
      cases he : r.expired
      · simp only [sampled, List.filter_cons, he, Bool.false_eq_true, if_false, List.filter_nil, List.map_nil, List.append_nil]
        exact ⟨i₁, ⟨[], by simp⟩, by simp, by simp⟩
      · obtain ⟨a1, a2, a3, a4, -⟩ := i₁.sample r.ports
        simp only [sampled, List.filter_cons, he, if_true, List.filter_nil, List.map_cons, List.map_nil]
        exact ⟨a1, a2, a3, a4⟩
    obtain ⟨i₂, ⟨es₂, hc₂⟩, hho, hac⟩ := key
    have hh₂ : History t p₀ (ps ++ sampled [r]) b₂ := hh₁.mono t (List.prefix_append _ _) hho hac
    obtain ⟨fs, cs, o, hc, hm, hfi, hha, hoc, hpe, hst⟩ := handle_spec t b₂ i₂.fifo
    rw [hl] at hc hm hfi hha hst
    have hcb : b₂.calls = b.calls ++ (es₁ ++ es₂).map .push := by rw [hc₂, p₁.calls]; simp
    refine ⟨⟨hfi, ?_, ?_, ?_⟩, ?_, es₁ ++ es₂, fs, cs, ?_, hoc, ?_, ?_⟩
    · intro i hi; rw [hm]; exact i₂.inputs i hi
    · have hoc' : offered cs = [] := by rcases hoc with rfl | rfl <;> rfl
      rw [hc, offered_append, offered_append, hoc', offered_push, List.append_nil, List.filter_append, filter_other o, List.append_nil]
      exact i₂.events
    · have hoc' : offered cs = [] := by rcases hoc with rfl | rfl <;> rfl
      rw [hc, offered_append, offered_append, hoc', offered_push, List.append_nil]
      intro e he
      rcases List.mem_append.1 he with he | he
      · exact i₂.real e he
      · exact (o e he).2
    · cases hq : (pending b₂.calls).head? with
      | none =>
        rw [hq] at hst
        simp only [Prod.mk.injEq] at hst
        exact hh₂.mono t List.prefix_rfl hst.1 hst.2
      | some e =>
        rw [hq] at hst
        simp only [Prod.mk.injEq] at hst
        obtain ⟨hist, e1, e2, e3⟩ := hh₂
        refine ⟨hist ++ [(.event e, b₂.env)], ?_, ?_, ?_⟩
        · rw [run_snoc, e1, hst.1, hst.2]; rfl
        · rw [List.map_append, e2, hst.2, handledEvents_append, handled_handleEvents]
          simp
        · intro x hx
          rcases List.mem_append.1 hx with hx | hx
          · exact e3 x hx
          · rw [List.mem_singleton] at hx
            subst hx
            refine ⟨_, List.prefix_rfl, fun i hi => ?_⟩
            simp only [env]
            rw [i₂.inputs i hi]
    · rw [hc, hcb]
    · rw [← hcb]; exact hpe
    · rw [hha, hac, p₁.acts, hcb]

theorem loops_inv {p₀ : Ports} (rounds : List Round) {ps : List Ports} {b b' : Board K} (h : LoopInv p₀ ps b) (hh : History t p₀ ps b)
    (hc : ∃ cs, b.calls = .reinit :: cs ∧ Call.reinit ∉ cs) (hl : b.loops t rounds = some b') :
    LoopInv p₀ (ps ++ sampled rounds) b' ∧ History t p₀ (ps ++ sampled rounds) b' ∧ ∃ cs, b'.calls = .reinit :: cs ∧ Call.reinit ∉ cs := by
  induction rounds generalizing ps b with
  | nil =>
    simp only [loops, Option.some.injEq] at hl
    subst hl
    simpa [sampled] using ⟨h, hh, hc⟩
  | cons r rs ih =>
    unfold loops at hl
    split at hl
    · cases hl
    · rename_i b₁ h₁
      obtain ⟨a1, a2, a3⟩ := loop_inv t h hh h₁
      obtain ⟨es, fs, cs, c1, c2, -⟩ := a3
      obtain ⟨cs₀, d1, d2⟩ := hc
      have hs : sampled (r :: rs) = sampled [r] ++ sampled rs := by
        simp only [sampled, List.filter_cons, List.filter_nil]
        split <;> simp
      rw [hs, ← List.append_assoc]
      refine ih a1 a2 ⟨cs₀ ++ es.map .push ++ cs ++ fs.map .push, by rw [c1, d1]; simp, ?_⟩ hl
      simp only [List.mem_append, List.mem_map, reduceCtorEq, and_false, exists_false, or_false]
      rintro (h | h)
      · exact d2 h
      · rcases c2 with rfl | rfl <;> simp at h

end Board
end Moovr
