import Verif.Model.MotionCtrl
import Verif.Lemmas.Ring
import Verif.Lemmas.StepSignals
/-! Helper lemmas about the motion controller. -/
namespace Moovr.MotionCtrl
open PulseSpec (Dir Cmd)
open MotionSpec Ring
variable {K : MotionKit}

/-- The requests of the waiting motions, oldest first. -/
def requests (c : MotionCtrl K) : List (Option K.Req) :=
  contents 32 (fun i => (c.buffer.cells i).request) c.buffer.head c.buffer.level

/-- Abstract state of a controller. -/
def abs (c : MotionCtrl K) : Abs (Option K.Req) := ⟨c.requests, c.state⟩

/-- `c'` differs from `c` at most in the speed profiles of the buffered motions. -/
structure SameButProf (c c' : MotionCtrl K) : Prop where
  pos : c'.machinePosition = c.machinePosition
  state : c'.state = c.state
  ovr : c'.overrides = c.overrides
  time : c'.time = c.time
  signals : c'.signals = c.signals
  events : c'.events = c.events
  head : c'.buffer.head = c.buffer.head
  level : c'.buffer.level = c.buffer.level
  cells : ∀ i, (c'.buffer.cells i).request = (c.buffer.cells i).request

theorem SameButProf.refl (c : MotionCtrl K) : SameButProf c c := ⟨rfl, rfl, rfl, rfl, rfl, rfl, rfl, rfl, fun _ => rfl⟩

theorem SameButProf.trans {c c' c'' : MotionCtrl K} (h : SameButProf c c') (h' : SameButProf c' c'') :
    SameButProf c c'' :=
  ⟨h'.pos.trans h.pos, h'.state.trans h.state, h'.ovr.trans h.ovr, h'.time.trans h.time, h'.signals.trans h.signals,
    h'.events.trans h.events, h'.head.trans h.head, h'.level.trans h.level, fun i => (h'.cells i).trans (h.cells i)⟩

/-- Same for buffers. -/
structure SameBuf (b b' : MotionBuffer K) : Prop where
  head : b'.head = b.head
  level : b'.level = b.level
  cells : ∀ i, (b'.cells i).request = (b.cells i).request

theorem SameBuf.upd {b b' : MotionBuffer K} (h : SameBuf b b') (i : Nat) (f : Motion K → K.Prof) :
    SameBuf b (b'.updProf i f) := by
  refine ⟨h.head, h.level, fun j => ?_⟩
  rw [← h.cells j]
  simp only [MotionBuffer.updProf]
  split
  · subst_vars; rfl
  · rfl

theorem SameBuf.refl (b : MotionBuffer K) : SameBuf b b := ⟨rfl, rfl, fun _ => rfl⟩

theorem SameBuf.ctrl {c : MotionCtrl K} {b : MotionBuffer K} (h : SameBuf c.buffer b) :
    SameButProf c { c with buffer := b } :=
  ⟨rfl, rfl, rfl, rfl, rfl, rfl, h.head, h.level, h.cells⟩

theorem sameButProf_pair (c : MotionCtrl K) (j : Nat) : SameButProf c (c.optimizePair j) := by
  unfold optimizePair
  apply SameBuf.ctrl
  apply SameBuf.upd
  apply SameBuf.upd
  split
  · exact (((SameBuf.refl _).upd _ _).upd _ _).upd _ _
  · exact ((SameBuf.refl _).upd _ _).upd _ _

theorem sameButProf_foldl (l : List Nat) (c : MotionCtrl K) : SameButProf c (l.foldl optimizePair c) := by
  induction l generalizing c with
  | nil => exact .refl c
  | cons j l ih => exact (sameButProf_pair c j).trans (ih _)

theorem sameButProf_optimize (c : MotionCtrl K) : SameButProf c c.optimize := by
  unfold optimize
  split
  · exact .refl c
  · split
    · exact SameBuf.ctrl ((SameBuf.refl _).upd _ _)
    · split
      · exact sameButProf_foldl _ c
      · exact sameButProf_foldl _ c

theorem SameButProf.requests {c c' : MotionCtrl K} (h : SameButProf c c') : c'.requests = c.requests := by
  unfold MotionCtrl.requests
  rw [h.head, h.level]
  exact contents_congr fun i _ => h.cells _

theorem commands_none (n : Nat) (s : StepSignals) : s.commands n (fun _ => none) = s := by
  unfold StepSignals.commands
  generalize List.range n = l
  induction l with
  | nil => rfl
  | cons x l ih => exact ih

/-- The effect of the inner loop. `k` motions leave. -/
structure Settled (c c' : MotionCtrl K) (cmd : Nat → Cmd) (act : Option (Option K.Req)) (k : Nat) : Prop where
  le : k ≤ c.buffer.level
  level : c'.buffer.level = c.buffer.level - k
  head : c'.buffer.head < 32
  requests : c'.requests = c.requests.drop k
  signals : c'.signals = c.signals.commands K.n cmd
  pos : ∀ a, c'.machinePosition a = c.machinePosition a + stepsOf (cmd a)
  cases :
    (k < c.buffer.level ∧ c'.state = c.state ∧ c'.events = c.events ++ List.replicate k .motionCompleted ∧
      act = c'.requests.head?) ∨
    (k = c.buffer.level ∧ c'.state = .stopped ∧
      c'.events = c.events ++ (List.replicate (k - 1) .motionCompleted ++
        [.motionStopped, .motionCompleted, .allMotionsCompleted]) ∧ act = none ∧ cmd = fun _ => none)

theorem move_pos (c : MotionCtrl K) (a : Nat) :
    c.move.1.machinePosition a = c.machinePosition a + stepsOf (c.move.2 a) := by
  simp only [move]
  cases c.decision a with
  | none => simp [stepsOf]
  | some d => cases d <;> simp [stepsOf]; omega

theorem requests_pos (c : MotionCtrl K) (h : 1 ≤ c.buffer.level) (hh : c.buffer.head < 32) :
    c.requests = c.buffer.getHead.request ::
      contents 32 (fun i => (c.buffer.cells i).request) ((c.buffer.head + 1) % 32) (c.buffer.level - 1) := by
  unfold requests
  obtain ⟨l, hl⟩ : ∃ l, c.buffer.level = l + 1 := ⟨c.buffer.level - 1, by omega⟩
  rw [hl, contents_succ hh]
  rfl

theorem requests_nextMotion (c : MotionCtrl K) (h1 : 1 ≤ c.buffer.level) (h2 : c.buffer.level ≤ 32)
    (hh : c.buffer.head < 32) : c.nextMotion.requests = c.requests.tail := by
  have hlev : u32sub c.buffer.level 1 = c.buffer.level - 1 := u32sub_of_le (by omega) (by omega)
  rw [requests_pos c h1 hh]
  simp only [requests, nextMotion, pushEvent, MotionBuffer.pop, hlev, MotionBuffer.length, List.tail_cons]

theorem settle_spec (fuel : Nat) (c : MotionCtrl K) (hh : c.buffer.head < 32) (h1 : 1 ≤ c.buffer.level)
    (h2 : c.buffer.level ≤ 32) (hf : c.buffer.level ≤ fuel) :
    ∃ c' cmd act k, settle fuel c = some (c', cmd, act) ∧ Settled c c' cmd act k := by
  induction fuel generalizing c with
  | zero => omega
  | succ fuel ih =>
    have hlev : u32sub c.buffer.level 1 = c.buffer.level - 1 := u32sub_of_le (by omega) (by omega)
    unfold settle
    split
    · split
      · rename_i hb hl
        have hnl : c.nextMotion.buffer.level = c.buffer.level - 1 := hlev
        obtain ⟨c', cmd, act, k, he, hs⟩ := ih c.nextMotion
          (Nat.mod_lt _ (by decide)) (by omega) (by omega) (by omega)
        refine ⟨c', cmd, act, k + 1, he, ?_⟩
        obtain ⟨a1, a2, a3, a4, a5, a6, a7⟩ := hs
        have hne : c.nextMotion.events = c.events ++ [.motionCompleted] := rfl
        rw [hnl] at a1 a2 a7
        rw [hne] at a7
        refine ⟨by omega, by omega, a3, ?_, a5, a6, ?_⟩
        · rw [a4, requests_nextMotion c h1 h2 hh, List.drop_tail]
        · rcases a7 with ⟨b1, b2, b3, b4⟩ | ⟨b1, b2, b3, b4, b5⟩
          · left
            refine ⟨by omega, b2, ?_, b4⟩
            rw [b3, List.append_assoc, List.replicate_succ, List.singleton_append]
          · right
            refine ⟨by omega, b2, ?_, b4, b5⟩
            rw [b3]
            obtain ⟨m, rfl⟩ : ∃ m, k = m + 1 := ⟨k - 1, by omega⟩
            simp [List.replicate_succ]
      · rename_i hb hl
        have h1' : c.buffer.level = 1 := by omega
        have hlv : c.lastMotion.buffer.level = c.buffer.level - 1 := hlev
        refine ⟨_, _, _, 1, rfl, ⟨h1, hlv, ?_, ?_, ?_, ?_, ?_⟩⟩
        · exact Nat.mod_lt _ (by decide)
        · rw [requests_pos c h1 hh]
          unfold requests
          rw [hlv, h1']
          simp
        · simp [lastMotion, pushEvent, commands_none]
        · simp [lastMotion, pushEvent, stepsOf]
        · right
          refine ⟨h1'.symm, rfl, ?_, rfl, rfl⟩
          simp [lastMotion, pushEvent]
    · refine ⟨_, _, _, 0, rfl, ⟨by omega, rfl, hh, rfl, rfl, move_pos c, ?_⟩⟩
      left
      refine ⟨by omega, rfl, by simp [move], ?_⟩
      have hr : c.move.1.requests = c.requests := rfl
      rw [hr, requests_pos c h1 hh]
      rfl

/-- Invariant of the queue. -/
structure QInv (c : MotionCtrl K) : Prop where
  head : c.buffer.head < 32
  level : c.buffer.level ≤ 32
  busy : c.state ≠ .stopped → 1 ≤ c.buffer.level

/-- Everything a tick does to the parts not seen by `abs`. -/
structure TickEffect (c : MotionCtrl K) (t : Tick (Option K.Req)) (c' : MotionCtrl K) : Prop where
  inv : QInv c'
  events : c'.events = c.events ++ t.events
  signals : c'.signals = c.signals.tick K.n t.cmd
  pos : ∀ a, c'.machinePosition a = c.machinePosition a + stepsOf (t.cmd a)

theorem count_replicate_mc (k : Nat) : (List.replicate k Event.motionCompleted).count .motionCompleted = k := by
  simp

theorem tick_spec (c : MotionCtrl K) (h : QInv c) :
    ∃ c' t, c.tick = some (c', t) ∧ TickEffect c t c' ∧ TickOk c.abs t c'.abs := by
  unfold tick
  simp only
  by_cases hst : c.state = .stopped
  · rw [if_neg (by simp [isRunning, hst])]
    have hr : requests { c with signals := c.signals.next } = c.requests := rfl
    refine ⟨_, _, rfl, ⟨⟨h.head, h.level, h.busy⟩, by simp, ?_, by simp [stepsOf]⟩, ?_⟩
    · simp [StepSignals.tick, commands_none]
    · refine ⟨?_, ?_, ?_, ?_, ?_, ?_, ?_, ?_, ?_⟩ <;> first | (simp [abs, hst]; done) | simp [abs, hr]
  · rw [if_pos (by simp [isRunning, hst])]
    have hl := h.busy hst
    -- the state in which the inner loop starts
    generalize hc₃ : sampleAndCheckStop { c with signals := c.signals.next } = c₃
    have hc₃' : ∃ pre, (pre = [] ∨ pre = [Event.motionStopped]) ∧ c₃.events = c.events ++ pre ∧
        c₃.state = (if pre = [] then c.state else .stopped) ∧ c₃.buffer = c.buffer ∧ c₃.signals = c.signals.next ∧
        c₃.machinePosition = c.machinePosition := by
      rw [← hc₃]
      unfold sampleAndCheckStop
      simp only
      split
      · exact ⟨[.motionStopped], .inr rfl, rfl, by simp [pushEvent], rfl, rfl, rfl⟩
      · exact ⟨[], .inl rfl, by simp, by simp, rfl, rfl, rfl⟩
    obtain ⟨pre, hpre, hev, hsta, hbuf, hsig, hpos⟩ := hc₃'
    have hreq : c₃.requests = c.requests := by unfold requests; rw [hbuf]
    obtain ⟨c', cmd, act, k, he, hs⟩ := settle_spec (c₃.buffer.level + 1) c₃ (by rw [hbuf]; exact h.head)
      (by rw [hbuf]; exact hl) (by rw [hbuf]; exact h.level) (by omega)
    have hlen : c.requests.length = c.buffer.level := by simp [requests]
    have hl32 := h.level
    obtain ⟨a1, a2, a3, a4, a5, a6, a7⟩ := hs
    rw [hbuf] at a1 a2 a7
    rw [hreq] at a4
    rw [hsig] at a5
    rw [hpos] at a6
    rw [hev] at a7
    refine ⟨c', ⟨cmd, c'.events.drop c.events.length, act⟩, ?_, ?_, ?_⟩
    · simp [he]
    · refine ⟨⟨a3, by omega, ?_⟩, ?_, a5, a6⟩
      · intro hne
        rcases a7 with ⟨b1, b2, b3, b4⟩ | ⟨b1, b2, b3, b4, b5⟩
        · omega
        · exact absurd b2 hne
      · rcases a7 with ⟨b1, b2, b3, b4⟩ | ⟨b1, b2, b3, b4, b5⟩
        · simp [b3]
        · simp [b3]
    · have hevents : c'.events.drop c.events.length = pre ++ (if k < c.buffer.level
          then List.replicate k .motionCompleted
          else List.replicate (k - 1) .motionCompleted ++ [.motionStopped, .motionCompleted, .allMotionsCompleted]) := by
        rcases a7 with ⟨b1, b2, b3, b4⟩ | ⟨b1, b2, b3, b4, b5⟩
        · rw [b3, if_pos b1]; simp
        · rw [b3, if_neg (by omega)]; simp
      have hprec : pre.count Event.motionCompleted = 0 := by rcases hpre with rfl | rfl <;> simp
      have hprea : Event.allMotionsCompleted ∉ pre := by rcases hpre with rfl | rfl <;> simp
      have hprem : Event.motionStopped ∈ pre ↔ pre ≠ [] := by rcases hpre with rfl | rfl <;> simp
      have hpreo : ∀ e ∈ pre, e = Event.motionStopped := by rcases hpre with rfl | rfl <;> simp
      rw [hevents]
      rcases a7 with ⟨b1, b2, b3, b4⟩ | ⟨b1, b2, b3, b4, b5⟩
      · rw [if_pos b1]
        have hcount : (pre ++ List.replicate k Event.motionCompleted).count .motionCompleted = k := by
          rw [List.count_append, hprec, count_replicate_mc, Nat.zero_add]
        have hne : c'.requests ≠ [] := by
          rw [a4]; intro h0; have := congrArg List.length h0; simp [hlen] at this; omega
        refine ⟨?_, ?_, ?_, ?_, ?_, ?_, ?_, ?_, ?_⟩
        · simp only [abs, hcount]; exact a4
        · simp only [abs, hcount, hlen]; exact a1
        · exact fun h0 => absurd h0 hst
        · intro _
          simp only [abs, b2, hsta, List.mem_append, hprem, List.mem_replicate, reduceCtorEq, and_false, or_false]
          by_cases hp : pre = [] <;> simp [hp]
        · simp only [abs, hne, and_false, List.mem_append, hprea, List.mem_replicate, reduceCtorEq, or_false]
        · intro h0
          simp [hprea, List.mem_replicate] at h0
        · intro e he
          rcases List.mem_append.1 he with he | he
          · exact .inl (hpreo e he)
          · exact .inr (.inl (List.mem_replicate.1 he).2)
        · simp [abs, hst, b4]
        · intro h0
          simp only [b4, List.head?_eq_none_iff] at h0
          exact absurd h0 hne
      · rw [if_neg (by omega)]
        have hk : 1 ≤ k := by omega
        have hcount : (pre ++ (List.replicate (k - 1) Event.motionCompleted ++
            [Event.motionStopped, .motionCompleted, .allMotionsCompleted])).count .motionCompleted = k := by
          rw [List.count_append, List.count_append, hprec, count_replicate_mc]
          have : List.count Event.motionCompleted [Event.motionStopped, .motionCompleted, .allMotionsCompleted] = 1 := by
            decide
          omega
        have hnil : c'.requests = [] := by
          rw [a4, b1, ← hlen, List.drop_length]
        have hne : c.requests ≠ [] := by
          intro h0; rw [h0] at hlen; simp at hlen; omega
        refine ⟨?_, ?_, ?_, ?_, ?_, ?_, ?_, ?_, ?_⟩
        · simp only [abs, hcount]; exact a4
        · simp only [abs, hcount, hlen]; exact a1
        · exact fun h0 => absurd h0 hst
        · intro _; simp [abs, b2]
        · simp [abs, hnil, hne]
        · intro _
          refine ⟨pre ++ List.replicate (k - 1) .motionCompleted, by simp, ?_⟩
          simp [hprea, List.mem_replicate]
        · intro e he
          rcases List.mem_append.1 he with he | he
          · exact .inl (hpreo e he)
          · rcases List.mem_append.1 he with he | he
            · exact .inr (.inl (List.mem_replicate.1 he).2)
            · simpa using he
        · simp [abs, hst, b4, hnil]
        · intro _ a; rw [b5]

/-- The inner loop never runs out of rounds, in any state. -/
theorem settle_returns (fuel : Nat) (c : MotionCtrl K) (hf : c.buffer.level < fuel) : (settle fuel c).isSome := by
  induction fuel generalizing c with
  | zero => omega
  | succ fuel ih =>
    unfold settle
    split
    · split
      · rename_i hl
        apply ih
        show u32sub c.buffer.level 1 < fuel
        unfold u32sub
        omega
      · rfl
    · rfl

theorem settle_signals (fuel : Nat) (c : MotionCtrl K) (r) (h : settle fuel c = some r) :
    r.1.signals = c.signals.commands K.n r.2.1 := by
  induction fuel generalizing c with
  | zero => simp [settle] at h
  | succ fuel ih =>
    unfold settle at h
    split at h
    · split at h
      · exact ih c.nextMotion h
      · simp only [Option.some.injEq] at h; subst h; simp [lastMotion, pushEvent, commands_none]
    · simp only [Option.some.injEq] at h; subst h; rfl

theorem sampled_same (c : MotionCtrl K) : c.sampleAndCheckStop.signals = c.signals ∧
    c.sampleAndCheckStop.machinePosition = c.machinePosition := by
  unfold sampleAndCheckStop
  simp only
  split <;> exact ⟨rfl, rfl⟩

theorem tick_returns (c : MotionCtrl K) :
    ∃ c' t, c.tick = some (c', t) ∧ c'.signals = c.signals.tick K.n t.cmd := by
  unfold tick
  simp only
  by_cases hr : c.isRunning = true
  · rw [if_pos hr]
    have hs := (sampled_same { c with signals := c.signals.next }).1
    generalize sampleAndCheckStop { c with signals := c.signals.next } = c₃ at hs
    obtain ⟨r, he⟩ := Option.isSome_iff_exists.1 (settle_returns (c₃.buffer.level + 1) c₃ (by omega))
    rw [he]
    refine ⟨_, _, rfl, ?_⟩
    rw [settle_signals _ _ _ he, hs]
    rfl
  · rw [if_neg hr]
    exact ⟨_, _, rfl, by simp [StepSignals.tick, commands_none]⟩

/-- Rounds left before the interval limit forces an entry. -/
def budget (s : StepSignals) : Nat :=
  if s.ticksSinceLastOutput = 4294967295 then s.maxTicksSinceLastOutput + 1
  else max 1 (s.maxTicksSinceLastOutput - s.ticksSinceLastOutput)

/-- The outer loop returns in every state; what it does to the signals is `pump`. -/
theorem calcLoop_returns (b : Nat) (c : MotionCtrl K) (ht : c.signals.ticksSinceLastOutput < 4294967296)
    (hm : c.signals.maxTicksSinceLastOutput < 4294967296) (hb : budget c.signals ≤ b) :
    ∃ c' e ts, ts ≠ [] ∧ ts.length ≤ b ∧ (∀ fuel, ts.length ≤ fuel → calcLoop fuel c = some (c', e, ts)) ∧
      StepSignals.pump K.n c.signals (ts.map Tick.cmd) = (c'.signals, [e]) := by
  induction b generalizing c with
  | zero => unfold budget at hb; split at hb <;> omega
  | succ b ih =>
    obtain ⟨c₁, t, he, hs⟩ := tick_returns c
    obtain ⟨k1, k2, k3⟩ := StepSignals.tick_counters K.n c.signals t.cmd
    by_cases hx : (c₁.signals.isModified || c₁.signals.isTimedOut) = true
    · refine ⟨{ c₁ with signals := c₁.signals.output.1 }, c₁.signals.output.2, [t], by simp, by simp, ?_, ?_⟩
      · intro fuel hf
        obtain ⟨f, rfl⟩ : ∃ f, fuel = f + 1 := ⟨fuel - 1, by simp at hf; omega⟩
        rw [calcLoop, he]
        simp only
        rw [if_pos hx]
      · rw [hs] at hx ⊢
        simp only [List.map_cons, List.map_nil, StepSignals.pump, StepSignals.flush]
        rw [if_pos hx]
        simp
    · have htime : c₁.signals.isTimedOut = false := by
        cases h : c₁.signals.isTimedOut with
        | false => rfl
        | true => simp [h] at hx
      have ht1 : c₁.signals.ticksSinceLastOutput = u32add c.signals.ticksSinceLastOutput 1 := by rw [hs, k1]
      have hm1 : c₁.signals.maxTicksSinceLastOutput = c.signals.maxTicksSinceLastOutput := by rw [hs, k2]
      simp only [StepSignals.isTimedOut, decide_eq_false_iff_not, ge_iff_le, Nat.not_le, hm1, ht1] at htime
      obtain ⟨c', e, ts, h0, h1, h2, h3⟩ := ih c₁ (by rw [ht1]; exact Nat.mod_lt _ (by decide)) (by rw [hm1]; exact hm)
        (by
          unfold budget at hb ⊢
          rw [ht1, hm1]
          unfold u32add at htime ⊢
          split at hb <;> split <;> omega)
      refine ⟨c', e, t :: ts, by simp, by simp; omega, ?_, ?_⟩
      · intro fuel hf
        obtain ⟨f, rfl⟩ : ∃ f, fuel = f + 1 := ⟨fuel - 1, by simp at hf; omega⟩
        rw [calcLoop, he]
        simp only
        rw [if_neg hx, h2 f (by simpa using hf)]
        rfl
      · rw [hs] at hx h3
        simp only [List.map_cons, StepSignals.pump, StepSignals.flush]
        rw [if_neg hx, h3]
        simp

/-- The outer loop keeps the queue invariant, and its ticks are as specified. -/
theorem calcLoop_spec (fuel : Nat) (c : MotionCtrl K) (h : QInv c) (c' : MotionCtrl K) (e : Step)
    (ts : List (Tick (Option K.Req))) (he : calcLoop fuel c = some (c', e, ts)) :
    QInv c' ∧ c'.events = c.events ++ ts.flatMap Tick.events ∧
      (∀ a, c'.machinePosition a = c.machinePosition a + net a ts) ∧ TicksOk c.abs ts c'.abs := by
  induction fuel generalizing c ts with
  | zero => simp [calcLoop] at he
  | succ fuel ih =>
    obtain ⟨c₁, t, ht, ⟨e1, e2, e3, e4⟩, hok⟩ := tick_spec c h
    rw [calcLoop, ht] at he
    simp only at he
    split at he
    · simp only [Option.some.injEq, Prod.mk.injEq] at he
      obtain ⟨rfl, rfl, rfl⟩ := he
      refine ⟨⟨e1.head, e1.level, e1.busy⟩, by simp [e2], ?_, ?_⟩
      · intro a; simp [net, e4 a]
      · exact ⟨_, hok, rfl⟩
    · simp only [Option.map_eq_some_iff, Prod.exists, Prod.mk.injEq] at he
      obtain ⟨c'', e'', ts', hc, rfl, rfl, rfl⟩ := he
      obtain ⟨i1, i2, i3, i4⟩ := ih c₁ e1 ts' hc
      refine ⟨i1, by simp [i2, e2], ?_, ?_⟩
      · intro a; rw [i3 a, e4 a]; simp [net]; omega
      · exact ⟨_, hok, i4⟩

theorem settle_pos (fuel : Nat) (c : MotionCtrl K) (r) (h : settle fuel c = some r) (a : Nat) :
    r.1.machinePosition a = c.machinePosition a + stepsOf (r.2.1 a) := by
  induction fuel generalizing c with
  | zero => simp [settle] at h
  | succ fuel ih =>
    unfold settle at h
    split at h
    · split at h
      · exact ih c.nextMotion h
      · simp only [Option.some.injEq] at h; subst h; simp [lastMotion, pushEvent, stepsOf]
    · simp only [Option.some.injEq] at h; subst h; exact move_pos c a

theorem tick_pos (c c' : MotionCtrl K) (t) (h : c.tick = some (c', t)) (a : Nat) :
    c'.machinePosition a = c.machinePosition a + stepsOf (t.cmd a) := by
  unfold tick at h
  simp only at h
  by_cases hr : c.isRunning = true
  · rw [if_pos hr] at h
    have hs := (sampled_same { c with signals := c.signals.next }).2
    generalize sampleAndCheckStop { c with signals := c.signals.next } = c₃ at hs h
    simp only [Option.map_eq_some_iff, Prod.exists, Prod.mk.injEq] at h
    obtain ⟨c'', cmd, act, hs', rfl, rfl⟩ := h
    rw [settle_pos _ _ _ hs' a, hs]
  · rw [if_neg hr] at h
    simp only [Option.some.injEq, Prod.mk.injEq] at h
    obtain ⟨rfl, rfl⟩ := h
    simp [stepsOf]

theorem calcLoop_pos (fuel : Nat) (c c' : MotionCtrl K) (e : Step) (ts : List (Tick (Option K.Req)))
    (he : calcLoop fuel c = some (c', e, ts)) (a : Nat) : c'.machinePosition a = c.machinePosition a + net a ts := by
  induction fuel generalizing c ts with
  | zero => simp [calcLoop] at he
  | succ fuel ih =>
    rw [calcLoop] at he
    cases ht : c.tick with
    | none => rw [ht] at he; simp at he
    | some x =>
      obtain ⟨c₁, t⟩ := x
      rw [ht] at he
      simp only at he
      have h1 := tick_pos c c₁ t ht a
      split at he
      · simp only [Option.some.injEq, Prod.mk.injEq] at he
        obtain ⟨rfl, rfl, rfl⟩ := he
        simp [net, h1]
      · simp only [Option.map_eq_some_iff, Prod.exists, Prod.mk.injEq] at he
        obtain ⟨c'', e'', ts', hc, rfl, rfl, rfl⟩ := he
        rw [ih c₁ ts' hc, h1]
        simp [net]; omega

/-- Between calls the tick counter is zero and the interval limit fits 32 bits. -/
structure SInv (c : MotionCtrl K) : Prop where
  ticks : c.signals.ticksSinceLastOutput = 0
  limit : c.signals.maxTicksSinceLastOutput < 4294967296

theorem budget_le {s : StepSignals} (h : s.ticksSinceLastOutput = 0) : budget s ≤ max 1 s.maxTicksSinceLastOutput := by
  unfold budget; rw [h]; simp

theorem SInv.calculate {c : MotionCtrl K} (h : SInv c) :
    ∃ c' e ts, c.calcNext = some (c', e, ts) ∧ SInv c' ∧ ts ≠ [] ∧ ts.length ≤ max 1 c.signals.maxTicksSinceLastOutput ∧
      (∀ fuel, ts.length ≤ fuel → calcLoop fuel c = some (c', e, ts)) ∧
      StepSignals.pump K.n c.signals (ts.map Tick.cmd) = (c'.signals, [e]) ∧
      c'.signals.maxTicksSinceLastOutput = c.signals.maxTicksSinceLastOutput := by
  obtain ⟨c', e, ts, h0, h1, h2, h3⟩ := calcLoop_returns (max 1 c.signals.maxTicksSinceLastOutput) c (by rw [h.ticks]; decide)
    h.limit (budget_le h.ticks)
  have hmax : c'.signals.maxTicksSinceLastOutput = c.signals.maxTicksSinceLastOutput ∧
      c'.signals.ticksSinceLastOutput = 0 := by
    have aux : ∀ (cmds : List (Nat → Cmd)) (s : StepSignals), (StepSignals.pump K.n s cmds).1.maxTicksSinceLastOutput
        = s.maxTicksSinceLastOutput := by
      intro cmds
      induction cmds with
      | nil => intro s; rfl
      | cons x xs ih =>
        intro s
        simp only [StepSignals.pump, ih]
        rw [show (s.tick K.n x).flush.1.maxTicksSinceLastOutput = (s.tick K.n x).maxTicksSinceLastOutput by
          unfold StepSignals.flush StepSignals.output; split <;> rfl]
        exact (StepSignals.tick_counters K.n s x).2.1
    refine ⟨by have := aux (ts.map Tick.cmd) c.signals; rw [h3] at this; exact this, ?_⟩
    have := h2 ts.length (Nat.le_refl _)
    -- the loop ends with `output`
    clear h2 h3 aux h1 h0 h
    generalize ts.length = f at this
    induction f generalizing c ts with
    | zero => simp [calcLoop] at this
    | succ f ih =>
      rw [calcLoop] at this
      cases ht : c.tick with
      | none => rw [ht] at this; simp at this
      | some x =>
        rw [ht] at this
        simp only at this
        split at this
        · simp only [Option.some.injEq, Prod.mk.injEq] at this
          obtain ⟨rfl, _, _⟩ := this
          rfl
        · simp only [Option.map_eq_some_iff, Prod.exists, Prod.mk.injEq] at this
          obtain ⟨c'', e'', ts', hc, rfl, rfl, _⟩ := this
          exact ih _ hc
  refine ⟨c', e, ts, h2 _ (by omega), ⟨hmax.2, by rw [hmax.1]; exact h.limit⟩, h0, h1, h2, h3, hmax.1⟩

theorem SInv.call {c : MotionCtrl K} (h : SInv c) (k : Call K.Req K.Time K.Ovr) :
    ∃ c' r, c.call k = some (c', r) ∧ SInv c' := by
  cases k with
  | configure m w => exact ⟨_, _, rfl, ⟨h.ticks, Nat.mod_lt _ (by decide)⟩⟩
  | append r =>
    refine ⟨_, _, rfl, ?_⟩
    have : (c.append r).signals = c.signals := by unfold append; split <;> rfl
    exact ⟨by rw [this]; exact h.ticks, by rw [this]; exact h.limit⟩
  | start =>
    refine ⟨_, _, rfl, ?_⟩
    have : c.start.signals = c.signals := by
      unfold start; split
      · exact (sameButProf_optimize _).signals
      · rfl
    exact ⟨by rw [this]; exact h.ticks, by rw [this]; exact h.limit⟩
  | stop =>
    refine ⟨_, _, rfl, ?_⟩
    have : c.stop.signals = c.signals := (sameButProf_optimize _).signals
    exact ⟨by rw [this]; exact h.ticks, by rw [this]; exact h.limit⟩
  | flush =>
    refine ⟨_, _, rfl, ?_⟩
    have : c.flushMotionBuffer.signals = c.signals := by unfold flushMotionBuffer; split <;> rfl
    exact ⟨by rw [this]; exact h.ticks, by rw [this]; exact h.limit⟩
  | resetPosition => exact ⟨_, _, rfl, ⟨h.ticks, h.limit⟩⟩
  | override o => exact ⟨_, _, rfl, ⟨h.ticks, h.limit⟩⟩
  | calculate =>
    obtain ⟨c', e, ts, he, hs, _⟩ := h.calculate
    exact ⟨c', _, by simp only [MotionCtrl.call, he]; rfl, hs⟩

theorem SInv.run {c : MotionCtrl K} (h : SInv c) (ks : List (Call K.Req K.Time K.Ovr)) :
    ∃ c' log, c.run ks = some (c', log) ∧ SInv c' ∧ log.map Prod.fst = ks := by
  induction ks generalizing c with
  | nil => exact ⟨c, [], rfl, h, rfl⟩
  | cons k ks ih =>
    obtain ⟨c₁, r, he, h1⟩ := h.call k
    obtain ⟨c', log, hr, h2, h3⟩ := ih h1
    exact ⟨c', (k, r) :: log, by simp [MotionCtrl.run, he, hr], h2, by simp [h3]⟩

theorem sInv_fresh : SInv (fresh K) := ⟨rfl, by show (0 : Nat) < _; decide⟩

theorem qInv_fresh : QInv (fresh K) := ⟨by show (0 : Nat) < _; decide, Nat.zero_le _, by simp [fresh]⟩

end Moovr.MotionCtrl
