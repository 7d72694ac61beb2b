import Verif.Lemmas.MotionCtrl
import Verif.Props.StepSignals
/-!
# Properties C22–C27: the motion controller

For every `MotionKit`: any number of axes, any times, motions and profiles, no arithmetic laws assumed.
-/
namespace Moovr.Props
open PulseSpec MotionSpec MotionCtrl
variable {K : MotionKit}

/-! ## C24 -/

/-- **C24.** In every state of the controller (any queue contents, any profiles, any counters that fit 32 bits) there is a
result which the calculation returns: the loop ends by itself after at most `limit + 1` ticks, however many rounds it
is allowed. -/
theorem motion_calc_returns (c : MotionCtrl K) (ht : c.signals.ticksSinceLastOutput < 2 ^ 32)
    (hm : c.signals.maxTicksSinceLastOutput < 2 ^ 32) :
    ∃ c' e ts, ts ≠ [] ∧ ts.length ≤ c.signals.maxTicksSinceLastOutput + 1 ∧
      ∀ rounds, ts.length ≤ rounds → calcLoop rounds c = some (c', e, ts) := by
  obtain ⟨c', e, ts, h0, h1, h2, _⟩ := calcLoop_returns (c.signals.maxTicksSinceLastOutput + 1) c (by omega) (by omega)
    (by unfold budget; split <;> omega)
  exact ⟨c', e, ts, h0, h1, h2⟩

/-- **C24.** No call of any history on a fresh controller hangs. -/
theorem motion_history_returns (ks : List (Call K.Req K.Time K.Ovr)) :
    ∃ c log, (fresh K).run ks = some (c, log) ∧ log.map Prod.fst = ks := by
  obtain ⟨c, log, h, _, h'⟩ := sInv_fresh.run ks
  exact ⟨c, log, h, h'⟩

/-! ## C22 -/

private theorem timely_of (ks : List (Call K.Req K.Time K.Ovr)) :
    ∀ c : MotionCtrl K, SInv c → ∀ c' log, c.run ks = some (c', log) →
      EntriesTimely c.signals.maxTicksSinceLastOutput log := by
  induction ks with
  | nil => intro c _ c' log h; simp only [run, Option.some.injEq, Prod.mk.injEq] at h; rw [← h.2]; trivial
  | cons k ks ih =>
    intro c hs c' log h
    rw [run] at h
    obtain ⟨c₁, r, he, hs1⟩ := hs.call k
    rw [he] at h
    simp only [Option.map_eq_some_iff, Prod.exists, Prod.mk.injEq] at h
    obtain ⟨c₂, log', hr, rfl, rfl⟩ := h
    have hrest := ih c₁ hs1 c₂ log' hr
    cases k with
    | configure m w =>
      simp only [call, Option.some.injEq, Prod.mk.injEq] at he
      obtain ⟨rfl, rfl⟩ := he
      exact ⟨rfl, hrest⟩
    | append r =>
      simp only [call, Option.some.injEq, Prod.mk.injEq] at he
      obtain ⟨rfl, rfl⟩ := he
      have : (c.append r).signals = c.signals := by unfold append; split <;> rfl
      rw [this] at hrest
      exact ⟨by simp, hrest⟩
    | start =>
      simp only [call, Option.some.injEq, Prod.mk.injEq] at he
      obtain ⟨rfl, rfl⟩ := he
      have : c.start.signals = c.signals := by
        unfold start; split
        · exact (sameButProf_optimize _).signals
        · rfl
      rw [this] at hrest
      exact ⟨by simp, hrest⟩
    | stop =>
      simp only [call, Option.some.injEq, Prod.mk.injEq] at he
      obtain ⟨rfl, rfl⟩ := he
      have : c.stop.signals = c.signals := (sameButProf_optimize _).signals
      rw [this] at hrest
      exact ⟨by simp, hrest⟩
    | flush =>
      simp only [call, Option.some.injEq, Prod.mk.injEq] at he
      obtain ⟨rfl, rfl⟩ := he
      have : c.flushMotionBuffer.signals = c.signals := by unfold flushMotionBuffer; split <;> rfl
      rw [this] at hrest
      exact ⟨by simp, hrest⟩
    | resetPosition =>
      simp only [call, Option.some.injEq, Prod.mk.injEq] at he
      obtain ⟨rfl, rfl⟩ := he
      exact ⟨by simp, hrest⟩
    | override o =>
      simp only [call, Option.some.injEq, Prod.mk.injEq] at he
      obtain ⟨rfl, rfl⟩ := he
      exact ⟨by simp, hrest⟩
    | calculate =>
      obtain ⟨c'', e, ts, hc, hsc, hne, hlen, hfuel, hpump, hmax⟩ := hs.calculate
      simp only [call, hc, Option.map_some, Option.some.injEq, Prod.mk.injEq] at he
      obtain ⟨rfl, rfl⟩ := he
      rw [hmax] at hrest
      refine ⟨?_, hrest⟩
      intro e' hee
      simp only [Option.some.injEq] at hee
      subst hee
      have ht : c.signals.ticksSinceLastOutput < max 1 c.signals.maxTicksSinceLastOutput := by rw [hs.ticks]; omega
      have hj := (step_output_justified K.n c.signals (ts.map Tick.cmd) ht hs.limit).1
      have hl := step_output_lossless K.n c.signals (ts.map Tick.cmd) ht hs.limit
      simp only [hpump, List.map_cons, List.map_nil, Justified, expand] at hj hl
      refine ⟨hj.1, hj.2.1, ?_⟩
      have := congrArg List.length hl
      simp only [hs.ticks, hsc.ticks, List.length_append, List.length_replicate, waveform_length, List.length_map,
        List.length_cons, List.length_nil] at this
      simp only
      omega

/-- **C22.** In every history on a fresh controller, every returned entry has `1 ≤ timeBefore ≤ max 1 limit` for the
interval limit configured at that time, and `timeBefore` is the number of ticks calculated. -/
theorem motion_entry_duration (ks : List (Call K.Req K.Time K.Ovr)) (c : MotionCtrl K) (log)
    (h : (fresh K).run ks = some (c, log)) : EntriesTimely 0 log :=
  timely_of ks (fresh K) sInv_fresh c log h

/-! ## C23 -/

theorem position_of (ks : List (Call K.Req K.Time K.Ovr)) (a : Nat) (ha : a < K.n) :
    ∀ c : MotionCtrl K, ∀ c' log, c.run ks = some (c', log) →
      c'.machinePosition a = positionAfter a (c.machinePosition a) log := by
  induction ks with
  | nil => intro c c' log h; simp only [run, Option.some.injEq, Prod.mk.injEq] at h; rw [← h.2, ← h.1]; rfl
  | cons k ks ih =>
    intro c c' log h
    rw [run] at h
    cases he : c.call k with
    | none => rw [he] at h; simp at h
    | some x =>
      obtain ⟨c₁, r⟩ := x
      rw [he] at h
      simp only [Option.map_eq_some_iff, Prod.exists, Prod.mk.injEq] at h
      obtain ⟨c₂, log', hr, rfl, rfl⟩ := h
      rw [ih c₁ c₂ log' hr]
      cases k with
      | configure m w =>
        simp only [call, Option.some.injEq, Prod.mk.injEq] at he
        obtain ⟨rfl, rfl⟩ := he
        simp [positionAfter, net, configure]
      | append r =>
        simp only [call, Option.some.injEq, Prod.mk.injEq] at he
        obtain ⟨rfl, rfl⟩ := he
        have : (c.append r).machinePosition = c.machinePosition := by unfold append; split <;> rfl
        simp [positionAfter, net, this]
      | start =>
        simp only [call, Option.some.injEq, Prod.mk.injEq] at he
        obtain ⟨rfl, rfl⟩ := he
        have : c.start.machinePosition = c.machinePosition := by
          unfold start; split
          · exact (sameButProf_optimize _).pos
          · rfl
        simp [positionAfter, net, this]
      | stop =>
        simp only [call, Option.some.injEq, Prod.mk.injEq] at he
        obtain ⟨rfl, rfl⟩ := he
        have : c.stop.machinePosition = c.machinePosition := (sameButProf_optimize _).pos
        simp [positionAfter, net, this]
      | flush =>
        simp only [call, Option.some.injEq, Prod.mk.injEq] at he
        obtain ⟨rfl, rfl⟩ := he
        have : c.flushMotionBuffer.machinePosition = c.machinePosition := by
          unfold flushMotionBuffer; split <;> rfl
        simp [positionAfter, net, this]
      | resetPosition =>
        simp only [call, Option.some.injEq, Prod.mk.injEq] at he
        obtain ⟨rfl, rfl⟩ := he
        simp [positionAfter, resetMachinePosition, ha]
      | override o =>
        simp only [call, Option.some.injEq, Prod.mk.injEq] at he
        obtain ⟨rfl, rfl⟩ := he
        simp [positionAfter, net]
      | calculate =>
        simp only [call, Option.map_eq_some_iff, Prod.exists, Prod.mk.injEq] at he
        obtain ⟨c'', e, ts, hc, rfl, rfl⟩ := he
        rw [calcLoop_pos _ _ _ _ _ hc a]
        simp [positionAfter]

/-- **C23.** After every history the reported machine position of every axis is the number of forward minus backward step
commands given to the signal generator since the last reset (or power-up). -/
theorem motion_position_is_net_steps (ks : List (Call K.Req K.Time K.Ovr)) (c : MotionCtrl K) (log)
    (h : (fresh K).run ks = some (c, log)) :
    c.getMachinePosition = (List.range K.n).map fun a => positionAfter a 0 log := by
  unfold getMachinePosition
  apply List.map_congr_left
  intro a ha
  rw [position_of ks a (List.mem_range.1 ha) (fresh K) c log h]
  rfl

/-- Signal registers that determine the waveform. -/
private def regs (s : StepSignals) : BitVec 32 × BitVec 32 × BitVec 32 := (s.dirSetup, s.stepRise, s.stepFall)

private theorem regs_command {s s' : StepSignals} (h : regs s = regs s') (n x : Nat) (c : Cmd) :
    regs (s.command n x c) = regs (s'.command n x c) := by
  simp only [regs, Prod.mk.injEq] at h
  obtain ⟨h1, h2, h3⟩ := h
  cases c with
  | none => simp [StepSignals.command, regs, h1, h2, h3]
  | some d =>
    cases d <;> simp only [StepSignals.command, StepSignals.stepForward, StepSignals.stepBackward] <;>
      split <;> simp [regs, h1, h2, h3]

private theorem regs_tick {s s' : StepSignals} (h : regs s = regs s') (n : Nat) (c : Nat → Cmd) :
    regs (s.tick n c) = regs (s'.tick n c) := by
  have hn : regs s.next = regs s'.next := by
    simp only [regs, Prod.mk.injEq] at h ⊢
    obtain ⟨h1, h2, h3⟩ := h
    exact ⟨h2, h3, h3⟩
  unfold StepSignals.tick StepSignals.commands
  generalize s.next = t at hn
  generalize s'.next = t' at hn
  generalize List.range n = l
  induction l generalizing t t' with
  | nil => exact hn
  | cons x l ih => exact ih _ _ (regs_command hn n x (c x))

private theorem waveform_congr (n : Nat) (cmds : List (Nat → Cmd)) {s s' : StepSignals} (h : regs s = regs s') :
    StepSignals.waveform n s cmds = StepSignals.waveform n s' cmds := by
  induction cmds generalizing s s' with
  | nil => rfl
  | cons c cs ih =>
    have ht := regs_tick h n c
    simp only [StepSignals.waveform]
    rw [ih ht]
    have : (s.tick n c).dirSetup = (s'.tick n c).dirSetup := congrArg Prod.fst ht
    rw [this]

private theorem waveform_append (n : Nat) (xs ys : List (Nat → Cmd)) (s s' : StepSignals)
    (h : regs (xs.foldl (fun s c => s.tick n c) s) = regs s') :
    StepSignals.waveform n s (xs ++ ys) = StepSignals.waveform n s xs ++ StepSignals.waveform n s' ys := by
  induction xs generalizing s with
  | nil => simp only [List.nil_append, StepSignals.waveform]; exact waveform_congr n ys h
  | cons x xs ih => simp only [List.cons_append, StepSignals.waveform]; rw [ih _ h]

private theorem regs_foldl {s s' : StepSignals} (h : regs s = regs s') (n : Nat) (cmds : List (Nat → Cmd)) :
    regs (cmds.foldl (fun s c => s.tick n c) s) = regs (cmds.foldl (fun s c => s.tick n c) s') := by
  induction cmds generalizing s s' with
  | nil => exact h
  | cons c cs ih => exact ih (regs_tick h n c)

private theorem regs_pump (n : Nat) (cmds : List (Nat → Cmd)) (s : StepSignals) :
    regs (cmds.foldl (fun s c => s.tick n c) s) = regs (StepSignals.pump n s cmds).1 := by
  induction cmds generalizing s with
  | nil => rfl
  | cons c cs ih =>
    simp only [List.foldl_cons, StepSignals.pump]
    rw [← ih]
    apply regs_foldl
    unfold StepSignals.flush StepSignals.output
    split <;> rfl

private theorem expand_append {α : Type _} (l : α) (xs ys : List (Nat × α)) :
    expand l (xs ++ ys) = expand l xs ++ expand ((xs.getLast?.map Prod.snd).getD l) ys := by
  induction xs generalizing l with
  | nil => rfl
  | cons x xs ih =>
    obtain ⟨t, x⟩ := x
    simp only [List.cons_append, expand, ih, List.append_assoc]
    congr 4
    cases xs with
    | nil => rfl
    | cons y ys => rw [List.getLast?_cons_cons]; simp [List.getLast?_cons]

private theorem waveform_of (ks : List (Call K.Req K.Time K.Ovr)) :
    ∀ c : MotionCtrl K, SInv c → ∀ c' log, c.run ks = some (c', log) →
      StepSignals.waveform K.n c.signals ((ticksOf log).map Tick.cmd)
        = expand c.signals.lastOutput ((entriesOf log).map fun e => (e.timeBefore, e.signals)) := by
  induction ks with
  | nil => intro c _ c' log h; simp only [run, Option.some.injEq, Prod.mk.injEq] at h; rw [← h.2]; rfl
  | cons k ks ih =>
    intro c hs c' log h
    rw [run] at h
    obtain ⟨c₁, r, he, hs1⟩ := hs.call k
    rw [he] at h
    simp only [Option.map_eq_some_iff, Prod.exists, Prod.mk.injEq] at h
    obtain ⟨c₂, log', hr, rfl, rfl⟩ := h
    have hrest := ih c₁ hs1 c₂ log' hr
    have simple : regs c₁.signals = regs c.signals → c₁.signals.lastOutput = c.signals.lastOutput → r.entry = none →
        r.ticks = [] →
        StepSignals.waveform K.n c.signals ((ticksOf ((k, r) :: log')).map Tick.cmd)
          = expand c.signals.lastOutput ((entriesOf ((k, r) :: log')).map fun e => (e.timeBefore, e.signals)) := by
      intro h1 h2 h3 h4
      simp only [ticksOf, entriesOf, List.flatMap_cons, h3, h4, List.nil_append, Option.toList_none]
      rw [← h2, ← waveform_congr K.n _ h1]
      exact hrest
    cases k with
    | configure m w =>
      simp only [call, Option.some.injEq, Prod.mk.injEq] at he
      obtain ⟨rfl, rfl⟩ := he
      exact simple rfl rfl rfl rfl
    | append r =>
      simp only [call, Option.some.injEq, Prod.mk.injEq] at he
      obtain ⟨rfl, rfl⟩ := he
      have : (c.append r).signals = c.signals := by unfold append; split <;> rfl
      exact simple (by rw [this]) (by rw [this]) rfl rfl
    | start =>
      simp only [call, Option.some.injEq, Prod.mk.injEq] at he
      obtain ⟨rfl, rfl⟩ := he
      have : c.start.signals = c.signals := by
        unfold start; split
        · exact (sameButProf_optimize _).signals
        · rfl
      exact simple (by rw [this]) (by rw [this]) rfl rfl
    | stop =>
      simp only [call, Option.some.injEq, Prod.mk.injEq] at he
      obtain ⟨rfl, rfl⟩ := he
      have : c.stop.signals = c.signals := (sameButProf_optimize _).signals
      exact simple (by rw [this]) (by rw [this]) rfl rfl
    | flush =>
      simp only [call, Option.some.injEq, Prod.mk.injEq] at he
      obtain ⟨rfl, rfl⟩ := he
      have : c.flushMotionBuffer.signals = c.signals := by unfold flushMotionBuffer; split <;> rfl
      exact simple (by rw [this]) (by rw [this]) rfl rfl
    | resetPosition =>
      simp only [call, Option.some.injEq, Prod.mk.injEq] at he
      obtain ⟨rfl, rfl⟩ := he
      exact simple rfl rfl rfl rfl
    | override o =>
      simp only [call, Option.some.injEq, Prod.mk.injEq] at he
      obtain ⟨rfl, rfl⟩ := he
      exact simple rfl rfl rfl rfl
    | calculate =>
      obtain ⟨c'', e, ts, hc, hsc, hne, hlen, hfuel, hpump, hmax⟩ := hs.calculate
      simp only [call, hc, Option.map_some, Option.some.injEq, Prod.mk.injEq] at he
      obtain ⟨rfl, rfl⟩ := he
      have ht : c.signals.ticksSinceLastOutput < max 1 c.signals.maxTicksSinceLastOutput := by rw [hs.ticks]; omega
      have hl := step_output_lossless K.n c.signals (ts.map Tick.cmd) ht hs.limit
      have hlast : c''.signals.lastOutput = e.signals := by
        have := congrArg List.getLast? hl
        have hw : ∀ (cmds : List (Nat → Cmd)) (s : StepSignals), (StepSignals.pump K.n s cmds).1.lastOutput
            = (((StepSignals.pump K.n s cmds).2.getLast?).map Step.signals).getD s.lastOutput := by
          intro cmds
          induction cmds with
          | nil => intro s; rfl
          | cons x xs ih =>
            intro s
            have hx := (StepSignals.tick_counters K.n s x).2.2
            simp only [StepSignals.pump]
            rw [ih]
            unfold StepSignals.flush
            split
            · simp only [StepSignals.output, Option.toList_some, List.singleton_append, List.getLast?_cons]
              cases (StepSignals.pump K.n _ xs).2.getLast? <;> simp
            · simp [hx]
        have := hw (ts.map Tick.cmd) c.signals
        rw [hpump] at this
        simpa using this
      have hreg := regs_pump K.n (ts.map Tick.cmd) c.signals
      rw [hpump] at hreg hl
      simp only [ticksOf, entriesOf, List.flatMap_cons, Option.toList_some, List.map_append, List.map_cons, List.map_nil]
      rw [waveform_append K.n _ _ _ _ hreg, expand_append]
      simp only [hs.ticks, hsc.ticks, List.replicate_zero, List.nil_append, List.append_nil, List.map_cons,
        List.map_nil] at hl
      rw [hl]
      congr 1
      simp only [List.getLast?_singleton, Option.map_some, Option.getD_some]
      rw [← hlast]
      exact hrest

/-- **C23 (wire).** In every history on a fresh controller, the returned entries, expanded to ticks, are exactly the pulse
waveform (C18, C19) of the step commands given. -/
theorem motion_entries_are_waveform (ks : List (Call K.Req K.Time K.Ovr)) (c : MotionCtrl K) (log)
    (h : (fresh K).run ks = some (c, log)) :
    StepSignals.waveform K.n .init ((ticksOf log).map Tick.cmd)
      = expand 0 ((entriesOf log).map fun e => (e.timeBefore, e.signals)) :=
  waveform_of ks (fresh K) sInv_fresh c log h

private theorem pulseCount_lines (cs : List Cmd) (hsp : Spaced cs) (p x D : Bool) (hx : p = true → x = false)
    (hp : p = true → ∀ c cs', cs = c :: cs' → c = none) :
    pulseCount x ((stepLine p (cs ++ [none])).zip (dirLine D (cs ++ [none])))
      = (if p then (if D then -1 else 1) else 0) + (cs.map stepsOf).sum := by
  induction cs generalizing p x D with
  | nil => cases p <;> simp_all [stepLine, dirLine, pulseCount]
  | cons c cs ih =>
    have hsp' : Spaced cs := by
      cases cs with
      | nil => trivial
      | cons d cs => exact hsp.2
    cases c with
    | none =>
      have h1 := ih hsp' false p D (by simp) (by simp)
      simp only [List.cons_append, stepLine, dirLine, Option.isNone_none, Bool.and_true, Option.isSome_none,
        Option.map_none, Option.getD_none, List.zip_cons_cons, pulseCount, h1, List.map_cons, stepsOf, List.sum_cons]
      cases p with
      | false => simp
      | true => simp [hx rfl]
    | some d =>
      have hp' : p = false := by
        cases p with
        | false => rfl
        | true => have := hp rfl (some d) cs rfl; cases this
      subst hp'
      have h1 := ih hsp' true false d.line (by simp) (by
        intro _ c' cs' he
        subst he
        have := hsp.1
        cases c' with
        | none => rfl
        | some x => simp at this)
      simp only [List.cons_append, stepLine, dirLine, Option.isNone_some, Bool.and_false, Option.isSome_some,
        Option.map_some, Option.getD_some, List.zip_cons_cons, pulseCount, h1, List.map_cons, List.sum_cons]
      cases d <;> simp [Dir.line, stepsOf]

private theorem positionAfter_no_reset {Req Job Time Ovr : Type} (a : Nat) (log : Log Req Job Time Ovr)
    (h : ∀ x ∈ log, x.1.isReset = false) (p : Int) :
    positionAfter a p log = p + ((ticksOf log).map fun t => stepsOf (t.cmd a)).sum := by
  induction log generalizing p with
  | nil => simp [positionAfter, ticksOf]
  | cons x log ih =>
    obtain ⟨k, r⟩ := x
    have hrest := fun p => ih (fun x hx => h x (List.mem_cons_of_mem _ hx)) p
    have hk := h (k, r) (by simp)
    cases k <;> first
      | (simp only [positionAfter, hrest, net, ticksOf, List.flatMap_cons, List.map_append, List.sum_append]; omega)
      | cases hk

/-- **C23 with C19 (partial).** Full property: at any time the reported position equals the pulses on the wire. Proved: in a
history without reset, if the axis is never commanded on two consecutive ticks, then counting the pulses (rising step
edges, in the direction shown) in the emitted waveform and the one tick following it gives the reported position.
Missing: commands on consecutive ticks, for which the code loses pulses (`step_count_violated`). -/
theorem motion_position_pulses_partial (ks : List (Call K.Req K.Time K.Ovr)) (c : MotionCtrl K) (log)
    (h : (fresh K).run ks = some (c, log)) (hn : K.n ≤ 15) (a : Nat) (ha : a < K.n)
    (hreset : ∀ x ∈ log, x.1.isReset = false)
    (hsp : Spaced ((ticksOf log).map fun t => t.cmd a)) :
    ∃ next : BitVec 32,
      pulseCount false ((expand 0 ((entriesOf log).map fun e => (e.timeBefore, e.signals)) ++ [next]).map
        fun v => (v.getLsbD (2 * a), v.getLsbD (2 * a + 1))) = c.machinePosition a := by
  have hw := motion_entries_are_waveform ks c log h
  have happ := waveform_append K.n ((ticksOf log).map Tick.cmd) [fun _ => none] .init
    (((ticksOf log).map Tick.cmd).foldl (fun (s : StepSignals) c => s.tick K.n c) StepSignals.init) rfl
  generalize hS : ((ticksOf log).map Tick.cmd).foldl (fun (s : StepSignals) c => s.tick K.n c) StepSignals.init = S
    at happ
  refine ⟨(S.tick K.n fun _ => none).dirSetup, ?_⟩
  obtain ⟨e1, e2⟩ := step_signals_exact K.n hn a ha ((ticksOf log).map Tick.cmd ++ [fun _ => none])
  rw [← hw]
  simp only [StepSignals.waveform] at happ
  rw [← happ, ← List.zip_map']
  rw [e1, e2]
  have hm : ((ticksOf log).map Tick.cmd ++ [fun _ => none]).map (fun c : Nat → Cmd => c a)
      = (ticksOf log).map (fun t => t.cmd a) ++ [none] := by simp
  rw [hm, pulseCount_lines _ hsp false false false (by simp) (by simp)]
  rw [position_of ks a ha (fresh K) c log h, positionAfter_no_reset a log hreset]
  simp [fresh, Function.comp_def]

/-! ## C25–C27 -/

private theorem requests_length (c : MotionCtrl K) : c.requests.length = c.buffer.level := by simp [requests]

private theorem abs_nil (c : MotionCtrl K) : c.requests = [] ↔ c.buffer.level = 0 := by
  rw [← requests_length c, List.length_eq_zero_iff]

private theorem abs_append (c : MotionCtrl K) (hh : c.buffer.head < 32) (hl : c.buffer.level ≤ 32) (r : K.Req) :
    (c.append r).buffer.head < 32 ∧ (c.append r).buffer.level ≤ 32 ∧
    CallOk some c.abs (.append r : Call K.Req K.Time K.Ovr) ⟨(c.append r).events.drop c.events.length, none, []⟩
      (c.append r).abs := by
  unfold append
  by_cases hf : c.buffer.level < 32
  · have h1 : c.buffer.isFull = false := by simp [MotionBuffer.isFull, MotionBuffer.length]; omega
    have h2 : u32add c.buffer.level 1 = c.buffer.level + 1 := u32add_of_lt (by omega)
    simp only [h1, Bool.not_false, if_true, MotionBuffer.push, h2]
    refine ⟨hh, by omega, rfl, rfl, ?_⟩
    rw [if_pos (by simp only [abs, requests_length, capacity]; exact hf)]
    refine ⟨by simp, ?_⟩
    simp only [abs, Abs.mk.injEq, and_true]
    unfold requests
    simp only [MotionBuffer.length]
    rw [← Ring.contents_push (x := some r) hf]
    apply Ring.contents_congr
    intro i _
    by_cases hi : (c.buffer.head + i) % 32 = (c.buffer.head + c.buffer.level) % 32
    · simp [hi]
    · simp [hi]
  · have h1 : c.buffer.isFull = true := by simp [MotionBuffer.isFull, MotionBuffer.length]; omega
    simp only [h1, Bool.not_true, Bool.false_eq_true, if_false]
    refine ⟨hh, hl, rfl, rfl, ?_⟩
    rw [if_neg (by simp only [abs, requests_length, capacity]; exact hf)]
    exact ⟨by simp [pushEvent], rfl⟩

private theorem call_ok (c : MotionCtrl K) (hh : c.buffer.head < 32) (hl : c.buffer.level ≤ 32)
    (k : Call K.Req K.Time K.Ovr)
    (hk : k.isCalculate = true → c.state ≠ .stopped → c.buffer.level ≠ 0)
    (c' : MotionCtrl K) (r) (he : c.call k = some (c', r)) :
    c'.buffer.head < 32 ∧ c'.buffer.level ≤ 32 ∧ CallOk some c.abs k r c'.abs := by
  cases k with
  | configure m w =>
    simp only [call, Option.some.injEq, Prod.mk.injEq] at he
    obtain ⟨rfl, rfl⟩ := he
    exact ⟨hh, hl, rfl, rfl, rfl, rfl⟩
  | append r =>
    simp only [call, Option.some.injEq, Prod.mk.injEq] at he
    obtain ⟨rfl, rfl⟩ := he
    exact abs_append c hh hl r
  | start =>
    simp only [call, Option.some.injEq, Prod.mk.injEq] at he
    obtain ⟨rfl, rfl⟩ := he
    unfold start
    by_cases h0 : c.buffer.level = 0
    · have h1 : c.buffer.isEmpty = true := by simp [MotionBuffer.isEmpty, h0]
      simp only [h1, Bool.not_true, Bool.false_eq_true, if_false]
      refine ⟨hh, hl, rfl, rfl, ?_⟩
      rw [if_pos (show c.abs.waiting = [] from (abs_nil c).2 h0)]
      exact ⟨by simp, rfl⟩
    · have h1 : c.buffer.isEmpty = false := by simp [MotionBuffer.isEmpty]; omega
      simp only [h1, Bool.not_false, if_true]
      have hs := sameButProf_optimize ({ c.pushEvent .motionStarted with state := .running } : MotionCtrl K)
      refine ⟨by rw [hs.head]; exact hh, by rw [hs.level]; exact hl, rfl, rfl, ?_⟩
      rw [if_neg (show ¬ c.abs.waiting = [] from fun h => h0 ((abs_nil c).1 h))]
      refine ⟨?_, ?_⟩
      · show List.drop c.events.length (optimize _).events = _
        rw [hs.events]; simp [pushEvent]
      simp only [abs, hs.state, hs.requests]
      rfl
  | stop =>
    simp only [call, Option.some.injEq, Prod.mk.injEq] at he
    obtain ⟨rfl, rfl⟩ := he
    have hs := sameButProf_optimize ({ c.pushEvent .stopRequested with state := .stopping } : MotionCtrl K)
    refine ⟨by unfold stop; rw [hs.head]; exact hh, by unfold stop; rw [hs.level]; exact hl, rfl, rfl, ?_, ?_⟩
    · show List.drop c.events.length (optimize _).events = _
      rw [hs.events]; simp [pushEvent]
    · unfold stop
      simp only [abs, hs.state, hs.requests]
      rfl
  | flush =>
    simp only [call, Option.some.injEq, Prod.mk.injEq] at he
    obtain ⟨rfl, rfl⟩ := he
    unfold flushMotionBuffer
    by_cases h0 : c.state = .stopped
    · have h1 : c.isRunning = false := by simp [isRunning, h0]
      simp only [h1, Bool.not_false, if_true]
      refine ⟨by simp [MotionBuffer.flush], by simp [MotionBuffer.flush], rfl, rfl, by simp, ?_⟩
      simp [abs, h0, requests, MotionBuffer.flush]
    · have h1 : c.isRunning = true := by simp [isRunning, h0]
      simp only [h1, Bool.not_true, Bool.false_eq_true, if_false]
      refine ⟨hh, hl, rfl, rfl, by simp, ?_⟩
      simp [abs, h0]
  | resetPosition =>
    simp only [call, Option.some.injEq, Prod.mk.injEq] at he
    obtain ⟨rfl, rfl⟩ := he
    exact ⟨hh, hl, rfl, rfl, rfl, rfl⟩
  | override o =>
    simp only [call, Option.some.injEq, Prod.mk.injEq] at he
    obtain ⟨rfl, rfl⟩ := he
    exact ⟨hh, hl, rfl, rfl, rfl, rfl⟩
  | calculate =>
    simp only [call, Option.map_eq_some_iff, Prod.exists, Prod.mk.injEq] at he
    obtain ⟨c'', e, ts, hc, rfl, rfl⟩ := he
    obtain ⟨i1, i2, _, i4⟩ := calcLoop_spec _ c ⟨hh, hl, fun h => by have := hk rfl h; omega⟩ _ _ _ hc
    refine ⟨i1.head, i1.level, rfl, ?_, by simp [i2], i4⟩
    intro h0
    simp only at h0
    subst h0
    have : ∀ fuel (c c' : MotionCtrl K) e, calcLoop fuel c ≠ some (c', e, []) := by
      intro fuel
      cases fuel with
      | zero => intro c c' e h; simp [calcLoop] at h
      | succ fuel =>
        intro c c' e h
        rw [calcLoop] at h
        split at h
        · simp at h
        · split at h
          · simp at h
          · simp [Option.map_eq_some_iff] at h
    exact this _ _ _ _ hc

private theorem log_ok (ks : List (Call K.Req K.Time K.Ovr)) :
    ∀ c : MotionCtrl K, c.buffer.head < 32 → c.buffer.level ≤ 32 → NeverBusyEmpty c ks → ∀ c' log,
      c.run ks = some (c', log) →
      c'.buffer.head < 32 ∧ c'.buffer.level ≤ 32 ∧ LogOk some c.abs log c'.abs := by
  induction ks with
  | nil =>
    intro c hh hl _ c' log h
    simp only [run, Option.some.injEq, Prod.mk.injEq] at h
    obtain ⟨rfl, rfl⟩ := h
    exact ⟨hh, hl, rfl⟩
  | cons k ks ih =>
    intro c hh hl hb c' log h
    rw [run] at h
    cases he : c.call k with
    | none => rw [he] at h; simp at h
    | some x =>
      obtain ⟨c₁, r⟩ := x
      rw [he] at h
      simp only [Option.map_eq_some_iff, Prod.exists, Prod.mk.injEq] at h
      obtain ⟨c₂, log', hr, rfl, rfl⟩ := h
      obtain ⟨h1, h2, h3⟩ := call_ok c hh hl k hb.1 c₁ r he
      obtain ⟨i1, i2, i3⟩ := ih c₁ h1 h2 (hb.2 c₁ r he) c₂ log' hr
      exact ⟨i1, i2, _, h3, i3⟩

/-- **C25, C26, C27 (partial).** Full properties: for *every* history. Proved for every history in which no calculation
takes place with an empty queue in a state other than stopped: the log of calls, reported events, entries and sampled
motions is explained, call by call and tick by tick, by a plain list of waiting requests and the run state (`LogOk`);
at the end that list has as many motions as the queue's level, at most 32, and its state is the controller's.
Missing: calculations after `stop()` on an empty queue (`motion_stop_empty_violated`). -/
theorem motion_history_refines_partial (ks : List (Call K.Req K.Time K.Ovr)) (hb : NeverBusyEmpty (fresh K) ks)
    (c : MotionCtrl K) (log) (h : (fresh K).run ks = some (c, log)) :
    ∃ q : Abs (Option K.Req), LogOk some ⟨[], .stopped⟩ log q ∧ q.state = c.state ∧
      q.waiting.length = c.buffer.level ∧ c.buffer.level ≤ 32 := by
  obtain ⟨_, h2, h3⟩ := log_ok ks (fresh K) (by show (0 : Nat) < 32; decide) (Nat.zero_le _) hb c log h
  exact ⟨c.abs, h3, rfl, requests_length c, h2⟩

private theorem qinv_call (c : MotionCtrl K) (h : QInv c) (k : Call K.Req K.Time K.Ovr)
    (hk : k.isStop = true → c.buffer.level ≠ 0)
    (c' : MotionCtrl K) (r) (he : c.call k = some (c', r)) : QInv c' := by
  obtain ⟨h1, h2, h3⟩ := call_ok c h.head h.level k (fun _ hs => by have := h.busy hs; omega) c' r he
  refine ⟨h1, h2, ?_⟩
  cases k with
  | append r =>
    simp only [call, Option.some.injEq, Prod.mk.injEq] at he
    obtain ⟨rfl, rfl⟩ := he
    intro hs
    have hstate : (c.append r).state = c.state := by unfold append; split <;> rfl
    rw [hstate] at hs
    have := h.busy hs
    unfold append
    split
    · simp only [MotionBuffer.push]
      rw [u32add_of_lt (by have := h.level; omega)]
      omega
    · exact this
  | start =>
    simp only [call, Option.some.injEq, Prod.mk.injEq] at he
    obtain ⟨rfl, rfl⟩ := he
    unfold start
    split
    · rename_i hemp
      intro _
      rw [(sameButProf_optimize _).level]
      simp [MotionBuffer.isEmpty] at hemp
      simp only [pushEvent]
      omega
    · exact h.busy
  | stop =>
    simp only [call, Option.some.injEq, Prod.mk.injEq] at he
    obtain ⟨rfl, rfl⟩ := he
    intro _
    unfold stop
    rw [(sameButProf_optimize _).level]
    have := hk rfl
    simp only [pushEvent]
    omega
  | flush =>
    simp only [call, Option.some.injEq, Prod.mk.injEq] at he
    obtain ⟨rfl, rfl⟩ := he
    unfold flushMotionBuffer
    split
    · rename_i hr
      intro hs
      simp [isRunning] at hr
      exact absurd hr hs
    · exact h.busy
  | configure m w =>
    simp only [call, Option.some.injEq, Prod.mk.injEq] at he
    obtain ⟨rfl, rfl⟩ := he
    exact h.busy
  | resetPosition =>
    simp only [call, Option.some.injEq, Prod.mk.injEq] at he
    obtain ⟨rfl, rfl⟩ := he
    exact h.busy
  | override o =>
    simp only [call, Option.some.injEq, Prod.mk.injEq] at he
    obtain ⟨rfl, rfl⟩ := he
    exact h.busy
  | calculate =>
    simp only [call, Option.map_eq_some_iff, Prod.exists, Prod.mk.injEq] at he
    obtain ⟨c'', e, ts, hc, rfl, rfl⟩ := he
    exact (calcLoop_spec _ c h _ _ _ hc).1.busy

private theorem never_busy (ks : List (Call K.Req K.Time K.Ovr)) :
    ∀ c : MotionCtrl K, QInv c → StopsNonEmpty c ks → NeverBusyEmpty c ks := by
  induction ks with
  | nil => intro c _ _; trivial
  | cons k ks ih =>
    intro c hq hs
    refine ⟨fun _ h => by have := hq.busy h; omega, fun c' r he => ?_⟩
    exact ih c' (qinv_call c hq k hs.1 c' r he) (hs.2 c' r he)

/-- The excluded situation arises only through `stop()` on an empty queue: a history in which every `stop()` finds at least
one motion meets the hypothesis of the partial theorems of C25–C27. -/
theorem motion_only_stop_on_empty (ks : List (Call K.Req K.Time K.Ovr)) (h : StopsNonEmpty (fresh K) ks) :
    NeverBusyEmpty (fresh K) ks := never_busy ks (fresh K) qInv_fresh h

/-! ### FIFO, as a consequence of the explained log -/

private theorem ticks_in_order {Job : Type} (ts : List (Tick Job)) :
    ∀ (q q' : Abs Job) (acc : List Job) (served : Nat), TicksOk q ts q' → served ≤ acc.length →
      q.waiting = acc.drop served →
      TicksInOrder acc served ts ∧ served + (ts.flatMap Tick.events).count .motionCompleted ≤ acc.length ∧
      q'.waiting = acc.drop (served + (ts.flatMap Tick.events).count .motionCompleted) := by
  induction ts with
  | nil => intro q q' acc served h hle hw; subst h; exact ⟨trivial, by simpa using hle, by simpa using hw⟩
  | cons t ts ih =>
    intro q q' acc served h hle hw
    obtain ⟨q₁, hok, hts⟩ := h
    have h1 : served + t.events.count .motionCompleted ≤ acc.length := by
      have := hok.enough
      rw [hw, List.length_drop] at this
      omega
    have h2 : q₁.waiting = acc.drop (served + t.events.count .motionCompleted) := by
      rw [hok.completed, hw, List.drop_drop]
    obtain ⟨i1, i2, i3⟩ := ih q₁ q' acc _ hts h1 h2
    refine ⟨⟨h1, ?_, i1⟩, ?_, ?_⟩
    · intro j hj
      rw [hok.active] at hj
      split at hj
      · cases hj
      · rw [h2, List.head?_drop] at hj
        exact hj
    · simp only [List.flatMap_cons, List.count_append]; omega
    · simp only [List.flatMap_cons, List.count_append]; rw [i3]; congr 1; omega

private theorem log_in_order {Req Job Time Ovr : Type} (job : Req → Job) (log : Log Req Job Time Ovr)
    (hfl : ∀ x ∈ log, x.1.isFlush = false) :
    ∀ (q q' : Abs Job) (acc : List Job) (served : Nat), LogOk job q log q' → served ≤ acc.length →
      q.waiting = acc.drop served → ExecutedInOrder job acc served log := by
  induction log with
  | nil => intros; trivial
  | cons x log ih =>
    intro q q'' acc served h hle hw
    obtain ⟨k, ret⟩ := x
    obtain ⟨q', hc, hrest⟩ := h
    have hfl' : ∀ x ∈ log, x.1.isFlush = false :=
      fun x hx => hfl x (List.mem_cons_of_mem _ hx)
    have key := fun acc served => ih hfl' q' q'' acc served hrest
    have idle : ret.ticks = [] → q'.waiting = q.waiting →
        TicksInOrder acc served ret.ticks ∧
        ExecutedInOrder job acc (served + (ret.ticks.flatMap Tick.events).count .motionCompleted) log := by
      intro h1 h2
      rw [h1]
      refine ⟨trivial, ?_⟩
      simpa using key acc served hle (h2.trans hw)
    cases k with
    | append r =>
      obtain ⟨_, _, hc⟩ := hc
      simp only [ExecutedInOrder]
      split at hc
      · rw [hc.1]
        simp only [List.not_mem_nil, if_false]
        refine key _ _ (by simp; omega) ?_
        rw [hc.2, List.drop_append_of_le_length hle]
        simp [hw]
      · rw [hc.1]
        simp only [List.mem_singleton, if_true]
        exact key _ _ hle (by rw [hc.2]; exact hw)
    | flush => cases hfl (.flush, ret) (by simp)
    | calculate =>
      obtain ⟨_, _, _, hts⟩ := hc
      obtain ⟨i1, i2, i3⟩ := ticks_in_order ret.ticks q q' acc served hts hle hw
      exact ⟨i1, key _ _ i2 i3⟩
    | start =>
      obtain ⟨_, h2, hc⟩ := hc
      refine idle h2 ?_
      split at hc
      · rw [hc.2]
      · rw [hc.2]
    | stop => obtain ⟨_, h2, _, hc⟩ := hc; exact idle h2 (by rw [hc])
    | configure m w => obtain ⟨_, h2, _, hc⟩ := hc; exact idle h2 (by rw [hc])
    | resetPosition => obtain ⟨_, h2, _, hc⟩ := hc; exact idle h2 (by rw [hc])
    | override o => obtain ⟨_, h2, _, hc⟩ := hc; exact idle h2 (by rw [hc])

/-- **C25 (partial).** Full property: every history. Proved: in every history without flush that never calculates with an
empty queue while not stopped, the motion sampled on each tick is the accepted request whose number is the count of
`motionCompleted` events so far — so accepted motions are executed in the order appended, each exactly once — and never
more motions complete than were accepted. (Histories with flush: `motion_history_refines_partial`.) -/
theorem motion_fifo_partial (ks : List (Call K.Req K.Time K.Ovr)) (hb : NeverBusyEmpty (fresh K) ks)
    (c : MotionCtrl K) (log) (h : (fresh K).run ks = some (c, log))
    (hfl : ∀ x ∈ log, x.1.isFlush = false) :
    ExecutedInOrder some [] 0 log := by
  obtain ⟨q, hq, _⟩ := motion_history_refines_partial ks hb c log h
  exact log_in_order some log hfl _ q [] 0 hq (by simp) rfl

/-- **C27 (partial).** Full property: after `stop()` in *any* state. Proved: after `stop()` in any state reached by a history
as in C25/C26 — empty queue or not — the queue's level is unchanged and at most 32, and an `append()` right after it
is accepted iff fewer than 32 motions wait. Missing: later calculations on an empty queue. -/
theorem motion_stop_keeps_queue_partial (ks : List (Call K.Req K.Time K.Ovr)) (hb : NeverBusyEmpty (fresh K) ks)
    (c : MotionCtrl K) (log) (h : (fresh K).run ks = some (c, log)) (r : K.Req) :
    c.stop.buffer.level = c.buffer.level ∧ c.stop.buffer.level ≤ 32 ∧
    (c.buffer.level < 32 → (c.stop.append r).buffer.level = c.buffer.level + 1 ∧
      (c.stop.append r).events = c.stop.events) ∧
    (c.buffer.level = 32 → (c.stop.append r).buffer.level = 32 ∧
      (c.stop.append r).events = c.stop.events ++ [.motionBufferOverflow]) := by
  obtain ⟨h1, h2, _⟩ := log_ok ks (fresh K) (by show (0 : Nat) < 32; decide) (Nat.zero_le _) hb c log h
  have hs := sameButProf_optimize ({ c.pushEvent .stopRequested with state := .stopping } : MotionCtrl K)
  have hlev : c.stop.buffer.level = c.buffer.level := hs.level
  refine ⟨hlev, by omega, ?_, ?_⟩
  · intro hlt
    have hf : c.stop.buffer.isFull = false := by simp [MotionBuffer.isFull, MotionBuffer.length]; omega
    unfold append
    simp only [hf, Bool.not_false, if_true, MotionBuffer.push, hlev]
    exact ⟨u32add_of_lt (by omega), trivial⟩
  · intro heq
    have hf : c.stop.buffer.isFull = true := by simp [MotionBuffer.isFull, MotionBuffer.length]; omega
    unfold append
    simp only [hf, Bool.not_true, Bool.false_eq_true, if_false]
    exact ⟨by simp [pushEvent, hlev, heq], rfl⟩

/-- **C25, C26 and C27 are violated by the code**, in every kit in which one tick is later than the (zero) duration of a
never-used motion: on a fresh controller, `stop()` followed by a calculation reports `motionCompleted` and
`allMotionsCompleted` although nothing was ever appended, leaves a level of 2^32 - 1, and every `append()` after it is
rejected as overflow. -/
theorem motion_stop_empty_violated (width : K.Time) (r : K.Req)
    (hd : K.later (K.sample 1 width K.zero) (K.duration K.prof₀) = true) :
    ∃ c log, (fresh K).run [.configure 1 width, .stop, .calculate, .append r] = some (c, log) ∧
      Event.motionCompleted ∈ c.events ∧ Event.allMotionsCompleted ∈ c.events ∧
      Event.motionBufferOverflow ∈ c.events ∧ c.buffer.level = 2 ^ 32 - 1 ∧ c.state = .stopped := by
  -- the state after `stop()`
  have hstop : ((fresh K).configure 1 width).stop =
      { (fresh K).configure 1 width with state := .stopping, events := [.stopRequested] } := by
    simp [stop, pushEvent, optimize, configure, fresh, MotionBuffer.fresh]
  generalize hc : ((fresh K).configure 1 width).stop = c at hstop
  have hs : SInv c := by
    rw [hstop]; exact ⟨rfl, by simp [configure, StepSignals.setMaxTicksSinceLastOutput]⟩
  obtain ⟨c', e, ts, he, hs', hne, hlen, hfuel, hpump, hmax⟩ := hs.calculate
  have hm : c.signals.maxTicksSinceLastOutput = 1 := by rw [hstop]; rfl
  have hbuf : c.buffer = MotionBuffer.fresh K := by rw [hstop]; rfl
  -- one tick
  have htick : ∃ c₁ t, c.tick = some (c₁, t) ∧ c₁.buffer.level = 2 ^ 32 - 1 ∧ c₁.state = .stopped ∧
      Event.motionCompleted ∈ c₁.events ∧ Event.allMotionsCompleted ∈ c₁.events := by
    have hr : c.isRunning = true := by rw [hstop]; rfl
    unfold tick
    simp only [hr, if_true]
    generalize hc₃ : sampleAndCheckStop { c with signals := c.signals.next } = c₃
    have hb3 : c₃.buffer = MotionBuffer.fresh K := by
      rw [← hc₃]; unfold sampleAndCheckStop; simp only; split <;> exact hbuf
    have ht3 : c₃.time.timeInMotion = K.sample 1 width K.zero := by
      rw [← hc₃]
      have : c.time = ((SampleTime.fresh K).setMinStepPulseWidth width) := by rw [hstop]; rfl
      unfold sampleAndCheckStop; simp only; split <;> simp [this, pushEvent, SampleTime.next, SampleTime.fresh,
        SampleTime.setMinStepPulseWidth, u32add]
    have hset : settle (c₃.buffer.level + 1) c₃ = some (c₃.lastMotion, fun _ => none, none) := by
      rw [hb3]
      show settle 1 c₃ = _
      unfold settle
      rw [if_pos, if_neg]
      · rw [hb3]; simp [MotionBuffer.fresh]
      · simp only [SampleTime.isBeyond, hb3, ht3]; exact hd
    rw [hset]
    refine ⟨_, _, rfl, ?_, rfl, ?_, ?_⟩
    · have h0 : c₃.buffer.level = 0 := by rw [hb3]; rfl
      simp [lastMotion, pushEvent, MotionBuffer.pop, u32sub, h0]
    · simp [lastMotion, pushEvent]
    · simp [lastMotion, pushEvent]
  obtain ⟨c₁, t, ht, t1, t2, t3, t4⟩ := htick
  have hc' : c'.buffer.level = 2 ^ 32 - 1 ∧ c'.state = .stopped ∧ Event.motionCompleted ∈ c'.events ∧
      Event.allMotionsCompleted ∈ c'.events := by
    have hl1 : ts.length ≤ 1 := by rw [hm] at hlen; simpa using hlen
    have := hfuel 1 hl1
    rw [calcLoop, ht] at this
    simp only at this
    split at this
    · simp only [Option.some.injEq, Prod.mk.injEq] at this
      obtain ⟨rfl, _, _⟩ := this
      exact ⟨t1, t2, t3, t4⟩
    · simp [calcLoop] at this
  have hfull : c'.buffer.isFull = true := by simp [MotionBuffer.isFull, MotionBuffer.length, hc'.1]
  obtain ⟨log, hlog⟩ : ∃ log, (fresh K).run [.configure 1 width, .stop, .calculate, .append r]
      = some (c'.append r, log) := by
    simp only [run, call, hc, he, Option.map_some]
    exact ⟨_, rfl⟩
  refine ⟨c'.append r, log, hlog, ?_⟩
  · have happ : c'.append r = c'.pushEvent .motionBufferOverflow := by
      unfold append; simp [hfull]
    rw [happ]
    simp only [pushEvent, List.mem_append, List.mem_singleton]
    exact ⟨.inl hc'.2.2.1, .inl hc'.2.2.2, .inr (by simp), hc'.1, hc'.2.1⟩

/-! ## Example -/

/-- A toy machine: one axis, one step per 2 mm, one mm per second. A request is a number of seconds and so is a profile. -/
def toyKit : MotionKit where
  n := 1
  Time := Nat
  Req := Nat
  Traj := Unit
  Prof := Nat
  Ovr := Unit
  Dist := Nat
  Pos := Nat
  zero := 0
  one := 1
  sample i w z := i * w + z
  later a b := decide (b < a)
  diff a b := a - b
  traj₀ := ()
  prof₀ := 0
  ovr₀ := ()
  setTraj _ _ _ := ()
  setProf _ _ r _ _ := r
  optimize _ _ _ p := p
  optimizeAt _ _ _ _ p := p
  endAtRest p := p
  startAtRest p := p
  duration p := p
  tStop _ := 1000
  s _ _ t := t
  isMoving _ _ := true
  position _ _ d := d / 2
  needStepForward _ d p := decide (p < (d : Int))
  needStepBackward _ d p := decide ((d : Int) < p)

/-- Calls on the toy machine: two motions of 4 and 3 seconds. -/
def toyCalls : List (Call Nat Nat Unit) :=
  [.configure 3 1, .append 4, .append 3, .start, .calculate, .calculate, .calculate, .calculate, .calculate]

-- the second motion starts at 0 mm again, so it steps back: the fourth tick shows the pulse
-- of the step at 4 s, the sixth that of the step back
example : ((fresh toyKit).run toyCalls).map (fun x =>
      ((entriesOf x.2).map fun e => (e.timeBefore, e.signals.toNat), x.1.getMachinePosition, x.1.buffer.level))
    = some ([(3, 1), (1, 0), (1, 2), (1, 3), (1, 2)], [1], 1) := by decide +kernel
example : ((fresh toyKit).run toyCalls).map (fun x => x.1.events) =
    some [.motionStarted, .motionCompleted] := by decide +kernel

end Moovr.Props
