import Verif.Lemmas.StepSignals
/-!
# Properties C18–C21: step signals

`waveform n s cmds` are the signal patterns on successive ticks when the machine with `n` axes (at most 15 fit in
the 32-bit pattern; cnc3axis: 3) executes the per-tick, per-axis step commands `cmds`.
-/
namespace Moovr.Props
open PulseSpec StepSignals

/-- Invariant behind the exact description of an axis. -/
private theorem axis_exact (n : Nat) (hn : n ≤ 15) (a : Nat) (ha : a < n) (cmds : List (Nat → Cmd)) :
    ∀ (s : StepSignals) (x p D : Bool), s.bits a = ⟨x, D, p, D, false, D⟩ →
      (waveform n s cmds).map (fun v => v.getLsbD (2 * a)) = stepLine p (cmds.map (· a)) ∧
      (waveform n s cmds).map (fun v => v.getLsbD (2 * a + 1)) = dirLine D (cmds.map (· a)) := by
  induction cmds with
  | nil => intro s x p D _; simp [waveform, stepLine, dirLine]
  | cons c cs ih =>
    intro s x p D h
    have ht := bits_tick n hn s c a ha
    rw [h] at ht
    simp only [waveform, List.map_cons, stepLine, dirLine]
    cases hc : c a with
    | none =>
      rw [hc] at ht
      simp only [AxisBits.next, AxisBits.cmd] at ht
      have := ih (s.tick n c) p false D ht
      have h1 : (s.tick n c).dirSetup.getLsbD (2 * a) = p := congrArg AxisBits.setupStep ht
      have h2 : (s.tick n c).dirSetup.getLsbD (2 * a + 1) = D := congrArg AxisBits.setupDir ht
      simp [this.1, this.2, h1, h2]
    | some d =>
      rw [hc] at ht
      simp only [AxisBits.cmd] at ht
      have := ih (s.tick n c) false true d.line ht
      have h1 : (s.tick n c).dirSetup.getLsbD (2 * a) = false := congrArg AxisBits.setupStep ht
      have h2 : (s.tick n c).dirSetup.getLsbD (2 * a + 1) = d.line := congrArg AxisBits.setupDir ht
      simp [this.1, this.2, h1, h2]

/-- **C18/C19 (exact).** For every sequence of per-tick commands from power-up: on every tick, an axis' step line is
high iff the axis was commanded on the previous tick and is not commanded on this one, and its direction line shows
the latest commanded direction. -/
theorem step_signals_exact (n : Nat) (hn : n ≤ 15) (a : Nat) (ha : a < n) (cmds : List (Nat → Cmd)) :
    (waveform n init cmds).map (fun v => v.getLsbD (2 * a)) = stepLine false (cmds.map (· a)) ∧
    (waveform n init cmds).map (fun v => v.getLsbD (2 * a + 1)) = dirLine false (cmds.map (· a)) :=
  axis_exact n hn a ha cmds init false false false (by simp [bits, init, stepBit, dirBit])

theorem waveform_length (n : Nat) (s : StepSignals) (cmds : List (Nat → Cmd)) :
    (waveform n s cmds).length = cmds.length := by
  induction cmds generalizing s with
  | nil => rfl
  | cons c cs ih => simp [waveform, ih]

private theorem stepLine_getElem (p : Bool) (cs : List Cmd) (k : Nat) (h : k < cs.length) :
    (stepLine p cs)[k]? = some ((if k = 0 then p else (cs[k - 1]'(by omega)).isSome) && cs[k].isNone) := by
  induction cs generalizing p k with
  | nil => simp at h
  | cons c cs ih =>
    cases k with
    | zero => simp [stepLine]
    | succ k =>
      simp only [stepLine, List.getElem?_cons_succ]
      rw [ih _ k (by simpa using h)]
      cases k with
      | zero => simp
      | succ k => simp

private theorem dirLine_length (D : Bool) (cs : List Cmd) : (dirLine D cs).length = cs.length := by
  induction cs generalizing D with
  | nil => rfl
  | cons c cs ih => simp [dirLine, ih]

private theorem dirLine_some (D : Bool) (cs : List Cmd) (k : Nat) (h : k < cs.length) (d : Dir)
    (hd : cs[k] = some d) : (dirLine D cs)[k]? = some d.line := by
  induction cs generalizing D k with
  | nil => simp at h
  | cons c cs ih =>
    cases k with
    | zero => simp only [List.getElem_cons_zero] at hd; simp [dirLine, hd]
    | succ k => simpa [dirLine] using ih _ k (by simpa using h) (by simpa using hd)

private theorem dirLine_none (D : Bool) (cs : List Cmd) (k : Nat) (h : k + 1 < cs.length)
    (hd : cs[k + 1] = none) : (dirLine D cs)[k + 1]? = (dirLine D cs)[k]? := by
  induction cs generalizing D k with
  | nil => simp at h
  | cons c cs ih =>
    cases k with
    | zero =>
      cases cs with
      | nil => simp at h
      | cons c' cs => simp only [List.getElem_cons_succ, List.getElem_cons_zero] at hd; simp [dirLine, hd]
    | succ k => simpa [dirLine] using ih _ k (by simpa using h) (by simpa using hd)

/-- **C18.** In any sequence of per-tick commands from power-up, if an axis is commanded to step in direction `d` on
tick `k` and not on tick `k + 1`, its step line is low on tick `k`, high on tick `k + 1` and low again on tick `k + 2`,
and its direction line shows `d` (0 = forward, 1 = backward) on ticks `k` (one tick before the rising edge) and
`k + 1`, and also on tick `k + 2` if the axis is not commanded then. -/
theorem step_pulse_well_formed (n : Nat) (hn : n ≤ 15) (a : Nat) (ha : a < n) (cmds : List (Nat → Cmd)) (k : Nat)
    (hk : k + 2 < cmds.length) (d : Dir) (h0 : cmds[k] a = some d) (h1 : cmds[k + 1] a = none) :
    let W := waveform n init cmds
    let step := fun v : BitVec 32 => v.getLsbD (2 * a)
    let dir := fun v : BitVec 32 => v.getLsbD (2 * a + 1)
    W[k]?.map step = some false ∧ W[k + 1]?.map step = some true ∧ W[k + 2]?.map step = some false ∧
    W[k]?.map dir = some d.line ∧ W[k + 1]?.map dir = some d.line ∧
    (cmds[k + 2] a = none → W[k + 2]?.map dir = some d.line) := by
  intro W step dir
  obtain ⟨hs, hd⟩ := step_signals_exact n hn a ha cmds
  have hs' : ∀ i : Nat, W[i]?.map step = (stepLine false (cmds.map (· a)))[i]? := by
    intro i; rw [← hs, List.getElem?_map]
  have hd' : ∀ i : Nat, W[i]?.map dir = (dirLine false (cmds.map (· a)))[i]? := by
    intro i; rw [← hd, List.getElem?_map]
  have e0 : (dirLine false (cmds.map (· a)))[k]? = some d.line :=
    dirLine_some _ _ k (by simp; omega) d (by simpa using h0)
  have e1 : (dirLine false (cmds.map (· a)))[k + 1]? = some d.line := by
    rw [dirLine_none _ _ k (by simp; omega) (by simpa using h1), e0]
  refine ⟨?_, ?_, ?_, ?_, ?_, ?_⟩
  · rw [hs', stepLine_getElem _ _ _ (by simp; omega)]; simp [h0]
  · rw [hs', stepLine_getElem _ _ _ (by simp; omega)]; simp [h0, h1]
  · rw [hs', stepLine_getElem _ _ _ (by simp; omega)]; simp [h1]
  · rw [hd', e0]
  · rw [hd', e1]
  · intro h2
    rw [hd', dirLine_none _ _ (k + 1) (by simp; omega) (by simpa using h2), e1]

/-- **C19 is violated by the code.** Two commands on consecutive ticks produce a single pulse. -/
theorem step_count_violated :
    ∃ cmds : List (Nat → Cmd), (commandTicks (cmds.map (· 0))).length = 2 ∧
      (risingEdges false ((waveform 3 init (cmds ++ [fun _ => none, fun _ => none])).map
        (fun v => v.getLsbD 0))).length = 1 :=
  ⟨[fun _ => some .forward, fun _ => some .forward], by decide⟩

private theorem risingEdges_stepLine (cs : List Cmd) (hsp : Spaced cs) (p : Bool)
    (hp : p = true → ∀ c cs', cs = c :: cs' → c = none) :
    risingEdges false (stepLine p (cs ++ [none]))
      = (if p then [0] else []) ++ (commandTicks cs).map (· + 1) ∧
    risingEdges true (stepLine false (cs ++ [none])) = (commandTicks cs).map (· + 1) := by
  induction cs generalizing p with
  | nil => cases p <;> simp [stepLine, risingEdges, commandTicks]
  | cons c cs ih =>
    have hsp' : Spaced cs := by
      cases cs with
      | nil => trivial
      | cons d cs => exact hsp.2
    cases c with
    | none =>
      have h1 := ih hsp' false (by simp)
      simp only [List.cons_append, stepLine, Option.isNone_none, Bool.and_true, Option.isSome_none, risingEdges,
        commandTicks]
      constructor
      · cases p with
        | false => simp [h1.1]
        | true => simp [h1.2]
      · simp [h1.1]
    | some d =>
      have hp' : p = false := by
        cases p with
        | false => rfl
        | true => have := hp rfl (some d) cs rfl; cases this
      subst hp'
      have h1 := ih hsp' true (by
        intro _ c' cs' he
        subst he
        have := hsp.1
        cases c' with
        | none => rfl
        | some x => simp at this)
      simp [stepLine, risingEdges, commandTicks, h1.1]

/-- **C19 (partial).** Full property: for *any* sequence of commands, rising edges and commands correspond one to one.
Proved: if the axis is never commanded on two consecutive ticks, its step line rises exactly on the ticks right after
the commanded ones — one rising edge per command, none else — and at each of them the direction line shows the
direction of that command. Missing: commands on consecutive ticks (`step_count_violated`). -/
theorem step_count_partial (n : Nat) (hn : n ≤ 15) (a : Nat) (ha : a < n) (cmds : List (Nat → Cmd))
    (hsp : Spaced (cmds.map (· a))) :
    let W := waveform n init (cmds ++ [fun _ => none])
    risingEdges false (W.map (fun v => v.getLsbD (2 * a))) = (commandTicks (cmds.map (· a))).map (· + 1) ∧
    (∀ k (h : k < cmds.length) d, cmds[k] a = some d →
      W[k + 1]?.map (fun v => v.getLsbD (2 * a + 1)) = some d.line) := by
  intro W
  obtain ⟨hs, hd⟩ := step_signals_exact n hn a ha (cmds ++ [fun _ => none])
  constructor
  · show risingEdges false (List.map _ W) = _
    rw [hs, List.map_append]
    exact (risingEdges_stepLine _ hsp false (by simp)).1
  · intro k h d hk
    have hd' : W[k + 1]?.map (fun v => v.getLsbD (2 * a + 1))
        = (dirLine false ((cmds ++ [fun _ => none]).map (fun c : Nat → Cmd => c a)))[k + 1]? := by
      rw [← hd, List.getElem?_map]
    have hnone : ((cmds ++ [fun _ => none]).map (fun c : Nat → Cmd => c a))[k + 1]'(by simp; omega) = none := by
      rw [List.getElem_map]
      by_cases hk1 : k + 1 < cmds.length
      · rw [List.getElem_append_left hk1]
        have : ∀ (l : List Cmd), Spaced l → ∀ i (hi : i + 1 < l.length), ¬ (l[i].isSome ∧ l[i + 1].isSome) := by
          intro l
          induction l with
          | nil => intro _ i hi; simp at hi
          | cons c l ih =>
            intro hl i hi
            cases l with
            | nil => simp at hi
            | cons e l =>
              cases i with
              | zero => simpa using hl.1
              | succ i => exact ih hl.2 i (by simpa using hi)
        have := this _ hsp k (by simpa using hk1)
        simp only [List.getElem_map, hk] at this
        cases hc : cmds[k + 1] a with
        | none => rfl
        | some x => rw [hc] at this; simp at this
      · have : k + 1 = cmds.length := by omega
        simp [this]
    rw [hd', dirLine_none _ _ k (by simp; omega) hnone]
    exact dirLine_some _ _ k (by simp; omega) d (by rw [List.getElem_map, List.getElem_append_left h, hk])

/-- **C20 is violated by the code.** On the three-axis machine, axis number 3 (which does not exist) is accepted and
changes the signals: the guard is `axis <= nmbrAxis`. -/
theorem step_axis_guard_violated : (init.stepForward 3 3).stepRise ≠ init.stepRise := by decide

/-- **C20 (partial).** Full property: a step on one axis leaves all other axes' bits alone in all registers, and any axis
number `≥ nmbrAxis` has no effect at all. Proved: the former for every accepted axis number, and the latter for every
axis number `> nmbrAxis`. Missing: axis number `= nmbrAxis`, where it is false (`step_axis_guard_violated`). -/
theorem step_axis_isolation_partial (n : Nat) (hn : n ≤ 15) (s : StepSignals) (axis : Nat) :
    (∀ i < 32, axis ≤ n → i ≠ 2 * axis → i ≠ 2 * axis + 1 → ∀ s', s' = s.stepForward n axis ∨ s' = s.stepBackward n axis →
      s'.dirSetup.getLsbD i = s.dirSetup.getLsbD i ∧ s'.stepRise.getLsbD i = s.stepRise.getLsbD i ∧
      s'.stepFall.getLsbD i = s.stepFall.getLsbD i) ∧
    (n < axis → s.stepForward n axis = s ∧ s.stepBackward n axis = s) := by
  constructor
  · intro i hi hax h1 h2 s' hs'
    have hf := forward_bits n s axis i hax (by omega) hi
    have hb := backward_bits n s axis i hax (by omega) hi
    simp only [h1, h2, if_false] at hf hb
    rcases hs' with rfl | rfl
    · exact hf
    · exact hb
  · intro h
    have : ¬ axis ≤ n := by omega
    simp [stepForward, stepBackward, this]

/-- **C21.** From any state whose tick counter is below the interval limit (every reachable one, see C22), over any
sequence of ticks: expanding the emitted entries, and holding the last emitted pattern for the ticks since then,
reproduces the tick-by-tick waveform (the ticks already pending at the start included). -/
theorem step_output_lossless (n : Nat) (s : StepSignals) (cmds : List (Nat → Cmd))
    (ht : s.ticksSinceLastOutput < max 1 s.maxTicksSinceLastOutput) (hm : s.maxTicksSinceLastOutput < 2 ^ 32) :
    let r := pump n s cmds
    List.replicate s.ticksSinceLastOutput s.lastOutput ++ waveform n s cmds
      = expand s.lastOutput (r.2.map fun e => (e.timeBefore, e.signals))
        ++ List.replicate r.1.ticksSinceLastOutput r.1.lastOutput := by
  induction cmds generalizing s with
  | nil => simp [pump, waveform, expand]
  | cons c cs ih =>
    obtain ⟨h1, h2, h3⟩ := tick_counters n s c
    have hwrap : u32add s.ticksSinceLastOutput 1 = s.ticksSinceLastOutput + 1 := by
      apply u32add_of_lt; omega
    rw [hwrap] at h1
    have hreg : ∀ s' : StepSignals, ∀ (cs : List (Nat → Cmd)) (l : BitVec 32) (t : Nat),
        waveform n { s' with lastOutput := l, ticksSinceLastOutput := t } cs = waveform n s' cs := by
      intro s' cs
      induction cs generalizing s' with
      | nil => intros; rfl
      | cons c cs ih =>
        intro l t
        have key : ∀ (s' : StepSignals) (l : BitVec 32) (t : Nat), ∃ l' t',
            ({ s' with lastOutput := l, ticksSinceLastOutput := t } : StepSignals).tick n c
              = { s'.tick n c with lastOutput := l', ticksSinceLastOutput := t' } := by
          intro s' l t
          have hnext : ({ s' with lastOutput := l, ticksSinceLastOutput := t } : StepSignals).next
              = { s'.next with lastOutput := l, ticksSinceLastOutput := u32add t 1 } := rfl
          unfold tick
          rw [hnext]
          generalize s'.next = s''
          generalize u32add t 1 = t''
          refine ⟨l, t'', ?_⟩
          unfold commands
          generalize List.range n = axes
          induction axes generalizing s'' with
          | nil => rfl
          | cons x axes ih =>
            have hcmd : ({ s'' with lastOutput := l, ticksSinceLastOutput := t'' } : StepSignals).command n x (c x)
                = { s''.command n x (c x) with lastOutput := l, ticksSinceLastOutput := t'' } := by
              cases c x with
              | none => rfl
              | some d =>
                cases d <;> simp only [command, stepForward, stepBackward] <;> split <;> rfl
            rw [List.foldl_cons, List.foldl_cons, hcmd]
            exact ih _
        obtain ⟨l', t', hk⟩ := key s' l t
        simp only [waveform, hk]
        rw [ih (s'.tick n c) l' t']
    simp only [waveform, pump, flush]
    by_cases he : (s.tick n c).isModified || (s.tick n c).isTimedOut
    · simp only [he, if_true, output]
      have := ih { s.tick n c with lastOutput := (s.tick n c).dirSetup, ticksSinceLastOutput := 0 }
        (by simp only [h2]; omega) (by simp only [h2]; exact hm)
      simp only [hreg, List.replicate_zero, List.nil_append] at this
      simp only [Option.toList_some, List.map_append, List.map_cons, List.map_nil, expand,
        List.append_assoc, h1, Nat.add_sub_cancel, List.cons_append]
      rw [this]
      simp
    · simp only [he]
      simp only [Bool.or_eq_true, not_or, Bool.not_eq_true, isModified, isTimedOut, decide_eq_false_iff_not,
        ne_eq, Decidable.not_not, h3] at he
      have := ih (s.tick n c) (by rw [h2]; omega) (by rw [h2]; exact hm)
      rw [h1, h3] at this
      simp only [Bool.false_eq_true, if_false, Option.toList_none, List.nil_append]
      rw [← this, ← he.1]
      rw [List.replicate_succ', List.append_assoc]
      rfl

/-- **C21/C22.** Every emitted entry lasts at least one tick and at most the interval limit (at least 1), and is emitted
only because the pattern changed or the interval limit was reached. -/
theorem step_output_justified (n : Nat) (s : StepSignals) (cmds : List (Nat → Cmd))
    (ht : s.ticksSinceLastOutput < max 1 s.maxTicksSinceLastOutput) (hm : s.maxTicksSinceLastOutput < 2 ^ 32) :
    Justified s.maxTicksSinceLastOutput s.lastOutput ((pump n s cmds).2.map fun e => (e.timeBefore, e.signals)) ∧
    (pump n s cmds).1.ticksSinceLastOutput < max 1 s.maxTicksSinceLastOutput := by
  induction cmds generalizing s with
  | nil => exact ⟨trivial, ht⟩
  | cons c cs ih =>
    obtain ⟨h1, h2, h3⟩ := tick_counters n s c
    have hwrap : u32add s.ticksSinceLastOutput 1 = s.ticksSinceLastOutput + 1 := by
      apply u32add_of_lt; omega
    rw [hwrap] at h1
    simp only [pump, flush]
    by_cases he : (s.tick n c).isModified || (s.tick n c).isTimedOut
    · simp only [he, if_true, output, h2]
      have := ih { s.tick n c with lastOutput := (s.tick n c).dirSetup, ticksSinceLastOutput := 0 }
        (by simp only [h2]; omega) (by simp only [h2]; exact hm)
      simp only [h2] at this
      refine ⟨?_, this.2⟩
      simp only [Option.toList_some, List.map_cons, List.singleton_append, Justified, h1]
      refine ⟨by omega, by omega, ?_, this.1⟩
      simp only [Bool.or_eq_true, isModified, isTimedOut, decide_eq_true_eq, h1, h2, h3] at he
      exact he
    · simp only [he]
      simp only [Bool.or_eq_true, not_or, Bool.not_eq_true, isModified, isTimedOut, decide_eq_false_iff_not,
        ne_eq, Decidable.not_not, h1, h2, h3] at he
      have := ih (s.tick n c) (by rw [h1, h2]; omega) (by rw [h2]; exact hm)
      rw [h2, h3] at this
      exact this

/-! Concrete cases. -/

/-- A forward step on axis 1 and, two ticks later, a backward step on axis 1, on the three-axis machine. -/
def exampleCmds : List (Nat → Cmd) :=
  [fun a => if a = 1 then some .forward else none, fun _ => none,
   fun a => if a = 1 then some .backward else none, fun a => if a = 0 then some .forward else none, fun _ => none]

example : waveform 3 init exampleCmds = [0, 4, 8, 12, 9] := by decide
example : (1 : Nat) < 3 ∧ exampleCmds[0] 1 = some .forward ∧ exampleCmds[1] 1 = none := by decide
example : Spaced (exampleCmds.map (· 1)) := by decide
example : (pump 3 { init with maxTicksSinceLastOutput := 375 } exampleCmds).2.map (fun e => (e.timeBefore, e.signals))
    = [(2, 4), (1, 8), (1, 12), (1, 9)] := by decide
example : ({ init with maxTicksSinceLastOutput := 375 } : StepSignals).ticksSinceLastOutput < max 1 375 := by decide

end Moovr.Props
