import Verif.Lemmas.Pins
import Verif.Props.BufferRoom
import Verif.Lemmas.Diagonal
/-!
# From the motion controller to the pins, in time (C102–C104)

`Drive` puts together the motion controller, the filling loop, the step buffer, the output timer with its interrupt, and the pins; all
interleavings of the main loop and the interrupt, and all durations, are allowed.
-/
namespace Moovr.Props
open Num ExecSpec MotionCtrl MotionSpec PulseSpec StepQueueSpec PinSpec Drive StepBuffer

variable {K : MotionKit} {b₀ b : StepBuffer}

private theorem punctual_append {D : Nat} (ops₁ ops₂ : List (Op K)) : ∀ {s s₁ : Drive K}, s.run ops₁ = some s₁ →
    (Punctual D s (ops₁ ++ ops₂) ↔ Punctual D s ops₁ ∧ Punctual D s₁ ops₂) := by
  induction ops₁ with
  | nil => intro s s₁ h; simp only [Drive.run, Option.some.injEq] at h; subst h; simp [Punctual]
  | cons op ops ih =>
    intro s s₁ h
    simp only [Drive.run, Option.bind_eq_some_iff] at h
    obtain ⟨s', e1, e2⟩ := h
    simp only [List.cons_append, Punctual, e1, Option.some.injEq, forall_eq']
    rw [ih e2, and_assoc]

private theorem run_append (ops₁ ops₂ : List (Op K)) : ∀ {s s₁ : Drive K}, s.run ops₁ = some s₁ → s.run (ops₁ ++ ops₂) = s₁.run ops₂ := by
  induction ops₁ with
  | nil => intro s s₁ h; simp only [Drive.run, Option.some.injEq] at h; subst h; rfl
  | cons op ops ih =>
    intro s s₁ h
    simp only [Drive.run, Option.bind_eq_some_iff] at h
    obtain ⟨s', e1, e2⟩ := h
    simp only [List.cons_append, Drive.run, e1, Option.bind_some, ih e2]

/-- **C102** The deadline of the main loop. If, whenever the output timer expires, the loop has found within the last 375 ticks (6.25
milliseconds) that the step buffer needs no filling, then every interrupt finds at least three outputs in the buffer: it never
underflows, and the period of the timer is always set in time. -/
theorem main_loop_deadline (hi : InitReturns b₀ b) (h1 : b₀.minimumTotalTime = 1500) (h2 : b₀.minimumLevel = 4) {w : K.Time}
    {ops : List (Op K)} {s : Drive K} (hrun : (Drive.start K b w).run ops = some s) (hexp : s.now = s.out.nextExpiry)
    (hp : Punctual 375 (Drive.start K b w) (ops ++ [.expire])) : 3 ≤ s.out.buffer.level := by
  rw [punctual_append ops _ hrun] at hp
  obtain ⟨fops, pops, hsim, hfed, r, n, ha⟩ := (well_start (b := b) w).run hi h1 h2 ops hp.1 hrun
  obtain ⟨s1, s2, s3, s4⟩ := FillLoop.shipped_priming hi h1 h2
  change _ = prime at s4
  have hrep : Rep b ⟨prime, 0⟩ := by rw [← s4]; exact rep_priming hi
  have hinv := PinOutput.inv_run hrep pops hfed fun e he => by
    have := hsim.times e he; exact ⟨this.1, by omega⟩
  rw [hsim.pin] at hinv
  have := ha.fed (fun e he => (hsim.times e he).2) hinv.rep.reads_le hexp (hp.2.1 rfl)
  have e := hinv.rep.level_eq
  have hw : (trace prime (PinOutput.calls pops)).waiting = (trace prime (PinOutput.calls pops)).written.length - (trace prime (PinOutput.calls pops)).reads := rfl
  omega

/-- **C102**, the deadline matters: with 477 ticks instead of 375 (and nothing but the output timer running), the third interrupt of the
shipped firmware finds two outputs only. -/
theorem main_loop_deadline_violated (w : K.Time) : ∃ (ops : List (Op K)) (s : Drive K),
    (Drive.start K shipped w).run ops = some s ∧ s.now = s.out.nextExpiry ∧
      Punctual 477 (Drive.start K shipped w) (ops ++ [.expire]) ∧ s.out.buffer.level = 2 := by
  have e0 : (PinOutput.start shipped).nextExpiry = 101 := rfl
  have e1 : (PinOutput.start shipped).buffer.needsFilling = false := by decide +kernel
  generalize ho0 : PinOutput.start shipped = o₀ at e0 e1
  have e2 : (o₀.step .expire).nextExpiry = 202 := by subst ho0; decide +kernel
  generalize ho1 : o₀.step .expire = o₁ at e2
  have e3 : (o₁.step .expire).nextExpiry = 577 ∧ (o₁.step .expire).buffer.level = 2 := by subst ho1; subst ho0; decide +kernel
  generalize ho2 : o₁.step .expire = o₂ at e3
  refine ⟨[.elapse 100, .check, .elapse 1, .expire, .elapse 101, .expire, .elapse 375],
    { Drive.start K shipped w with out := o₂, now := 577, lastFull := 100 }, ?_, ?_, ?_, ?_⟩
  · simp [Drive.run, Drive.step, Drive.start, ho0, e0, e1, ho1, e2, ho2, e3.1]
  · exact e3.1.symm
  · simp [Punctual, Drive.step, Drive.start, ho0, e0, e1, ho1, e2, ho2, e3.1]
  · exact e3.2
/-- Operations of the filling loop, the timer and the interrupt. -/
def Background : Op K → Prop
  | .call _ => False
  | _ => True

/-- Ready for the filling loop. -/
private structure Ready (b : StepBuffer) (w : K.Time) (s : Drive K) : Prop where
  well : Well b w s
  pending : s.pending = none
  soon : s.out.nextExpiry ≤ s.now + 375
  ldval : s.out.ldval ≤ 374

private theorem can_check {w : K.Time} {s : Drive K} (h : Ready b w s) (hn : s.out.buffer.needsFilling = true) :
    ∃ c e, ∃ r : Ret (Option K.Req), r.entry = some e ∧ s.step .check =
      some { s with ctrl := c, pending := some e, log := s.log ++ [(.calculate, r)] } := by
  obtain ⟨fops, pops, hsim, -⟩ := h.well
  obtain ⟨c', log', hr, -⟩ := motion_history_returns (K := K) (s.log.map Prod.fst ++ [.calculate])
  obtain ⟨c₁, l₁, l₂, e1, e2, -⟩ := run_split _ _ hr
  rw [hsim.hist] at e1
  simp only [Option.some.injEq, Prod.mk.injEq] at e1
  obtain ⟨rfl, -⟩ := e1
  simp only [MotionCtrl.run] at e2
  cases hc : s.ctrl.call .calculate with
  | none => rw [hc] at e2; simp at e2
  | some y =>
    obtain ⟨c, r⟩ := y
    have hr : ∃ e, r.entry = some e := by
      simp only [MotionCtrl.call, Option.map_eq_some_iff, Prod.exists, Prod.mk.injEq] at hc
      obtain ⟨_, _, _, _, _, rfl⟩ := hc
      exact ⟨_, rfl⟩
    obtain ⟨e, he⟩ := hr
    exact ⟨c, e, r, he, by simp [Drive.step, h.pending, hn, hc, he]⟩

private theorem fill_up (hi : InitReturns b₀ b) (h1 : b₀.minimumTotalTime = 1500) (h2 : b₀.minimumLevel = 4) {w : K.Time} (m : Nat) :
    ∀ {s : Drive K}, Ready b w s → s.out.buffer.level + m = 256 →
      (∀ ops s', (∀ op ∈ ops, Background op) → s.run ops = some s' → Punctual 375 s ops → s'.lost = []) →
      ∃ ops s', (∀ op ∈ ops, Background op) ∧ s.run ops = some s' ∧ Punctual 375 s ops ∧ Ready b w s' ∧
        s'.out.buffer.needsFilling = false ∧ s'.now = s.now ∧ s'.out.nextExpiry = s.out.nextExpiry ∧ s'.out.pins = s.out.pins := by
  induction m with
  | zero =>
    intro s h hl hroom
    by_cases hn : s.out.buffer.needsFilling = true
    · obtain ⟨c, e, r, -, hs⟩ := can_check h hn
      have := hroom [.check, .put] _ (by simp [Background]) (by rw [Drive.run, hs, Option.bind_some, Drive.run]; rfl) (by simp [Punctual])
      have hlt : ¬ s.out.buffer.level < StepBuffer.length := by show ¬ _ < 256; omega
      simp [hlt] at this
    · exact ⟨[], s, by simp, rfl, trivial, h, by simpa using hn, rfl, rfl, rfl⟩
  | succ m ih =>
    intro s h hl hroom
    by_cases hn : s.out.buffer.needsFilling = true
    · obtain ⟨c, e, r, -, hs⟩ := can_check h hn
      have hlt : s.out.buffer.level < StepBuffer.length := by show _ < 256; omega
      have hrun : s.run [.check, .put] = some { s with
          ctrl := c, out := s.out.step (.write e), pending := none, log := s.log ++ [(.calculate, r)] } := by
        rw [Drive.run, hs, Option.bind_some, Drive.run]
        simp [Drive.step, Drive.run, hlt]
      have hp : Punctual 375 s [.check, .put] := by simp [Punctual]
      generalize hs2 : ({ s with
          ctrl := c, out := s.out.step (.write e), pending := none, log := s.log ++ [(.calculate, r)] } : Drive K) = s₂ at hrun
      have hready : Ready b w s₂ := by
        refine ⟨h.well.run hi h1 h2 _ hp hrun, by rw [← hs2], ?_, ?_⟩
        · rw [← hs2]; exact h.soon
        · rw [← hs2]; exact h.ldval
      obtain ⟨ops, s', a1, a2, a3, a4, a5, a6, a7, a8⟩ := ih hready (by
          rw [← hs2]
          simp only [PinOutput.step, StepBuffer.write, if_pos hlt]; omega)
        (fun ops s' q r p => hroom ([.check, .put] ++ ops) s'
          (by intro op hop; rcases List.mem_append.1 hop with hop | hop
              · simp only [List.mem_cons, List.not_mem_nil, or_false] at hop
                rcases hop with rfl | rfl <;> trivial
              · exact q op hop)
          (by rw [run_append _ _ hrun]; exact r) ((punctual_append _ _ hrun).2 ⟨hp, p⟩))
      refine ⟨[.check, .put] ++ ops, s', ?_, by rw [run_append _ _ hrun]; exact a2, (punctual_append _ _ hrun).2 ⟨hp, a3⟩, a4, a5, ?_, ?_, ?_⟩
      · intro op hop; rcases List.mem_append.1 hop with hop | hop
        · simp only [List.mem_cons, List.not_mem_nil, or_false] at hop
          rcases hop with rfl | rfl <;> trivial
        · exact a1 op hop
      · rw [a6, ← hs2]
      · rw [a7, ← hs2]; rfl
      · rw [a8, ← hs2]; rfl
    · exact ⟨[], s, by simp, rfl, trivial, h, by simpa using hn, rfl, rfl, rfl⟩

private theorem one_round (hi : InitReturns b₀ b) (h1 : b₀.minimumTotalTime = 1500) (h2 : b₀.minimumLevel = 4) {w : K.Time}
    {s : Drive K} (h : Ready b w s)
    (hroom : ∀ ops s', (∀ op ∈ ops, Background op) → s.run ops = some s' → Punctual 375 s ops → s'.lost = []) :
    ∃ ops s', (∀ op ∈ ops, Background op) ∧ s.run ops = some s' ∧ Punctual 375 s ops ∧ Ready b w s' ∧
      s'.out.pins.length = s.out.pins.length + 1 := by
  obtain ⟨s1, s2, s3, s4⟩ := FillLoop.shipped_priming hi h1 h2
  change _ = prime at s4
  have hrep : Rep b ⟨prime, 0⟩ := by rw [← s4]; exact rep_priming hi
  have hinv : ∀ {s : Drive K}, Well b w s → ∃ t, PinOutput.Inv s.out t ∧ (∀ e ∈ t.written, 1 ≤ e.timeBefore ∧ e.timeBefore ≤ 375) ∧
      s.now ≤ s.out.nextExpiry := by
    intro s h
    obtain ⟨fops, pops, hsim, hfed, r, n, ha⟩ := h
    have hinv := PinOutput.inv_run hrep pops hfed fun e he => by
      have := hsim.times e he; exact ⟨this.1, by omega⟩
    rw [hsim.pin] at hinv
    exact ⟨_, hinv, fun e he => ⟨(hsim.times e he).1, (hsim.times e he).2⟩, ha.now⟩
  have hlev : s.out.buffer.level ≤ 256 := by
    obtain ⟨t, hv, -⟩ := hinv h.well
    have := hv.rep.level_eq; have := hv.rep.room; omega
  obtain ⟨ops, s', a1, a2, a3, a4, a5, a6, a7, a8⟩ := fill_up hi h1 h2 (256 - s.out.buffer.level) h (by omega) hroom
  obtain ⟨-, -, -, hnow⟩ := hinv a4.well
  have hsoon := a4.soon
  have hrun : s'.run [.check, .elapse (s'.out.nextExpiry - s'.now), .expire] =
      some { s' with lastFull := s'.now, now := s'.out.nextExpiry, out := s'.out.step .expire } := by
    simp [Drive.run, Drive.step, a4.pending, a5, Nat.add_sub_cancel' hnow]
  have hp : Punctual 375 s' [.check, .elapse (s'.out.nextExpiry - s'.now), .expire] := by
    simp [Punctual, Drive.step, a4.pending, a5, Nat.add_sub_cancel' hnow]
    omega
  generalize hs2 : ({ s' with lastFull := s'.now, now := s'.out.nextExpiry, out := s'.out.step .expire } : Drive K) = s₂ at hrun
  have hw := a4.well.run hi h1 h2 _ hp hrun
  have hpins : s₂.out.pins.length = s'.out.pins.length + 1 := by
    rw [← hs2]; simp [PinOutput.step, PinOutput.interrupt]
  refine ⟨ops ++ [.check, .elapse (s'.out.nextExpiry - s'.now), .expire], s₂, ?_, by rw [run_append _ _ a2]; exact hrun,
    (punctual_append _ _ a2).2 ⟨a3, hp⟩, ⟨hw, ?_, ?_, ?_⟩, by rw [hpins, a8]⟩
  · intro op hop; rcases List.mem_append.1 hop with hop | hop
    · exact a1 op hop
    · simp only [List.mem_cons, List.not_mem_nil, or_false] at hop
      rcases hop with rfl | rfl | rfl <;> trivial
  · rw [← hs2]; exact a4.pending
  · have := a4.ldval
    rw [← hs2]; show s'.out.nextExpiry + (s'.out.ldval + 1) ≤ s'.out.nextExpiry + 375; omega
  · obtain ⟨t, hv, ht, -⟩ := hinv hw
    obtain ⟨l1, l2⟩ := hv.ldval (by rw [← hv.len]; omega)
    have := (ht _ (List.getElem_mem l1)).2
    omega

/-- **C102** The deadline can be met: a main loop that takes no time meets it forever, as long as the buffer does not overflow. (From a
state reached in time, at which nothing is pending; `ops` are operations of the loop, the timer and the interrupt only.) -/
theorem main_loop_keeps_going (hi : InitReturns b₀ b) (h1 : b₀.minimumTotalTime = 1500) (h2 : b₀.minimumLevel = 4) {w : K.Time}
    {ops₀ : List (Op K)} {s₀ : Drive K} (hrun : (Drive.start K b w).run ops₀ = some s₀) (hpins : s₀.out.pins = [])
    (hp : Punctual 375 (Drive.start K b w) ops₀) (hpend : s₀.pending = none)
    (hroom : ∀ ops s, (∀ op ∈ ops, Background op) → s₀.run ops = some s → Punctual 375 s₀ ops → s.lost = []) (N : Nat) :
    ∃ ops s, (∀ op ∈ ops, Background op) ∧ s₀.run ops = some s ∧ Punctual 375 s₀ ops ∧ s.out.pins.length = N := by
  have hready : Ready b w s₀ := by
    have hw := (well_start (b := b) w).run hi h1 h2 ops₀ hp hrun
    have hout : s₀.out.nextExpiry = 101 ∧ s₀.out.ldval = 100 := by
      obtain ⟨fops, pops, hsim, -⟩ := hw
      have e := hsim.pin
      have hpins' : ((PinOutput.start b).run pops).pins = [] := by rw [e]; exact hpins
      rw [← e]
      clear e hsim
      induction pops using List.reverseRecOn' with
      | nil => exact ⟨rfl, rfl⟩
      | snoc ops x ih =>
        rw [PinOutput.run_snoc] at hpins' ⊢
        cases x with
        | write e => exact ih hpins'
        | expire => simp [PinOutput.step, PinOutput.interrupt] at hpins'
    exact ⟨hw, hpend, by omega, by omega⟩
  have key : ∃ ops s, (∀ op ∈ ops, Background op) ∧ s₀.run ops = some s ∧ Punctual 375 s₀ ops ∧ Ready b w s ∧ s.out.pins.length = N := by
    induction N with
    | zero => exact ⟨[], s₀, by simp, rfl, trivial, hready, by rw [hpins]; rfl⟩
    | succ N ih =>
      obtain ⟨ops, s, a1, a2, a3, a4, a5⟩ := ih
      have happ : ∀ ops', (∀ op ∈ ops', Background op) → ∀ op ∈ ops ++ ops', Background op := fun ops' q op hop => by
        rcases List.mem_append.1 hop with hop | hop
        · exact a1 op hop
        · exact q op hop
      obtain ⟨ops', s', b1, b2, b3, b4, b5⟩ := one_round hi h1 h2 a4 fun ops' s' q r p =>
        hroom (ops ++ ops') s' (happ _ q) (by rw [run_append _ _ a2]; exact r) ((punctual_append _ _ a2).2 ⟨a3, p⟩)
      exact ⟨ops ++ ops', s', happ _ b1, by rw [run_append _ _ a2]; exact b2, (punctual_append _ _ a2).2 ⟨a3, b3⟩, b4, by omega⟩
  obtain ⟨ops, s, a1, a2, a3, -, a5⟩ := key
  exact ⟨ops, s, a1, a2, a3, a5⟩

/-- The step commands for an axis, one per tick. -/
def commands (s : Drive K) (a : Nat) : List Cmd := (ticksOf s.log).map fun x => x.cmd a

/-- **C103** What the pins show. If the loop meets its deadline and the buffer rejects nothing, then from the fourth update of the pins
(at time `t₀`) on, as far as they have been updated, the pins show the outputs for the step commands of the controller, one tick after
the other: `t₀ + 1 + i` shows what belongs to the commands of tick `i`. -/
theorem pins_show_commands (hi : InitReturns b₀ b) (h1 : b₀.minimumTotalTime = 1500) (h2 : b₀.minimumLevel = 4) (hn : K.n ≤ 15)
    {w : K.Time} {ops : List (Op K)} {s : Drive K} (hrun : (Drive.start K b w).run ops = some s)
    (hp : Punctual 375 (Drive.start K b w) ops) (hlost : s.lost = []) {t₀ : Nat} {x : BitVec 32} (h3 : s.out.pins[3]? = some (t₀, x))
    {i : Nat} (hlast : ∃ p ∈ s.out.pins, t₀ + 1 + i ≤ p.1) {a : Nat} (ha : a < K.n) :
    (stepLine false (commands s a))[i]? = some ((levelAt s.out.pins (t₀ + 1 + i)).getLsbD (2 * a)) ∧
    (dirLine false (commands s a))[i]? = some ((levelAt s.out.pins (t₀ + 1 + i)).getLsbD (2 * a + 1)) := by
  have hw := (well_start (b := b) w).run hi h1 h2 ops hp hrun
  obtain ⟨hsh, hz⟩ := hw.shows hi h1 h2 hlost h3
  obtain ⟨fops, pops, hsim, -⟩ := hw
  have ho := ordered_run b pops
  rw [hsim.pin] at ho
  have hl : ∃ p ∈ s.out.pins.drop 4, t₀ + 1 + i ≤ p.1 := by
    obtain ⟨p, hp, hn⟩ := hlast
    rw [← List.take_append_drop 4 s.out.pins] at hp
    rcases List.mem_append.1 hp with hp | hp
    · have := first_updates ho.1 h3 p hp; omega
    · exact ⟨p, hp, hn⟩
  have hv := hsh.level 0 hl
  rw [← levelAt_drop hz, ← motion_entries_are_waveform _ _ _ hsim.hist] at hv
  obtain ⟨e1, e2⟩ := step_signals_exact K.n hn a ha ((ticksOf s.log).map Tick.cmd)
  have e : ((ticksOf s.log).map Tick.cmd).map (· a) = commands s a := by simp [commands]
  rw [e] at e1 e2
  rw [← e1, ← e2, List.getElem?_map, List.getElem?_map, hv]
  exact ⟨rfl, rfl⟩

private theorem line_length (p : Bool) (cs : List Cmd) : (stepLine p cs).length = cs.length := by
  induction cs generalizing p with
  | nil => rfl
  | cons c cs ih => simp [stepLine, ih]

private theorem dir_length (p : Bool) (cs : List Cmd) : (dirLine p cs).length = cs.length := by
  induction cs generalizing p with
  | nil => rfl
  | cons c cs ih => simp [dirLine, ih]

/-- **C103** The pulses at the pins. If moreover no axis is told to step on two ticks in succession, then the pulses that the driver of
an axis has seen by the time `t₀ + 1 + i` are the steps that the controller commanded in the ticks before tick `i`. -/
theorem pins_count_steps (hi : InitReturns b₀ b) (h1 : b₀.minimumTotalTime = 1500) (h2 : b₀.minimumLevel = 4) (hn : K.n ≤ 15)
    {w : K.Time} {ops : List (Op K)} {s : Drive K} (hrun : (Drive.start K b w).run ops = some s)
    (hp : Punctual 375 (Drive.start K b w) ops) (hlost : s.lost = []) {t₀ : Nat} {x : BitVec 32} (h3 : s.out.pins[3]? = some (t₀, x))
    {i : Nat} (hlast : ∃ p ∈ s.out.pins, t₀ + 1 + i ≤ p.1) {a : Nat} (ha : a < K.n) (hsp : Spaced (commands s a)) :
    pulsesUntil s.out.pins a (t₀ + 1 + i) = (((commands s a).take i).map stepsOf).sum := by
  have hshow : ∀ j, j < i + 1 →
      (stepLine false (commands s a))[j]? = some ((levelAt s.out.pins (t₀ + 1 + j)).getLsbD (2 * a)) ∧
      (dirLine false (commands s a))[j]? = some ((levelAt s.out.pins (t₀ + 1 + j)).getLsbD (2 * a + 1)) := fun j hj =>
    pins_show_commands hi h1 h2 hn hrun hp hlost h3 (by obtain ⟨p, hp, h⟩ := hlast; exact ⟨p, hp, by omega⟩) ha
  have hw := (well_start (b := b) w).run hi h1 h2 ops hp hrun
  obtain ⟨hsh, hz⟩ := hw.shows hi h1 h2 hlost h3
  have hlen : i < (commands s a).length := by
    obtain ⟨hl, -⟩ := List.getElem?_eq_some_iff.1 (hshow i (by omega)).1
    rwa [line_length] at hl
  have key : (List.range (t₀ + 1 + i + 1)).map
      (fun u => ((levelAt s.out.pins u).getLsbD (2 * a), (levelAt s.out.pins u).getLsbD (2 * a + 1))) =
      List.replicate (t₀ + 1) (false, false) ++ ((stepLine false (commands s a)).zip (dirLine false (commands s a))).take (i + 1) := by
    rw [show t₀ + 1 + i + 1 = (t₀ + 1) + (i + 1) by omega, List.range_add, List.map_append, List.map_map]
    congr 1
    · refine List.ext_getElem (by simp) fun k hk hk' => ?_
      have hk'' : k < t₀ + 1 := by simpa using hk
      simp only [List.getElem_map, List.getElem_range, List.getElem_replicate]
      have : levelAt s.out.pins k = 0 := by
        rw [levelAt_drop hz]
        exact level_early (fun p hp => by have := hsh.later p hp; omega) 0
      rw [this]; simp
    · refine List.ext_getElem (by simp [line_length, dir_length]; omega) fun k hk hk' => ?_
      have hk'' : k < i + 1 := by simpa using hk
      obtain ⟨s1, s2⟩ := hshow k hk''
      obtain ⟨_, s1⟩ := List.getElem?_eq_some_iff.1 s1
      obtain ⟨_, s2⟩ := List.getElem?_eq_some_iff.1 s2
      simp only [List.getElem_map, List.getElem_range, Function.comp_apply, List.getElem_take, List.getElem_zip, s1, s2]
  rw [pulsesUntil, key, pulseCount_quiet, pulse_prefix _ i hlen hsp false false false (by simp) (by simp)]
  simp

private theorem quiet_commands {α : Type _} {ts : List (Tick α)} {a : Nat} (h : ∀ x ∈ ts, x.cmd a = none) :
    ts.map (fun x => x.cmd a) = List.replicate ts.length none := by
  induction ts with
  | nil => rfl
  | cons x ts ih =>
    rw [List.map_cons, h x (by simp), ih fun y hy => h y (List.mem_cons_of_mem _ hy)]
    rfl

private theorem spaced_quiet {l : List Cmd} (h : Spaced l) (n : Nat) : Spaced (List.replicate n none ++ l) := by
  induction n with
  | zero => exact h
  | succ n ih =>
    cases n with
    | zero =>
      cases l with
      | nil => trivial
      | cons c l => exact ⟨by simp, h⟩
    | succ n => exact ⟨by simp, ih⟩

private theorem empty_start {d : Nat → ℝ} {c c' c₀ : MotionCtrl cnc3axis.kit} {rs ks log log₀}
    (h : Performs cnc3axis (1 / 60000) d c rs ks c' log) (h₀ : c.run (rs.map (push cnc3axis) ++ [.start]) = some (c₀, log₀))
    (hf : Feeds cnc3axis c₀ ks) (hrun : c₀.run ks = some (c', log)) : ticksOf log₀ = [] := by
  have hm := h.follow
  have hs : Suited cnc3axis (1 / 60000) (travel cnc3axis (1 / 60000)) := ⟨hm.width, hm.hysteresis, hm.steps, fun axis ha =>
    mul_nonneg (mul_nonneg (h.machine.vMax axis ha).le hm.width.le) (hm.steps axis ha), fun axis ha => le_rfl,
    fun axis ha => by have := hm.rate axis ha; unfold Machine.perTick; unfold travel at this ⊢; linarith⟩
  exact (executed h.machine hs h.idle h.some h.fit h.executable h.feed h.near h₀ hf hrun).1

/-- **C104** The shipped machine executes a calm program (after calls `pre` that made no steps), with a main loop that meets its
deadline. Nothing is lost; and as far as the pins have been updated, the pulses that they have shown agree in real time, to less than a
step, with the ideal position on the path of the program, with a constant delay: at the time `t₀ + 1 + m + i`, where `t₀` is the time
of the fourth update and `m` the number of ticks before the program, with the ideal position `i` ticks after its start. -/
theorem pins_follow_program_partial (hi : InitReturns b₀ b) (h1 : b₀.minimumTotalTime = 1500) (h2 : b₀.minimumLevel = 4)
    {d : Nat → ℝ} {pre : List (MCall cnc3axis)} {c c' : MotionCtrl cnc3axis.kit} {logp rs ks log}
    (hpre : (fresh cnc3axis.kit).run (.configure 375 (fin (1 / 60000)) :: pre) = some (c, logp))
    (hcfg : ∀ k ∈ pre, ∀ m w, k ≠ .configure m w) (hquiet : ∀ x ∈ ticksOf logp, ∀ axis, axis < 3 → x.cmd axis = none)
    (h : Performs cnc3axis (1 / 60000) d c rs ks c' log) (hc : Calm d c (program c.overrides.feedOverride rs ks))
    {ops : List (Op cnc3axis.kit)} {s : Drive cnc3axis.kit} (hrun : (Drive.start cnc3axis.kit b (fin (1 / 60000))).run ops = some s)
    (hp : Punctual 375 (Drive.start cnc3axis.kit b (fin (1 / 60000))) ops)
    (hcalls : s.log.map Prod.fst = .configure 375 (fin (1 / 60000)) :: pre ++ (rs.map (push cnc3axis) ++ [.start] ++ ks)) :
    s.lost = [] ∧ ∃ js : List Job, js.map (fun j => (j.r, j.f)) = program c.overrides.feedOverride rs ks ∧ (∀ j ∈ js, j.Ok cnc3axis) ∧
      ∀ axis, axis < 3 → ∀ t₀ x, s.out.pins[3]? = some (t₀, x) →
        ∀ i, (∃ p ∈ s.out.pins, t₀ + 1 + (ticksOf logp).length + i ≤ p.1) →
          |placeAt d js (i / 60000) axis * 200 -
            ((c.machinePosition axis + pulsesUntil s.out.pins axis (t₀ + 1 + (ticksOf logp).length + i) : Int) : ℝ)| ≤ 13 / 20 := by
  obtain ⟨log', hall', hlost⟩ := program_buffer_room_partial hpre hcfg hquiet h hc
  obtain ⟨fops, pops, hsim, hfed, -⟩ := (well_start (K := cnc3axis.kit) (b := b) (fin (1 / 60000))).run hi h1 h2 ops hp hrun
  have hlog : s.ctrl = c' ∧ s.log = log' := by
    have := hsim.hist
    rw [hcalls, hall'] at this
    simp only [Option.some.injEq, Prod.mk.injEq] at this
    exact ⟨this.1.symm, this.2.symm⟩
  have hl : s.lost = [] := by
    have := hlost b₀ b hi h1 h2 fops (by rw [← puts_written, ← hlog.2, ← hsim.entries]; exact ⟨_, rfl⟩) (by rw [← hsim.same]; exact hfed)
    rwa [hsim.fill] at this
  refine ⟨hl, ?_⟩
  obtain ⟨js, j1, j2, j3, j4, j5⟩ := performs_trace h
  refine ⟨js, j1, j2, fun axis ha t₀ x h3 i hlast => ?_⟩
  obtain ⟨c₀, log₀, h₀, hf, hr⟩ := h.run
  have hall := run_concat (K := cnc3axis.kit) _ _ hpre (run_concat (K := cnc3axis.kit) _ _ h₀ hr)
  have hlog2 : s.log = logp ++ (log₀ ++ log) := by
    have e := hall'.symm.trans hall
    simp only [Option.some.injEq, Prod.mk.injEq] at e
    rw [hlog.2]; exact e.2
  have hcmd : commands s axis = List.replicate (ticksOf logp).length none ++ (ticksOf log).map fun x => x.cmd axis := by
    unfold commands
    rw [hlog2, ticks_append, ticks_append, empty_start h h₀ hf hr, List.nil_append, List.map_append,
      quiet_commands fun x hx => hquiet x hx axis ha]
  have hsp : Spaced (commands s axis) := by
    rw [hcmd]
    exact spaced_quiet (program_spaced h cnc3axis_separates (axis := axis) ha) _
  have hcount := pins_count_steps (K := cnc3axis.kit) hi h1 h2 (show cnc3axis.n ≤ 15 by decide) hrun hp hl h3
    (i := (ticksOf logp).length + i) (by simpa only [Nat.add_assoc] using hlast) (a := axis) ha hsp
  have hshow := (pins_show_commands (K := cnc3axis.kit) hi h1 h2 (show cnc3axis.n ≤ 15 by decide) hrun hp hl h3
    (i := (ticksOf logp).length + i) (by simpa only [Nat.add_assoc] using hlast) (a := axis) ha).1
  obtain ⟨hlen, -⟩ := List.getElem?_eq_some_iff.1 hshow
  rw [line_length, hcmd, List.length_append, List.length_replicate, List.length_map] at hlen
  rw [show t₀ + 1 + (ticksOf logp).length + i = t₀ + 1 + ((ticksOf logp).length + i) by omega, hcount, hcmd]
  have e : ∀ (l : List Cmd) (n : Nat), (List.replicate n none ++ l).take (n + i) = List.replicate n none ++ l.take i := by
    intro l n
    rw [List.take_append, List.length_replicate, Nat.add_sub_cancel_left, List.take_of_length_le (by rw [List.length_replicate]; omega)]
  rw [e, List.map_append, List.sum_append, List.map_replicate]
  have hz : (List.replicate (ticksOf logp).length (stepsOf none)).sum = 0 := by
    rw [List.sum_replicate]; simp [stepsOf]
  rw [hz, zero_add]
  have := ((j5 axis ha).get i (by rw [List.length_map]; omega)).near
  have e1 : (0 : ℝ) + i * (1 / 60000) = i / 60000 := by ring
  rw [e1] at this
  have e2 : cnc3axis.stepsPerMm axis = 200 := rfl
  have e3 : (1 : ℝ) / 2 + cnc3axis.hysteresis + cnc3axis.perTick (1 / 60000) axis = 13 / 20 := by
    norm_num [cnc3axis, Machine.perTick]
  rw [e2, e3] at this
  exact this

/-- Calls of a run in which only the filling loop, the timer and the interrupt work. -/
private theorem background_calls (ops : List (Op K)) : ∀ {s s' : Drive K}, (∀ op ∈ ops, Background op) → s.run ops = some s' →
    ∃ n, s'.log.map Prod.fst = s.log.map Prod.fst ++ List.replicate n .calculate := by
  induction ops with
  | nil => intro s s' _ h; simp only [Drive.run, Option.some.injEq] at h; subst h; exact ⟨0, by simp⟩
  | cons op ops ih =>
    intro s s' hb h
    simp only [Drive.run, Option.bind_eq_some_iff] at h
    obtain ⟨s₁, e1, e2⟩ := h
    obtain ⟨n, hn⟩ := ih (fun o ho => hb o (List.mem_cons_of_mem _ ho)) e2
    have : ∃ m, s₁.log.map Prod.fst = s.log.map Prod.fst ++ List.replicate m .calculate := by
      cases op with
      | elapse k =>
        simp only [Drive.step] at e1
        split at e1
        · simp only [Option.some.injEq] at e1; subst e1; exact ⟨0, by simp⟩
        · simp at e1
      | check =>
        simp only [Drive.step] at e1
        split at e1
        · simp at e1
        · split at e1
          · simp only [Option.map_eq_some_iff] at e1
            obtain ⟨x, -, rfl⟩ := e1
            exact ⟨1, by simp⟩
          · simp only [Option.some.injEq] at e1; subst e1; exact ⟨0, by simp⟩
      | put =>
        simp only [Drive.step, Option.map_eq_some_iff] at e1
        obtain ⟨x, -, rfl⟩ := e1
        exact ⟨0, by simp⟩
      | expire =>
        simp only [Drive.step] at e1
        split at e1
        · simp only [Option.some.injEq] at e1; subst e1; exact ⟨0, by simp⟩
        · simp at e1
      | call k => exact (show False from hb (.call k) (by simp)).elim
    obtain ⟨m, hm⟩ := this
    exact ⟨m + n, by rw [hn, hm, List.append_assoc, List.replicate_append_replicate]⟩

private theorem diagonal_calm {c : MotionCtrl cnc3axis.kit} (hov : c.overrides.feedOverride = fin 1) (hpos : ∀ a, c.machinePosition a = 0)
    (n : Nat) : Calm corner c (program (M := cnc3axis) c.overrides.feedOverride [diagonal 28] (List.replicate n .calculate)) := by
  have hprog : program (M := cnc3axis) c.overrides.feedOverride [diagonal 28] (List.replicate n .calculate) = [(diagonal 28, fin 28)] := by
    show [(diagonal 28, (diagonal 28).vFeed * c.overrides.feedOverride)] ++ requested (M := cnc3axis) _ _ = _
    rw [requested_calculate, hov]
    show [(diagonal 28, fin 28 * fin 1)] = _
    rw [fin_mul]; norm_num
  rw [hprog]
  refine .inr (.inl ⟨2, by decide, ⟨?_, ?_⟩, ?_⟩)
  · intro x hx
    rw [List.mem_singleton.1 hx]
    exact abs_eq_zero.1 ((direction_diagonal (f := 28) (axis := 2) (by decide)).trans (if_pos rfl))
  · rw [hpos]; norm_num [corner, cnc3axis]
  · intro axis h1 h2
    refine ⟨by norm_num, fun x hx => .inr ⟨28, ?_⟩⟩
    rw [List.mem_singleton.1 hx]
    refine ⟨rfl, ?_⟩
    show |(diagonal 28).direction axis| * 28 ≤ 20
    rw [direction_diagonal h1, if_neg h2]
    have : 7 / 5 ≤ √(2 : ℝ) := by rw [Real.le_sqrt (by norm_num) (by norm_num)]; norm_num
    rw [div_mul_eq_mul_div, div_le_iff₀ (by positivity)]
    linarith

/-- The diagonal at 28 mm/s: for every number of interrupts there is a run of the shipped firmware in which the main loop meets its
deadline, nothing is lost, and the pins follow the diagonal. -/
example (N : Nat) : ∃ (ops : List (Op cnc3axis.kit)) (s : Drive cnc3axis.kit) (c : MotionCtrl cnc3axis.kit) (n : Nat),
    (Drive.start cnc3axis.kit shipped (fin (1 / 60000))).run ops = some s ∧
    Punctual 375 (Drive.start cnc3axis.kit shipped (fin (1 / 60000))) ops ∧ s.out.pins.length = N ∧ s.lost = [] ∧
    ∃ js : List Job, js.map (fun j => (j.r, j.f)) = program (M := cnc3axis) c.overrides.feedOverride [diagonal 28] (List.replicate n .calculate) ∧
      ∀ axis, axis < 3 → ∀ t₀ x, s.out.pins[3]? = some (t₀, x) → ∀ i, (∃ p ∈ s.out.pins, t₀ + 1 + i ≤ p.1) →
        |placeAt corner js (i / 60000) axis * 200 - ((pulsesUntil s.out.pins axis (t₀ + 1 + i) : Int) : ℝ)| ≤ 13 / 20 := by
  let w : cnc3axis.kit.Time := fin (1 / 60000)
  let ops₀ : List (Op cnc3axis.kit) := [.call (push cnc3axis (diagonal 28)), .call .start]
  obtain ⟨s₀, hrun₀, hout, hpend, hlog⟩ : ∃ s₀, (Drive.start cnc3axis.kit shipped w).run ops₀ = some s₀ ∧ s₀.out = .start shipped ∧
      s₀.pending = none ∧ s₀.log.map Prod.fst = [.configure 375 w, push cnc3axis (diagonal 28), .start] := ⟨_, rfl, rfl, rfl, rfl⟩
  have hp₀ : Punctual 375 (Drive.start cnc3axis.kit shipped w) ops₀ := by simp [ops₀, Punctual]
  have main : ∀ ops s, (∀ op ∈ ops, Background op) → s₀.run ops = some s → Punctual 375 s₀ ops → ∃ (c : MotionCtrl cnc3axis.kit) (n : Nat), s.lost = [] ∧
      ∃ js : List Job, js.map (fun j => (j.r, j.f)) = program (M := cnc3axis) c.overrides.feedOverride [diagonal 28] (List.replicate n .calculate) ∧
        ∀ axis, axis < 3 → ∀ t₀ x, s.out.pins[3]? = some (t₀, x) → ∀ i, (∃ p ∈ s.out.pins, t₀ + 1 + i ≤ p.1) →
          |placeAt corner js (i / 60000) axis * 200 - ((pulsesUntil s.out.pins axis (t₀ + 1 + i) : Int) : ℝ)| ≤ 13 / 20 := by
    intro ops s hb hr hp
    obtain ⟨n, hn⟩ := background_calls ops hb hr
    obtain ⟨c, c', logp, log, hcfg, hov, hpos, h⟩ := performs_diagonal (f := 28) (by norm_num) n
    have hlogp : ticksOf logp = [] := by
      simp only [MotionCtrl.run, MotionCtrl.call, Option.map_some, Option.some.injEq, Prod.mk.injEq] at hcfg
      rw [← hcfg.2]; rfl
    obtain ⟨f1, js, f2, -, f3⟩ := pins_follow_program_partial shipped_init rfl rfl (pre := []) hcfg (by simp)
      (by rw [hlogp]; simp) h (diagonal_calm hov hpos n) (ops := ops₀ ++ ops) (s := s)
      (by rw [run_append _ _ hrun₀]; exact hr) ((punctual_append _ _ hrun₀).2 ⟨hp₀, hp⟩) (by rw [hn, hlog]; rfl)
    refine ⟨c, n, f1, js, f2, fun axis ha t₀ x h3 i hl => ?_⟩
    have := f3 axis ha t₀ x h3 i (by rw [hlogp]; exact hl)
    rw [hlogp, hpos, zero_add] at this
    exact this
  obtain ⟨ops, s, a1, a2, a3, a4⟩ := main_loop_keeps_going shipped_init rfl rfl hrun₀ (by rw [hout]; rfl) hp₀ hpend
    (fun ops s q r p => by obtain ⟨_, _, h, -⟩ := main ops s q r p; exact h) N
  obtain ⟨c, n, h1, h2⟩ := main ops s a1 a2 a3
  exact ⟨ops₀ ++ ops, s, c, n, by rw [run_append _ _ hrun₀]; exact a2, (punctual_append _ _ hrun₀).2 ⟨hp₀, a3⟩, a4, h1, h2⟩

end Moovr.Props
