import Verif.Lemmas.Density
import Verif.Props.StepRace
/-!
# The step buffer has room for the steps of executed programs (C101)

`fill_loop_partial` (C16) shows that no entry is lost if any 254 consecutive entries last at least 750 ticks. Here: which programs
of the motion controller satisfy this, and one that does not.
-/
namespace Moovr.Props
open Num ExecSpec MotionCtrl MotionSpec PulseSpec StepQueueSpec

/-! ## Histories of the motion controller -/

private theorem last_pump (n : Nat) (cmds : List (Nat → Cmd)) : ∀ s : StepSignals, (StepSignals.pump n s cmds).1.lastOutput
    = (((StepSignals.pump n s cmds).2.getLast?).map Step.signals).getD s.lastOutput := by
  induction cmds with
  | nil => intro s; rfl
  | cons x xs ih =>
    intro s
    have hx := (StepSignals.tick_counters n s x).2.2
    simp only [StepSignals.pump]
    rw [ih]
    unfold StepSignals.flush
    split
    · simp only [StepSignals.output, Option.toList_some, List.singleton_append, List.getLast?_cons]
      cases (StepSignals.pump n _ xs).2.getLast? <;> simp
    · simp [hx]

private theorem justified_of {K : MotionKit} (ks : List (Call K.Req K.Time K.Ovr)) :
    ∀ c : MotionCtrl K, SInv c → (∀ k ∈ ks, ∀ m w, k ≠ .configure m w) → ∀ c' log, c.run ks = some (c', log) →
      Justified c.signals.maxTicksSinceLastOutput c.signals.lastOutput
        ((entriesOf log).map fun e => (e.timeBefore, e.signals)) := by
  induction ks with
  | nil => intro c _ _ c' log h; simp only [run, Option.some.injEq, Prod.mk.injEq] at h; rw [← h.2]; trivial
  | cons k ks ih =>
    intro c hs hk c' log h
    rw [run] at h
    obtain ⟨c₁, r, he, hs1⟩ := hs.call k
    rw [he] at h
    simp only [Option.map_eq_some_iff, Prod.exists, Prod.mk.injEq] at h
    obtain ⟨c₂, log', hr, rfl, rfl⟩ := h
    have hrest := ih c₁ hs1 (fun k hk' => hk k (List.mem_cons_of_mem _ hk')) c₂ log' hr
    have simple : c₁.signals = c.signals → r.entry = none →
        Justified c.signals.maxTicksSinceLastOutput c.signals.lastOutput
          ((entriesOf ((k, r) :: log')).map fun e => (e.timeBefore, e.signals)) := by
      intro h1 h3
      simp only [entriesOf, List.flatMap_cons, h3, List.nil_append, Option.toList_none]
      rw [← h1]
      exact hrest
    cases k with
    | configure m w => exact absurd rfl (hk _ (by simp) m w)
    | append r =>
      simp only [call, Option.some.injEq, Prod.mk.injEq] at he
      obtain ⟨rfl, rfl⟩ := he
      exact simple (by unfold append; split <;> rfl) rfl
    | start =>
      simp only [call, Option.some.injEq, Prod.mk.injEq] at he
      obtain ⟨rfl, rfl⟩ := he
      refine simple ?_ rfl
      unfold start; split
      · exact (sameButProf_optimize _).signals
      · rfl
    | stop =>
      simp only [call, Option.some.injEq, Prod.mk.injEq] at he
      obtain ⟨rfl, rfl⟩ := he
      exact simple (sameButProf_optimize _).signals rfl
    | flush =>
      simp only [call, Option.some.injEq, Prod.mk.injEq] at he
      obtain ⟨rfl, rfl⟩ := he
      exact simple (by unfold flushMotionBuffer; split <;> rfl) rfl
    | resetPosition =>
      simp only [call, Option.some.injEq, Prod.mk.injEq] at he
      obtain ⟨rfl, rfl⟩ := he
      exact simple rfl rfl
    | override o =>
      simp only [call, Option.some.injEq, Prod.mk.injEq] at he
      obtain ⟨rfl, rfl⟩ := he
      exact simple rfl rfl
    | calculate =>
      obtain ⟨c'', e, ts, hc, hsc, hne, hlen, hfuel, hpump, hmax⟩ := hs.calculate
      simp only [call, hc, Option.map_some, Option.some.injEq, Prod.mk.injEq] at he
      obtain ⟨rfl, rfl⟩ := he
      have ht : c.signals.ticksSinceLastOutput < max 1 c.signals.maxTicksSinceLastOutput := by rw [hs.ticks]; omega
      have hj := (step_output_justified K.n c.signals (ts.map Tick.cmd) ht hs.limit).1
      have hlast := last_pump K.n (ts.map Tick.cmd) c.signals
      rw [hpump] at hlast hj
      simp only [List.getLast?_singleton, Option.map_some, Option.getD_some] at hlast
      rw [hmax, hlast] at hrest
      exact ⟨hj.1, hj.2.1, hj.2.2.1, hrest⟩

theorem puts_written (ops : List FillLoop.Op) : ∀ f : FillLoop, written f ops = puts f ops := by
  induction ops with
  | nil => intro f; rfl
  | cons x ops ih =>
    intro f
    cases x with
    | check => exact ih _
    | interrupt => exact ih _
    | put s =>
      simp only [written, FillLoop.calls, puts, List.filterMap_append]
      have := ih (f.step (.put s))
      unfold written at this
      rw [this]
      congr 1
      split <;> rfl

/-- **C101** A controller is configured as shipped (at most 375 ticks per output) and then used in any way, such that in any time
of less than 750 ticks its steps and reversals change the lines of axis `a` at most `m a` times (`AtMost`), and the sum of all
`m a + 2` is less than 253. The main loop fills the shipped step buffer with these outputs, whenever there is a need, while the
interrupt reads them. Then no output is lost, as long as the interrupt never finds fewer than three outputs. -/
theorem buffer_room {K : MotionKit} (hn : K.n ≤ 15) {w : K.Time} {ks : List (Call K.Req K.Time K.Ovr)}
    (hcfg : ∀ k ∈ ks, ∀ m w, k ≠ .configure m w) {c : MotionCtrl K} {log}
    (hrun : (fresh K).run (.configure 375 w :: ks) = some (c, log)) {m : Nat → Nat}
    (hm : ∀ a, a < K.n → AtMost (m a) ((ticksOf log).map fun x => x.cmd a))
    (hsum : ((List.range K.n).map fun a => m a + 2).sum < 253) {b₀ b : StepBuffer} (hb : StepBuffer.InitReturns b₀ b)
    (h1 : b₀.minimumTotalTime = 1500) (h2 : b₀.minimumLevel = 4) (ops : List FillLoop.Op)
    (hputs : puts ⟨b, false, []⟩ ops <+: entriesOf log)
    (hfed : FedRev (List.replicate 4 ⟨375, 0⟩) (FillLoop.calls ⟨b, false, []⟩ ops).reverse) :
    (FillLoop.run ⟨b, false, []⟩ ops).lost = [] := by
  have hwave := motion_entries_are_waveform _ _ _ hrun
  have hjust : Justified 375 0 ((entriesOf log).map fun e => (e.timeBefore, e.signals)) := by
    rw [run] at hrun
    simp only [call, Option.map_eq_some_iff, Prod.exists, Prod.mk.injEq] at hrun
    obtain ⟨c₂, log', hr, rfl, rfl⟩ := hrun
    obtain ⟨c₁, r, he, hs1⟩ := sInv_fresh (K := K) |>.call (.configure 375 w)
    simp only [call, Option.some.injEq, Prod.mk.injEq] at he
    obtain ⟨rfl, rfl⟩ := he
    have := justified_of ks _ hs1 hcfg _ _ hr
    exact this
  obtain ⟨p1, p2⟩ := primed_entries hjust hwave
  rw [← puts_written] at hputs
  refine (FillLoop.none_lost hb h1 h2 (W := entriesOf log) ⟨?_, ?_⟩ ops hfed hputs).1
  · have key : ∀ (l : List Step) (x : BitVec 32), Justified 375 x (l.map fun e => (e.timeBefore, e.signals)) →
        ∀ s ∈ l, s.timeBefore ≤ 8388608 := by
      intro l
      induction l with
      | nil => intro x _ s hs; simp at hs
      | cons y l ih =>
        intro x hj s hs
        rcases List.mem_cons.1 hs with rfl | hs
        · have := hj.2.1
          have e : max 1 375 = 375 := rfl
          rw [e] at this
          show s.timeBefore ≤ _
          have : s.timeBefore ≤ 375 := this
          omega
        · exact ih _ hj.2.2.2 s hs
    exact key _ _ p1
  · intro i hi
    refine entries_last hn p1 p2 (m := m) (fun a ha => ?_) hsum i hi
    rw [List.map_append, List.map_replicate, List.map_map]
    exact (hm a ha).quiet 1500

/-! ## Programs -/

/-- An axis does not move during a program: no motion has a component in its direction, and it starts closer to its position than
what makes it step. -/
structure Still (M : Machine) (d : Nat → ℝ) (c : MotionCtrl M.kit) (axis : Nat) (prog : List (SimplifiedMotion × Num)) : Prop where
  still : ∀ x ∈ prog, x.1.direction axis = 0
  near : |d axis * M.stepsPerMm axis - c.machinePosition axis| < 1 / 2 + M.hysteresis

/-- An axis that does not move gets no steps. -/
theorem still_quiet {M : Machine} {δ : ℝ} {d : Nat → ℝ} {c c' : MotionCtrl M.kit} {rs ks log}
    (h : Performs M δ d c rs ks c' log) {axis : Nat} (ha : axis < M.n)
    (hs : Still M d c axis (program c.overrides.feedOverride rs ks)) :
    ∀ x ∈ (ticksOf log).map fun x => x.cmd axis, x = none := by
  obtain ⟨js, h1, h2, h3, h4, h5⟩ := performs_trace h
  have hsp := h.follow.steps axis ha
  have hconst : ∀ t, 0 ≤ t → placeAt d js t axis = placeAt d js 0 axis := by
    intro t ht
    have := placeAt_lipschitz (w := 0) ha le_rfl js (fun j hj => (h2 j hj).toSound) h4 (fun job hjob a b h0 hab hb => by
      have hm : (job.r, job.f) ∈ program c.overrides.feedOverride rs ks := by
        rw [← h1]; exact List.mem_map_of_mem (f := fun j : Job => (j.r, j.f)) hjob
      have := place_lipschitz (h3 job hjob) ha (job.S b) (job.S a)
      have e : job.r.direction axis = 0 := hs.still _ hm
      rw [e, abs_zero, zero_mul] at this
      rw [zero_mul]; exact this) le_rfl ht
    rw [zero_mul] at this
    exact sub_eq_zero.1 (abs_nonpos_iff.1 this)
  have hstart : placeAt d js 0 axis = d axis := by
    cases js with
    | nil => rfl
    | cons j js =>
      have hj := (h2 j (by simp)).toSound
      rw [placeAt, if_pos hj.pos.le]
      show place j.r axis (j.S 0) = _
      rw [hj.start]
      exact h4.1 axis ha
  have hnear := abs_lt.1 hs.near
  have key : ∀ (l : List Cmd) (t : ℝ), 0 ≤ t → Trace M δ d js axis t (c.machinePosition axis) l → ∀ x ∈ l, x = none := by
    intro l
    induction l with
    | nil => intro t _ _ x hx; simp at hx
    | cons y l ih =>
      intro t ht htr x hx
      have ht' : 0 ≤ t + δ := add_nonneg ht h.follow.width.le
      have hy : y = none := by
        cases y with
        | none => rfl
        | some dir =>
          exfalso
          cases dir with
          | forward =>
            have := htr.1.fwd rfl
            rw [hconst _ ht', hstart] at this
            linarith
          | backward =>
            have := htr.1.bwd rfl
            rw [hconst _ ht', hstart] at this
            linarith
      subst hy
      rcases List.mem_cons.1 hx with rfl | hx
      · rfl
      · have h6 := htr.2
        simp only [stepsOf, add_zero] at h6
        exact ih _ ht' h6 x hx
  exact key _ 0 le_rfl (h5 axis ha)

/-- A program for the shipped machine that leaves time to the step buffer: no axis is faster than 14 mm/s; or one axis does not
move, and no other is faster than 20 mm/s; or only one axis moves, at any speed. -/
def Calm (d : Nat → ℝ) (c : MotionCtrl cnc3axis.kit) (prog : List (SimplifiedMotion × Num)) : Prop :=
  (∀ axis, axis < 3 → AxisSpeed cnc3axis axis prog 14) ∨
  (∃ s, s < 3 ∧ Still cnc3axis d c s prog ∧ ∀ axis, axis < 3 → axis ≠ s → AxisSpeed cnc3axis axis prog 20) ∨
  ∃ s, ∀ axis, axis < 3 → axis ≠ s → Still cnc3axis d c axis prog

private theorem apart_of {d : Nat → ℝ} {c c' : MotionCtrl cnc3axis.kit} {rs ks log}
    (h : Performs cnc3axis (1 / 60000) d c rs ks c' log) {axis : Nat} (ha : axis < 3) {w : ℝ} {g : Nat} (hg : g ≤ 44)
    (hgw : (g : ℝ) * (w / 300) < 9 / 10)
    (hw : AxisSpeed cnc3axis axis (program c.overrides.feedOverride rs ks) w) :
    Apart g ((ticksOf log).map fun x => x.cmd axis) := by
  intro i j d₁ d₂ hs
  have hrev := (cnc3axis_steps_apart h ha hs).2
  have hlt := hs.lt
  by_cases e : d₁ = d₂
  · refine ⟨?_, fun hn => absurd e hn⟩
    have := (steps_apart h ha hw hs).1 e
    by_contra hc
    have hk : ((j : ℝ) - i + 1) ≤ g := by
      have : j + 1 ≤ i + g := by omega
      have : (j : ℝ) + 1 ≤ i + g := by exact_mod_cast this
      linarith
    norm_num [travel, cnc3axis] at this
    have hw0 := hw.1
    have h3 : ((j : ℝ) - i + 1) * (w / 300) ≤ g * (w / 300) := mul_le_mul_of_nonneg_right hk (by positivity)
    have e4 : (w * (1 / 60000) * 200 : ℝ) = w / 300 := by ring
    first
      | rw [e4] at this; linarith
      | (ring_nf at this h3 hgw; linarith)
  · have := hrev e
    exact ⟨by omega, fun _ => by omega⟩

/-- Each axis of a calm program, and what its steps need. -/
private theorem calm_loads {d : Nat → ℝ} {c c' : MotionCtrl cnc3axis.kit} {rs ks log}
    (h : Performs cnc3axis (1 / 60000) d c rs ks c' log) (hc : Calm d c (program c.overrides.feedOverride rs ks)) :
    ∃ m : Nat → Nat, (∀ a, a < 3 → AtMost (m a) ((ticksOf log).map fun x => x.cmd a)) ∧
      ((List.range 3).map fun a => m a + 2).sum < 253 := by
  rcases hc with hc | ⟨s, hs3, hs, hc⟩ | ⟨s, hc⟩
  · refine ⟨fun _ => 81, fun a ha => ?_, by decide⟩
    exact (apart_of h ha (g := 19) (by omega) (by norm_num) (hc a ha)).atMost (by omega)
  · refine ⟨fun a => if a = s then 0 else 118, fun a ha => ?_, ?_⟩
    · by_cases e : a = s
      · subst e; simp only [if_true]
        exact atMost_none (still_quiet h ha hs)
      · simp only [if_neg e]
        exact (apart_of h ha (g := 13) (by omega) (by norm_num) (hc a ha e)).atMost (by omega)
    · match s, hs3 with
      | 0, _ => decide
      | 1, _ => decide
      | 2, _ => decide
  · refine ⟨fun a => if a = s then 190 else 0, fun a ha => ?_, ?_⟩
    · by_cases e : a = s
      · subst e; simp only [if_true]
        exact (apart_of h ha (w := 30) (g := 8) (by omega) (by norm_num) ⟨by norm_num, fun _ _ => .inl le_rfl⟩).atMost (by omega)
      · simp only [if_neg e]
        exact atMost_none (still_quiet h ha (hc a ha e))
    · have : ∀ a, (if a = s then 190 else 0) ≤ 190 := fun a => by split <;> omega
      simp only [show List.range 3 = [0, 1, 2] from rfl, List.map_cons, List.map_nil, List.sum_cons, List.sum_nil]
      split <;> split <;> split <;> omega

theorem run_concat {K : MotionKit} (ks₁ ks₂ : List (Call K.Req K.Time K.Ovr)) :
    ∀ {c c₁ c' : MotionCtrl K} {log₁ log₂}, c.run ks₁ = some (c₁, log₁) → c₁.run ks₂ = some (c', log₂) →
      c.run (ks₁ ++ ks₂) = some (c', log₁ ++ log₂) := by
  induction ks₁ with
  | nil =>
    intro c c₁ c' log₁ log₂ h1 h2
    simp only [run, Option.some.injEq, Prod.mk.injEq] at h1
    obtain ⟨rfl, rfl⟩ := h1
    exact h2
  | cons k ks ih =>
    intro c c₁ c' log₁ log₂ h1 h2
    rw [run] at h1
    split at h1
    · simp at h1
    · rename_i c₀ x hx
      simp only [Option.map_eq_some_iff, Prod.exists, Prod.mk.injEq] at h1
      obtain ⟨c₂, l, h3, rfl, rfl⟩ := h1
      rw [List.cons_append, run, hx]
      simp [ih h3 h2]

private theorem feeds_configure {M : Machine} (ks : List (MCall M)) : ∀ {c c' : MotionCtrl M.kit} {log}, Feeds M c ks →
    c.run ks = some (c', log) → ∀ k ∈ ks, ∀ m w, k ≠ .configure m w := by
  induction ks with
  | nil => intro c c' log _ _ k hk; simp at hk
  | cons k ks ih =>
    intro c c' log hf h
    rw [run] at h
    split at h
    · simp at h
    · rename_i c₀ x hx
      simp only [Option.map_eq_some_iff, Prod.exists, Prod.mk.injEq] at h
      obtain ⟨c₂, l, h3, rfl, rfl⟩ := h
      intro k' hk' m w
      rcases List.mem_cons.1 hk' with rfl | hk'
      · rcases hf.1 with h | ⟨o, h⟩ | ⟨r, h, -⟩ <;> rw [h]
        · simp
        · simp
        · intro h; cases h
      · exact ih (hf.2 _ _ hx) h3 k' hk' m w

private theorem map_quiet {α : Type _} {ts : List (Tick α)} {a : Nat} (h : ∀ x ∈ ts, x.cmd a = none) :
    ts.map (fun x => x.cmd a) = List.replicate ts.length none := by
  induction ts with
  | nil => rfl
  | cons x ts ih =>
    rw [List.map_cons, h x (by simp), ih fun y hy => h y (List.mem_cons_of_mem _ hy)]
    rfl

/-- **C101** The shipped controller executes a calm program (after calls `pre` that made no steps). The main loop fills the shipped
step buffer with its outputs while the interrupt reads them, which never finds fewer than three: no output, and so no step, is
lost. -/
theorem program_buffer_room_partial {d : Nat → ℝ} {pre : List (MCall cnc3axis)} {c c' : MotionCtrl cnc3axis.kit} {logp rs ks log}
    (hpre : (fresh cnc3axis.kit).run (.configure 375 (fin (1 / 60000)) :: pre) = some (c, logp))
    (hcfg : ∀ k ∈ pre, ∀ m w, k ≠ .configure m w) (hquiet : ∀ x ∈ ticksOf logp, ∀ axis, axis < 3 → x.cmd axis = none)
    (h : Performs cnc3axis (1 / 60000) d c rs ks c' log) (hc : Calm d c (program c.overrides.feedOverride rs ks)) :
    ∃ log', (fresh cnc3axis.kit).run (.configure 375 (fin (1 / 60000)) :: pre ++ (rs.map (push cnc3axis) ++ [.start] ++ ks)) =
        some (c', log') ∧
      ∀ b₀ b, StepBuffer.InitReturns b₀ b → b₀.minimumTotalTime = 1500 → b₀.minimumLevel = 4 → ∀ ops : List FillLoop.Op,
        puts ⟨b, false, []⟩ ops <+: entriesOf log' →
        FedRev (List.replicate 4 ⟨375, 0⟩) (FillLoop.calls ⟨b, false, []⟩ ops).reverse →
        (FillLoop.run ⟨b, false, []⟩ ops).lost = [] := by
  obtain ⟨c₀, log₀, h₀, hf, hrun⟩ := h.run
  have hall := run_concat (K := cnc3axis.kit) _ _ hpre (run_concat (K := cnc3axis.kit) _ _ h₀ hrun)
  refine ⟨_, hall, fun b₀ b hb h1 h2 ops hputs hfed => ?_⟩
  have hempty : ticksOf log₀ = [] := by
    have hm := h.follow
    have hs : Suited cnc3axis (1 / 60000) (travel cnc3axis (1 / 60000)) := ⟨hm.width, hm.hysteresis, hm.steps, fun axis ha =>
      mul_nonneg (mul_nonneg (h.machine.vMax axis ha).le hm.width.le) (hm.steps axis ha), fun axis ha => le_rfl,
      fun axis ha => by have := hm.rate axis ha; unfold Machine.perTick; unfold travel at this ⊢; linarith⟩
    exact (executed h.machine hs h.idle h.some h.fit h.executable h.feed h.near h₀ hf hrun).1
  obtain ⟨m, hm, hsum⟩ := calm_loads h hc
  refine buffer_room (K := cnc3axis.kit) (show cnc3axis.n ≤ 15 by decide) (w := fin (1 / 60000))
    (ks := pre ++ (rs.map (push cnc3axis) ++ [.start] ++ ks)) ?_ (by rw [← List.cons_append]; exact hall) (m := m) ?_ hsum hb h1 h2 ops hputs hfed
  · intro k hk
    simp only [List.mem_append, List.mem_map, List.mem_singleton] at hk
    rcases hk with hk | (⟨r, -, hk⟩ | hk) | hk
    · exact hcfg _ hk
    · intro m w e; rw [← hk] at e; cases e
    · intro m w e; rw [hk] at e; cases e
    · exact feeds_configure ks hf hrun _ hk
  · intro a ha
    rw [ticks_append, ticks_append, hempty, List.nil_append, List.map_append,
      map_quiet fun x hx => hquiet x hx a ha]
    exact (hm a ha).quiet _

end Moovr.Props
