import Verif.Props.Execute
/-!
# Timing of the steps of whole executions (C75, C76)

Two successive steps of an axis while a program is executed, and what this means for the pulses on the wire.
-/
namespace Moovr.Props
open Num ExecSpec MotionCtrl MotionSpec PulseSpec

/-- A program of connected motions is executed: the first motions `rs` are appended to an idle controller, which is then started;
then it is called with `ks`. (The hypotheses of `program_executed`.) -/
structure Performs (M : Machine) (δ : ℝ) (d : Nat → ℝ) (c : MotionCtrl M.kit) (rs : List SimplifiedMotion) (ks : List (MCall M))
    (c' : MotionCtrl M.kit) (log : Log M.kit.Req (Option M.kit.Req) M.kit.Time M.kit.Ovr) : Prop where
  machine : M.Ok
  follow : CanFollow M δ (1 / 2)
  idle : Idle M δ c
  some : rs ≠ []
  fit : rs.length ≤ 32
  executable : ∀ r ∈ rs, Executable M.n r
  feed : ∀ r ∈ rs, (r.vFeed * c.overrides.feedOverride).Pos
  near : ∀ axis, axis < M.n → |d axis * M.stepsPerMm axis - c.machinePosition axis| ≤ 1 / 2 + M.hysteresis + travel M δ axis
  run : ∃ c₀ log₀, c.run (rs.map (push M) ++ [.start]) = .some (c₀, log₀) ∧ Feeds M c₀ ks ∧ c₀.run ks = .some (c', log)
  connected : Connected M.n d ((program c.overrides.feedOverride rs ks).map Prod.fst)
  motions : ∀ x ∈ program c.overrides.feedOverride rs ks, Long M δ x.1 ∧ Brief M δ x.1 x.2 ∧ Reachable M x.1

/-- A bound on the speed of an axis during a program: its maximum speed, or what the feed rates amount to in this axis. -/
def AxisSpeed (M : Machine) (axis : Nat) (prog : List (SimplifiedMotion × Num)) (w : ℝ) : Prop :=
  0 ≤ w ∧ ∀ x ∈ prog, M.vMax axis ≤ w ∨ ∃ f, x.2 = fin f ∧ |x.1.direction axis| * f ≤ w

/-- Tick `i` and tick `j` are two successive ticks on which an axis makes a step. -/
structure Successive (cmds : List Cmd) (i j : Nat) (d₁ d₂ : Dir) : Prop where
  lt : i < j
  first : cmds[i]? = some (some d₁)
  second : cmds[j]? = some (some d₂)
  quiet : ∀ k, i < k → k < j → cmds[k]? = some none

theorem performs_trace {M : Machine} {δ : ℝ} {d : Nat → ℝ} {c c' : MotionCtrl M.kit} {rs ks log}
    (h : Performs M δ d c rs ks c' log) :
    ∃ js : List Job, js.map (fun j => (j.r, j.f)) = program c.overrides.feedOverride rs ks ∧ (∀ j ∈ js, j.Ok M) ∧
      (∀ j ∈ js, Executable M.n j.r) ∧ Connected M.n d (js.map Job.r) ∧ ∀ axis, axis < M.n →
        Trace M δ d js axis 0 (c.machinePosition axis) ((ticksOf log).map fun x => x.cmd axis) := by
  obtain ⟨c₀, log₀, h₀, hf, hrun⟩ := h.run
  have hm := h.follow
  have hpos : ∀ axis, axis < M.n → 0 ≤ travel M δ axis := fun axis ha =>
    mul_nonneg (mul_nonneg (h.machine.vMax axis ha).le hm.width.le) (hm.steps axis ha)
  have hs : Suited M δ (travel M δ) := ⟨hm.width, hm.hysteresis, hm.steps, hpos, fun axis ha => le_rfl,
    fun axis ha => by have := hm.rate axis ha; unfold Machine.perTick; unfold travel at this ⊢; linarith⟩
  obtain ⟨-, js, h1, h2, -, h4, h5, -⟩ := executed h.machine hs h.idle h.some h.fit h.executable h.feed h.near h₀ hf hrun
  have hmem : ∀ j ∈ js, (j.r, j.f) ∈ program c.overrides.feedOverride rs ks := fun j hj => by
    rw [← h1]; exact List.mem_map_of_mem (f := fun j : Job => (j.r, j.f)) hj
  have hmap : js.map Job.r = (program c.overrides.feedOverride rs ks).map Prod.fst := by
    rw [← h1, List.map_map]; rfl
  have hcon : Connected M.n d (js.map Job.r) := by rw [hmap]; exact h.connected
  exact ⟨js, h1, h2, h4, hcon, h5 ⟨fun j hj => ⟨Job.short_of (h2 j hj) (h.motions _ (hmem j hj)).2.1, (h.motions _ (hmem j hj)).2.2⟩,
    hcon, .inr ⟨fun _ _ => rfl, fun j hj => Job.long_of (h2 j hj).toSound (h.motions _ (hmem j hj)).1⟩⟩⟩

/-- **C75** While a program is executed, two successive steps of an axis are not too close together: in the same direction, the
time must suffice to travel a whole step (less the travel within a tick) at the speed of the program; in opposite directions, it
must suffice to turn the axis round. -/
theorem steps_apart {M : Machine} {δ : ℝ} {d : Nat → ℝ} {c c' : MotionCtrl M.kit} {rs ks log}
    (h : Performs M δ d c rs ks c' log) {axis : Nat} (ha : axis < M.n) {w : ℝ}
    (hw : AxisSpeed M axis (program c.overrides.feedOverride rs ks) w) {i j : Nat} {d₁ d₂ : Dir}
    (hs : Successive ((ticksOf log).map fun x => x.cmd axis) i j d₁ d₂) :
    (d₁ = d₂ → 1 - travel M δ axis ≤ (j - i + 1) * (w * δ * M.stepsPerMm axis)) ∧
    (d₁ ≠ d₂ → 2 * M.hysteresis ≤ (j - i) * (j - i + 1) * (M.accel axis * δ ^ 2 * M.stepsPerMm axis)) := by
  obtain ⟨js, h1, h2, h3, h4, h5⟩ := performs_trace h
  obtain ⟨hj, ej⟩ := List.getElem?_eq_some_iff.1 hs.second
  obtain ⟨hi, ei⟩ := List.getElem?_eq_some_iff.1 hs.first
  refine Trace.apart h.machine h.follow.width ha (h.follow.steps axis ha) (fun j hj => (h2 j hj).toSound) h3 h4 hw.1 ?_ (h5 axis ha) hs.lt hj ?_ ei ej
  · intro job hjob a b h0 hab hb
    have hm : (job.r, job.f) ∈ program c.overrides.feedOverride rs ks := by
      rw [← h1]; exact List.mem_map_of_mem (f := fun j : Job => (j.r, j.f)) hjob
    rcases hw.2 _ hm with hv | ⟨f, hf, hle⟩
    · exact ((h2 job hjob).speed axis ha a b h0 hab hb).trans (mul_le_mul_of_nonneg_right hv (sub_nonneg.2 hab))
    · refine (place_lipschitz (h3 job hjob) ha _ _).trans ?_
      have hfe := (h2 job hjob).feed f hf a b h0 hab hb
      rw [abs_of_nonneg (sub_nonneg.2 ((h2 job hjob).forward a b h0 hab hb))]
      calc |job.r.direction axis| * (job.S b - job.S a) ≤ |job.r.direction axis| * (f * (b - a)) :=
            mul_le_mul_of_nonneg_left hfe (abs_nonneg _)
        _ = |job.r.direction axis| * f * (b - a) := by ring
        _ ≤ w * (b - a) := mul_le_mul_of_nonneg_right hle (sub_nonneg.2 hab)
  · intro k hk h1 h2
    obtain ⟨_, e⟩ := List.getElem?_eq_some_iff.1 (hs.quiet k h1 h2)
    exact e

/-! ## C76: pulses on the wire -/

/-- The machine cannot step on consecutive ticks: an axis travels less than a third of a step per tick, and cannot turn round
within two ticks. -/
structure Separates (M : Machine) (δ : ℝ) : Prop where
  rate : ∀ axis, axis < M.n → travel M δ axis < 1 / 3
  turn : ∀ axis, axis < M.n → M.accel axis * δ ^ 2 * M.stepsPerMm axis < M.hysteresis

private theorem spaced_of {l : List Cmd} (h : ∀ i d₁ d₂, ¬ Successive l i (i + 1) d₁ d₂) : Spaced l := by
  induction l with
  | nil => trivial
  | cons c l ih =>
    have ht : Spaced l := ih fun i d₁ d₂ hs => h (i + 1) d₁ d₂
      ⟨by omega, by simpa using hs.first, by simpa using hs.second, fun k h1 h2 => by omega⟩
    cases l with
    | nil => trivial
    | cons c' l =>
      refine ⟨fun hc => ?_, ht⟩
      obtain ⟨d₁, e₁⟩ := Option.isSome_iff_exists.1 hc.1
      obtain ⟨d₂, e₂⟩ := Option.isSome_iff_exists.1 hc.2
      exact h 0 d₁ d₂ ⟨by omega, by simp [e₁], by simp [e₂], fun k h1 h2 => by omega⟩

theorem spaced_append {l₁ l₂ : List Cmd} (h1 : Spaced l₁) (h2 : Spaced l₂) (hl : ∀ x ∈ l₁.getLast?, x = none) :
    Spaced (l₁ ++ l₂) := by
  induction l₁ with
  | nil => exact h2
  | cons c l ih =>
    cases l with
    | nil =>
      have hc : c = none := hl c (by simp)
      subst hc
      cases l₂ with
      | nil => trivial
      | cons c' l => exact ⟨by simp, h2⟩
    | cons c' l => exact ⟨h1.1, ih h1.2 (by simpa using hl)⟩

/-- While a program is executed, no axis steps on two consecutive ticks. -/
theorem program_spaced {M : Machine} {δ : ℝ} {d : Nat → ℝ} {c c' : MotionCtrl M.kit} {rs ks log}
    (h : Performs M δ d c rs ks c' log) (hsep : Separates M δ) {axis : Nat} (ha : axis < M.n) :
    Spaced ((ticksOf log).map fun x => x.cmd axis) := by
  refine spaced_of fun i d₁ d₂ hs => ?_
  obtain ⟨a1, a2⟩ := steps_apart h ha (w := M.vMax axis) ⟨(h.machine.vMax axis ha).le, fun _ _ => .inl le_rfl⟩ hs
  have h1 := hsep.rate axis ha
  have h2 := hsep.turn axis ha
  push_cast at a1 a2
  by_cases e : d₁ = d₂
  · have := a1 e
    unfold travel at *
    linarith
  · have := a2 e
    linarith

private theorem run_join {K : MotionKit} (ks₁ ks₂ : List (Call K.Req K.Time K.Ovr)) :
    ∀ {c c₁ c' : MotionCtrl K} {log₁ log₂}, c.run ks₁ = some (c₁, log₁) → c₁.run ks₂ = some (c', log₂) →
      c.run (ks₁ ++ ks₂) = some (c', log₁ ++ log₂) := by
  induction ks₁ with
  | nil =>
    intro c c₁ c' log₁ log₂ h1 h2
    simp only [run, Option.some.injEq, Prod.mk.injEq] at h1
    obtain ⟨rfl, rfl⟩ := h1
    exact h2
  | cons k ks ih =>
    intro c c₁ c' log₁ log₂ h1 h2
    rw [run] at h1
    split at h1
    · simp at h1
    · rename_i c₀ x hx
      simp only [Option.map_eq_some_iff, Prod.exists, Prod.mk.injEq] at h1
      obtain ⟨c₂, l, h3, rfl, rfl⟩ := h1
      rw [List.cons_append, run, hx]
      simp [ih h3 h2]

private theorem run_calls {K : MotionKit} (ks : List (Call K.Req K.Time K.Ovr)) :
    ∀ {c c' : MotionCtrl K} {log}, c.run ks = some (c', log) → log.map Prod.fst = ks := by
  induction ks with
  | nil =>
    intro c c' log h
    simp only [run, Option.some.injEq, Prod.mk.injEq] at h
    rw [← h.2]; rfl
  | cons k ks ih =>
    intro c c' log h
    rw [run] at h
    split at h
    · simp at h
    · rename_i c₀ x hx
      simp only [Option.map_eq_some_iff, Prod.exists, Prod.mk.injEq] at h
      obtain ⟨c₂, l, h3, rfl, rfl⟩ := h
      rw [List.map_cons, ih h3]

private theorem feeds_reset {M : Machine} (ks : List (MCall M)) : ∀ {c c' : MotionCtrl M.kit} {log}, Feeds M c ks →
    c.run ks = some (c', log) → ∀ k ∈ ks, k.isReset = false := by
  induction ks with
  | nil => intro c c' log _ _ k hk; simp at hk
  | cons k ks ih =>
    intro c c' log hf h
    rw [run] at h
    split at h
    · simp at h
    · rename_i c₀ x hx
      simp only [Option.map_eq_some_iff, Prod.exists, Prod.mk.injEq] at h
      obtain ⟨c₂, l, h3, rfl, rfl⟩ := h
      intro k' hk'
      rcases List.mem_cons.1 hk' with rfl | hk'
      · rcases hf.1 with h | ⟨o, h⟩ | ⟨r, h, -⟩ <;> rw [h] <;> rfl
      · exact ih (hf.2 _ _ hx) h3 k' hk'

/-- **C76** After a history without position reset whose steps were separate pulses and that ended with a quiet tick (`pre`), a
program is executed: then all pulses that were put on the wire (rising edges, each in the direction shown), including the one still
to come in the following tick, add up to the position. No step of the program is lost or merged. -/
theorem program_pulses {M : Machine} {δ : ℝ} {d : Nat → ℝ} {c c' : MotionCtrl M.kit} {rs ks log} {pre : List (MCall M)} {logp}
    (hpre : (fresh M.kit).run pre = some (c, logp)) (hreset : ∀ k ∈ pre, k.isReset = false) (hn : M.n ≤ 15)
    (h : Performs M δ d c rs ks c' log) (hsep : Separates M δ) {axis : Nat} (ha : axis < M.n)
    (hspaced : Spaced ((ticksOf logp).map fun x => x.cmd axis))
    (hlast : ∀ x ∈ ((ticksOf logp).map fun x => x.cmd axis).getLast?, x = none) :
    ∃ log', (fresh M.kit).run (pre ++ (rs.map (push M) ++ [.start] ++ ks)) = some (c', log') ∧ ∃ next : BitVec 32,
      pulseCount false ((expand 0 ((entriesOf log').map fun e => (e.timeBefore, e.signals)) ++ [next]).map
        fun v => (v.getLsbD (2 * axis), v.getLsbD (2 * axis + 1))) = c'.machinePosition axis := by
  obtain ⟨c₀, log₀, h₀, hf, hrun⟩ := h.run
  have hall := run_join _ _ hpre (run_join _ _ h₀ hrun)
  refine ⟨_, hall, motion_position_pulses_partial _ _ _ hall hn axis ha ?_ ?_⟩
  · have hk := run_calls _ hall
    intro x hx
    have hm : x.1 ∈ pre ++ (rs.map (push M) ++ [.start] ++ ks) := by rw [← hk]; exact List.mem_map_of_mem hx
    simp only [List.mem_append, List.mem_map, List.mem_singleton] at hm
    rcases hm with hm | (⟨r, -, hm⟩ | hm) | hm
    · exact hreset _ hm
    · rw [← hm]; rfl
    · rw [hm]; rfl
    · exact feeds_reset ks hf hrun _ hm
  · have hempty : ticksOf log₀ = [] := by
      have hm := h.follow
      have hs : Suited M δ (travel M δ) := ⟨hm.width, hm.hysteresis, hm.steps, fun axis ha =>
        mul_nonneg (mul_nonneg (h.machine.vMax axis ha).le hm.width.le) (hm.steps axis ha), fun axis ha => le_rfl,
        fun axis ha => by have := hm.rate axis ha; unfold Machine.perTick; unfold travel at this ⊢; linarith⟩
      exact (executed h.machine hs h.idle h.some h.fit h.executable h.feed h.near h₀ hf hrun).1
    rw [ticks_append, ticks_append, hempty, List.nil_append, List.map_append]
    exact spaced_append hspaced (program_spaced h hsep ha) hlast

/-! ## Examples -/

/-- The shipped machine steps an axis at most every 8 ticks, and needs 67 ticks before a step in the opposite direction. -/
theorem cnc3axis_steps_apart {d : Nat → ℝ} {c c' : MotionCtrl cnc3axis.kit} {rs ks log}
    (h : Performs cnc3axis (1 / 60000) d c rs ks c' log) {axis : Nat} (ha : axis < 3) {i j : Nat} {d₁ d₂ : Dir}
    (hs : Successive ((ticksOf log).map fun x => x.cmd axis) i j d₁ d₂) : (d₁ = d₂ → i + 8 ≤ j) ∧ (d₁ ≠ d₂ → i + 67 ≤ j) := by
  obtain ⟨a1, a2⟩ := steps_apart h ha (w := 30) ⟨by norm_num, fun _ _ => .inl le_rfl⟩ hs
  have hij := hs.lt
  obtain ⟨k, rfl⟩ := Nat.exists_eq_add_of_lt hij
  push_cast at a1 a2
  constructor
  · intro e
    have := a1 e
    norm_num [travel, cnc3axis] at this
    have h1 : (7 : ℝ) ≤ k := by linarith
    have : 7 ≤ k := by exact_mod_cast h1
    omega
  · intro e
    have := a2 e
    norm_num [Machine.accel, cnc3axis] at this
    by_contra hlt
    have hk : (k : ℝ) ≤ 65 := by exact_mod_cast (by omega : k ≤ 65)
    have hk0 : (0 : ℝ) ≤ k := Nat.cast_nonneg k
    nlinarith

/-- On the shipped machine the pulses are always separate. -/
theorem cnc3axis_separates : Separates cnc3axis (1 / 60000) where
  rate _ _ := by norm_num [travel, cnc3axis]
  turn _ _ := by norm_num [Machine.accel, cnc3axis]

namespace ExecuteExample
open Example

/-- The program of one motion of 1 mm with 8000 ticks per second. -/
theorem performs (n : Nat) : ∃ c c' logp log, (fresh machine.kit).run [.configure 100 (fin (1 / 8000))] = some (c, logp) ∧
    ticksOf logp = [] ∧ Performs machine (1 / 8000) (fun _ => 0) c [request] (List.replicate n .calculate) c' log := by
  obtain ⟨c', log, hrun, -⟩ := motion_history_returns (K := machine.kit)
    ([.configure 100 (fin (1 / 8000))] ++ (([request].map (push machine) ++ [.start]) ++ List.replicate n .calculate))
  obtain ⟨c₁, l₁, l₂, h1, h2, -⟩ := run_split (K := machine.kit) _ _ hrun
  obtain ⟨c₀, l₃, l₄, h3, h4, -⟩ := run_split (K := machine.kit) _ _ h2
  have h1' := h1
  simp only [run, call, Option.map_some, Option.some.injEq, Prod.mk.injEq] at h1'
  obtain ⟨rfl, rfl⟩ := h1'
  have h0 : ∀ axis, axis < machine.n → axis = 0 := by simp [machine]
  have hfeed : (fresh machine.kit |>.configure 100 (fin (1 / 8000))).overrides.feedOverride = fin 1 := rfl
  have hpos : (fresh machine.kit |>.configure 100 (fin (1 / 8000))).machinePosition = fun _ => 0 := rfl
  have hprog : program (M := machine) (fin 1) [request] (List.replicate n .calculate) = [(request, request.vFeed * fin 1)] := by
    show [(request, request.vFeed * fin 1)] ++ requested (M := machine) _ _ = _
    rw [requested_calculate]; rfl
  refine ⟨_, c', _, l₄, h1, by simp [ticksOf], machine_ok, ⟨by norm_num, by norm_num [machine], fun _ _ => by norm_num [machine],
    fun _ _ => by norm_num [travel, machine]⟩, idle_configured machine 100 (1 / 8000), by simp, by simp,
    by simpa using executable_request, ?_, ?_, ⟨c₀, l₃, h3, feeds_calculate _ _, h4⟩, ?_, ?_⟩
  · intro r hr
    rw [List.mem_singleton.1 hr, hfeed]
    show (fin 2 * fin 1).Pos
    rw [fin_mul]; norm_num [Num.Pos]
  · intro axis ha; rw [hpos]; norm_num [machine, travel]
  · rw [hfeed, hprog]
    exact ⟨fun axis ha => by rw [h0 axis ha]; exact place_request 0, trivial⟩
  · rw [hfeed, hprog]
    intro x hx
    rw [List.mem_singleton.1 hx]
    exact ⟨long (.inl rfl) (by norm_num), brief (.inl rfl) (by norm_num), reachable (.inl rfl)⟩

/-- C75: at a feed rate of 2 mm/s with 200 steps per mm and 8000 ticks per second, the steps are at least 14 ticks apart. -/
example (n : Nat) : ∃ c c' logp log, (fresh machine.kit).run [.configure 100 (fin (1 / 8000))] = some (c, logp) ∧
    Performs machine (1 / 8000) (fun _ => 0) c [request] (List.replicate n .calculate) c' log ∧
    ∀ i j d, Successive ((ticksOf log).map fun x => x.cmd 0) i j d d → i + 14 ≤ j := by
  obtain ⟨c, c', logp, log, h1, h2, h3⟩ := performs n
  refine ⟨c, c', logp, log, h1, h3, fun i j d hs => ?_⟩
  have hfeed : c.overrides.feedOverride = fin 1 := by
    simp only [run, call, Option.map_some, Option.some.injEq, Prod.mk.injEq] at h1
    rw [← h1.1]; rfl
  have := (steps_apart h3 (axis := 0) one_pos (w := 2) ⟨by norm_num, fun x hx => .inr ⟨2, ?_⟩⟩ hs).1 rfl
  · norm_num [travel, machine] at this
    have h4 : (i : ℝ) + 14 ≤ j := by linarith
    exact_mod_cast h4
  · have hx' : x = (request, request.vFeed * fin 1) := by
      rw [hfeed] at hx
      have hx : x ∈ [(request, request.vFeed * fin 1)] ++ requested (M := machine) (fin 1) (List.replicate n .calculate) := hx
      rw [requested_calculate] at hx
      simpa using hx
    rw [hx']
    refine ⟨?_, ?_⟩
    · show fin 2 * fin 1 = fin 2
      rw [fin_mul]; norm_num
    · show |request.direction 0| * 2 ≤ 2
      rw [direction_request]; norm_num

/-- C76: at any time of this program the pulses add up to the position. -/
example (n : Nat) : ∃ c log, (fresh machine.kit).run ([.configure 100 (fin (1 / 8000))] ++ ([request].map (push machine) ++ [.start]
      ++ List.replicate n .calculate)) = some (c, log) ∧ ∃ next : BitVec 32,
      pulseCount false ((expand 0 ((entriesOf log).map fun e => (e.timeBefore, e.signals)) ++ [next]).map
        fun v => (v.getLsbD 0, v.getLsbD 1)) = c.machinePosition 0 := by
  obtain ⟨c, c', logp, log, h1, h2, h3⟩ := performs n
  obtain ⟨log', h4⟩ := program_pulses h1 (by simp [Call.isReset]) (by simp [machine]) h3
    ⟨fun _ _ => by norm_num [travel, machine], fun _ _ => by norm_num [Machine.accel, machine]⟩ (axis := 0) one_pos
    (by rw [h2]; trivial) (by simp [h2])
  exact ⟨c', log', h4⟩

end ExecuteExample

end Moovr.Props
