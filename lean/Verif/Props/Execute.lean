import Verif.Lemmas.ExecuteSteps
import Verif.Lemmas.Kept
import Verif.Lemmas.PlanExample
import Verif.Props.MotionCtrl
/-!
# Whole executions (C64, C74)

From an idle controller: append motions, start, then calculate (and append more motions) as often as wanted. The planner, the
queue, the clock and the step decisions together: each axis follows the programmed path, motion after motion, to its end.

The time laws (`Job`: duration `T`, distance travelled `S`) are the ones the planner has chosen; what is known about them is
`Job.Ok`. Where each axis has to be after a given time is defined in `Verif/Spec/Execute.lean`.
-/
namespace Moovr.Props
open Num ExecSpec MotionCtrl MotionSpec

/-- The controller is stopped, its queue empty and its clock at zero (as after construction and `initialize()`, or when all
motions are completed); `δ` is the width of a tick. -/
structure Idle (M : Machine) (δ : ℝ) (c : MotionCtrl M.kit) : Prop where
  state : c.state = .stopped
  level : c.buffer.level = 0
  head : c.buffer.head < 32
  width : c.time.minStepPulseWidth = fin δ
  now : c.time.timeInMotion = fin 0
  index : c.time.sampleIndex = 0
  offset : c.time.sampleZeroOffset = fin 0

/-- Travel of an axis within a tick (in steps) at its maximum speed. -/
noncomputable def travel (M : Machine) (δ : ℝ) (axis : Nat) : ℝ := M.vMax axis * δ * M.stepsPerMm axis

/-- The machine can follow: at maximum speed an axis travels at most `most` steps per tick. -/
structure CanFollow (M : Machine) (δ most : ℝ) : Prop where
  width : 0 < δ
  hysteresis : 0 ≤ M.hysteresis
  steps : ∀ axis, axis < M.n → 0 ≤ M.stepsPerMm axis
  rate : ∀ axis, axis < M.n → travel M δ axis ≤ most

/-- All positions of the motion fit the position counter. -/
def Reachable (M : Machine) (r : SimplifiedMotion) : Prop :=
  ∀ axis, axis < M.n → ∀ s, 0 ≤ s → s ≤ val r.trajectory.length → M.InRange (place r axis s * M.stepsPerMm axis)

/-- Calls on the controller of this machine. -/
abbrev MCall (M : Machine) := Call M.kit.Req M.kit.Time M.kit.Ovr

/-- The call `append(r)`. -/
def push (M : Machine) (r : SimplifiedMotion) : MCall M := .append r

/-- The motion that a call appends. -/
def requestOf {M : Machine} : MCall M → Option SimplifiedMotion
  | .append r => some r
  | _ => none

/-- The calls after `start()`: calculations, changes of the overrides, and motions appended while the controller runs and its
queue has room. -/
def Feeds (M : Machine) (c : MotionCtrl M.kit) : List (MCall M) → Prop
  | [] => True
  | k :: ks =>
    (k = .calculate ∨ (∃ o, k = .override o) ∨
      ∃ r, k = push M r ∧ c.state = .running ∧ c.buffer.level < 32 ∧ Executable M.n r ∧
        (r.vFeed * c.overrides.feedOverride).Pos) ∧
    ∀ c' x, c.call k = some (c', x) → Feeds M c' ks

/-- The override that a call sets. -/
def overrideOf {M : Machine} : MCall M → Option Num
  | .override o => some o.feedOverride
  | _ => none

/-- The motions appended by the calls, each with its feed rate: the programmed one times the override at that time. -/
noncomputable def requested {M : Machine} : Num → List (MCall M) → List (SimplifiedMotion × Num)
  | _, [] => []
  | ov, k :: ks =>
    match requestOf k with
    | some r => (r, r.vFeed * ov) :: requested ov ks
    | none => requested ((overrideOf k).getD ov) ks

/-- All motions: those appended before the start and those appended by the calls. -/
noncomputable def program {M : Machine} (ov : Num) (rs : List SimplifiedMotion) (ks : List (MCall M)) :
    List (SimplifiedMotion × Num) := rs.map (fun r => (r, r.vFeed * ov)) ++ requested ov ks

/-- After time `t` of the program: the controller runs exactly until the total time, it then holds exactly the motions not yet
over, its clock shows the time spent in the first of them, and the position counter of each axis is where the axis has to be, up
to half a step, the hysteresis and the travel within a tick. -/
structure Executes (M : Machine) (δ : ℝ) (d : Nat → ℝ) (js : List Job) (t : ℝ) (c : MotionCtrl M.kit) : Prop where
  running : t ≤ total js → c.state = .running ∧ c.buffer.level = (rest js t).1.length ∧
    some c.buffer.getHead.request = (rest js t).1.head?.map (fun j => some j.r) ∧ c.time.timeInMotion = fin (rest js t).2
  done : total js < t → Idle M δ c
  near : ∀ axis, axis < M.n →
    |placeAt d js t axis * M.stepsPerMm axis - c.machinePosition axis| ≤ 1 / 2 + M.hysteresis + travel M δ axis

/-! ## Proof -/

/-- A history in two parts. -/
theorem run_split {K : MotionKit} (ks₁ ks₂ : List (Call K.Req K.Time K.Ovr)) :
    ∀ {c c' : MotionCtrl K} {log}, c.run (ks₁ ++ ks₂) = some (c', log) →
      ∃ c₁ log₁ log₂, c.run ks₁ = some (c₁, log₁) ∧ c₁.run ks₂ = some (c', log₂) ∧ log = log₁ ++ log₂ := by
  induction ks₁ with
  | nil => intro c c' log h; exact ⟨c, [], log, rfl, h, rfl⟩
  | cons k ks ih =>
    intro c c' log h
    rw [List.cons_append, run] at h
    split at h
    · simp at h
    · rename_i c₀ x hx
      simp only [Option.map_eq_some_iff, Prod.exists, Prod.mk.injEq] at h
      obtain ⟨c₂, l, h1, rfl, rfl⟩ := h
      obtain ⟨c₁, l₁, l₂, a1, a2, rfl⟩ := ih h1
      refine ⟨c₁, (k, x) :: l₁, l₂, ?_, a2, rfl⟩
      rw [run, hx]; simp [a1]

/-- The ticks of a log in two parts. -/
theorem ticks_append {A B C D : Type} (l₁ l₂ : Log A B C D) : ticksOf (l₁ ++ l₂) = ticksOf l₁ ++ ticksOf l₂ := by
  simp [ticksOf]

private theorem append_all {M : Machine} (hM : M.Ok) (rs₂ : List SimplifiedMotion) :
    ∀ (rs₁ : List SimplifiedMotion) {c c' : MotionCtrl M.kit} {log}, Queue (Waits M) c.buffer rs₁ →
      rs₁.length + rs₂.length ≤ 32 → (∀ r ∈ rs₂, Executable M.n r) →
      (∀ r ∈ rs₂, (r.vFeed * c.overrides.feedOverride).Pos) → c.run (rs₂.map (push M)) = some (c', log) →
      Queue (Waits M) c'.buffer (rs₁ ++ rs₂) ∧ c'.time = c.time ∧ c'.overrides = c.overrides ∧
      c'.machinePosition = c.machinePosition ∧ ticksOf log = [] := by
  induction rs₂ with
  | nil =>
    intro rs₁ c c' log hq _ _ _ h
    simp only [List.map_nil, run, Option.some.injEq, Prod.mk.injEq] at h
    obtain ⟨rfl, rfl⟩ := h
    exact ⟨by simpa using hq, rfl, rfl, rfl, rfl⟩
  | cons r rs ih =>
    intro rs₁ c c' log hq hl hr ho h
    rw [List.map_cons, run] at h
    simp only [push, call] at h
    simp only [Option.map_eq_some_iff, Prod.exists, Prod.mk.injEq] at h
    obtain ⟨c₂, l, h1, rfl, rfl⟩ := h
    rw [List.length_cons] at hl
    obtain ⟨q1, -, -, -, q5, -, q7, q8, -⟩ := append_queue hM hq (hr r List.mem_cons_self).moves (ho r List.mem_cons_self) (by omega)
    obtain ⟨a1, a2, a3, a4, a5⟩ := ih (rs₁ ++ [r]) q1 (by simp; omega) (fun r' h => hr r' (List.mem_cons_of_mem _ h))
      (fun r' h => by rw [q7]; exact ho r' (List.mem_cons_of_mem _ h)) h1
    refine ⟨by simpa using a1, a2.trans q5, a3.trans q7, a4.trans q8, ?_⟩
    simpa [ticksOf] using a5

theorem queue_jobs {M : Machine} {b : MotionBuffer M.kit} {rs : List SimplifiedMotion}
    {ov : Num} (h : Queue (Ready M ov .maximizeSpeed) b rs) (hr : ∀ r ∈ rs, Executable M.n r) :
    ∃ js : List Job, js.map (fun j => (j.r, j.f)) = rs.map (fun r => (r, r.vFeed * ov)) ∧ Queue (Runs M) b js ∧
      (∀ j ∈ js, j.Ok M) ∧ ∀ k (hk : k < js.length), Waits M (b.cells ((b.head + k) % 32)) js[k].r := by
  have : ∀ k (hk : k < rs.length), ∃ j : Job, j.r = rs[k] ∧ j.f = rs[k].vFeed * ov ∧ Runs M (b.cells ((b.head + k) % 32)) j ∧
      j.Ok M := by
    intro k hk
    exact runs_of_restPlan (hr _ (List.getElem_mem hk)) (h.cell k hk).1 (h.cell k hk).2
  choose f hf using this
  refine ⟨List.ofFn fun k : Fin rs.length => f k k.2, ?_, ⟨h.head, ?_, ?_, ?_⟩, ?_, ?_⟩
  · apply List.ext_getElem
    · simp
    · intro i h1 h2
      have h2' : i < rs.length := by simpa using h2
      simp [(hf i h2').1, (hf i h2').2.1]
  · simp [h.level]
  · simpa using h.max
  · intro k hk
    have hk' : k < rs.length := by simpa using hk
    simpa using (hf k hk').2.2.1
  · intro j hj
    obtain ⟨k, hk, rfl⟩ := List.getElem_of_mem hj
    have hk' : k < rs.length := by simpa using hk
    simpa using (hf k hk').2.2.2
  · intro k hk
    have hk' : k < rs.length := by simpa using hk
    have := h.cell k hk'
    rw [List.getElem_ofFn, (hf k hk').1]
    exact ⟨_, _, this⟩

/-- The invariant of executions holds after any such calls. -/
theorem exec_run {M : Machine} (hM : M.Ok) {δ : ℝ} {E d : Nat → ℝ} (hs : Suited M δ E)
    (ks : List (MCall M)) :
    ∀ {c : MotionCtrl M.kit} {js : List Job} {t : ℝ}, (Good M δ E d js → Exec M δ E d js t c) → Feeds M c ks →
      ∀ {c' log}, c.run ks = some (c', log) →
      ∃ js' : List Job, js'.map (fun j => (j.r, j.f)) = requested c.overrides.feedOverride ks ∧ (∀ j ∈ js', j.Ok M) ∧
        (Good M δ E d (js ++ js') → Exec M δ E d (js ++ js') (t + (ticksOf log).length * δ) c') ∧
        (∀ j ∈ js', Executable M.n j.r) ∧ (Good M δ E d (js ++ js') → (js' ≠ [] → (rest js t).1 ≠ []) ∧
          ∀ axis, axis < M.n →
            Trace M δ d (js ++ js') axis t (c.machinePosition axis) ((ticksOf log).map fun x => x.cmd axis)) := by
  induction ks with
  | nil =>
    intro c js t h _ c' log hrun
    simp only [run, Option.some.injEq, Prod.mk.injEq] at hrun
    obtain ⟨rfl, rfl⟩ := hrun
    exact ⟨[], rfl, by simp, by simpa [ticksOf] using h, by simp, fun _ => ⟨fun h => absurd rfl h, fun _ _ => trivial⟩⟩
  | cons k ks ih =>
    intro c js t h hf c' log hrun
    rw [run] at hrun
    split at hrun
    · simp at hrun
    · rename_i c₁ x hx
      simp only [Option.map_eq_some_iff, Prod.exists, Prod.mk.injEq] at hrun
      obtain ⟨c₂, l, h1, rfl, rfl⟩ := hrun
      have hf' := hf.2 c₁ x hx
      rcases hf.1 with rfl | ⟨o, rfl⟩ | ⟨r, rfl, hst, hl, hr, ho⟩
      · simp only [call, calcNext, Option.map_eq_some_iff, Prod.exists, Prod.mk.injEq] at hx
        obtain ⟨c₀, e, ts, h2, rfl, rfl⟩ := hx
        obtain ⟨js', a1, a2, a3, a4, a5⟩ := ih (c := c₀) (js := js) (t := t + ts.length * δ)
          (fun hg => (Exec.calcLoop hs hg _ (h hg) h2).1) hf' h1
        rw [calcLoop_overrides _ h2] at a1
        have hn : (0 : ℝ) ≤ ts.length * δ := mul_nonneg (Nat.cast_nonneg _) hs.width.le
        refine ⟨js', a1, a2, fun hg => ?_, a4, fun hg => ⟨fun hne => rest_nonempty_of_le (by linarith) ((a5 hg).1 hne), fun axis ha => ?_⟩⟩
        rotate_left
        · have htr := (h hg.left).trace hs hg.left ha _ h2
          have hrest := (a5 hg).2 axis ha
          rw [calcLoop_position _ h2] at hrest
          simp only [ticksOf, List.flatMap_cons, List.map_append]
          refine Trace.append ?_ (by simpa [Function.comp_def, ticksOf] using hrest)
          by_cases hne : js' = []
          · subst hne; rw [List.append_nil]; exact htr
          · exact htr.extend hs.width.le js' (by simpa using (a5 hg).1 hne)
        have := a3 hg
        simp only [ticksOf, List.flatMap_cons, List.length_append] at this ⊢
        rw [show t + ((ts.length + (List.flatMap (fun x => x.2.ticks) l).length : ℕ) : ℝ) * δ =
          t + ts.length * δ + ((List.flatMap (fun x => x.2.ticks) l).length : ℕ) * δ by push_cast; ring]
        exact this
      · simp only [call, Option.some.injEq, Prod.mk.injEq] at hx
        obtain ⟨rfl, rfl⟩ := hx
        obtain ⟨js', a1, a2, a3, a4, a5⟩ := ih (c := { c with overrides := o }) (js := js) (t := t) (fun hg => by
          have := h hg
          unfold Exec at *
          split at this
          · exact ⟨this.state, this.queue, this.clock, this.near⟩
          · exact ⟨this.state, this.line, this.clock, this.nonneg, this.le, this.near⟩) hf' h1
        exact ⟨js', a1, a2, by simpa [ticksOf] using a3, a4, by simpa [ticksOf] using a5⟩
      · simp only [push, call, Option.some.injEq, Prod.mk.injEq] at hx
        obtain ⟨rfl, rfl⟩ := hx
        have hover : (c.append r).overrides = c.overrides := by unfold append; split <;> rfl
        obtain ⟨j, hj, hjf, hjok, hex⟩ : ∃ j : Job, j.r = r ∧ j.f = r.vFeed * c.overrides.feedOverride ∧ j.Ok M ∧
            (Good M δ E d (js ++ [j]) → Exec M δ E d (js ++ [j]) t (c.append r)) := by
          by_cases hg : Good M δ E d js
          · obtain ⟨j, h1, h2, h3, h4⟩ := (h hg).append hM hr ho hst hl
            exact ⟨j, h1, h2, h3, fun _ => h4⟩
          · obtain ⟨j, h1, h2, h3⟩ := exists_job hM hr ho
            exact ⟨j, h1, h2, h3, fun hg' => absurd hg'.left hg⟩
        have hpos : (c.append r).machinePosition = c.machinePosition := by unfold append; split <;> rfl
        obtain ⟨js', a1, a2, a3, a4, a5⟩ := ih hex hf' h1
        refine ⟨j :: js', by rw [List.map_cons, hj, hjf, a1, hover]; rfl, ?_, ?_, ?_, fun hg => ⟨fun _ => ?_, fun axis ha => ?_⟩⟩
        · intro j' hj'
          rcases List.mem_cons.1 hj' with rfl | h
          · exact hjok
          · exact a2 j' h
        · simpa [ticksOf] using a3
        · intro j' hj'
          rcases List.mem_cons.1 hj' with rfl | h
          · rw [hj]; exact hr
          · exact a4 j' h
        · intro h0
          have hE := h hg.left
          unfold Exec at hE
          split at hE
          · have := hE.state; rw [hst] at this; simp at this
          · rename_i heq; rw [heq] at h0; simp at h0
        · have := (a5 (by simpa using hg)).2 axis ha
          rw [hpos] at this
          simpa [ticksOf] using this

/-- Every call of `calculate` makes a tick. -/
theorem ticks_ge {K : MotionKit} (ks : List (Call K.Req K.Time K.Ovr)) :
    ∀ {c c' : MotionCtrl K} {log}, c.run ks = some (c', log) →
      ks.countP Call.isCalculate ≤ (ticksOf log).length := by
  induction ks with
  | nil => intros; simp
  | cons k ks ih =>
    intro c c' log h
    rw [run] at h
    split at h
    · simp at h
    · rename_i c₁ x hx
      simp only [Option.map_eq_some_iff, Prod.exists, Prod.mk.injEq] at h
      obtain ⟨c₂, l, h1, rfl, rfl⟩ := h
      have := ih h1
      have hlen : (ticksOf ((k, x) :: l)).length = x.ticks.length + (ticksOf l).length := by simp [ticksOf]
      rw [hlen, List.countP_cons]
      have h0 : ∀ fuel (c c' : MotionCtrl K) e ts, calcLoop fuel c = some (c', e, ts) → 1 ≤ ts.length := by
        intro fuel c c' e ts h
        cases fuel with
        | zero => simp [calcLoop] at h
        | succ n =>
          unfold calcLoop at h
          split at h
          · simp at h
          · split at h
            · simp only [Option.some.injEq, Prod.mk.injEq] at h
              rw [← h.2.2]; simp
            · simp only [Option.map_eq_some_iff, Prod.exists, Prod.mk.injEq] at h
              obtain ⟨_, _, _, _, _, _, rfl⟩ := h
              simp
      split
      · rename_i hk
        cases k <;> simp [Call.isCalculate] at hk
        simp only [call, calcNext, Option.map_eq_some_iff, Prod.exists, Prod.mk.injEq] at hx
        obtain ⟨c₀, e, ts, h2, rfl, rfl⟩ := hx
        have := h0 _ _ _ _ _ h2
        simp only; omega
      · omega

theorem feeds_calculate {M : Machine} (n : Nat) : ∀ c : MotionCtrl M.kit, Feeds M c (List.replicate n .calculate) := by
  induction n with
  | zero => intro c; trivial
  | succ n ih => intro c; exact ⟨.inl rfl, fun c' _ _ => ih c'⟩

theorem requested_calculate {M : Machine} (n : Nat) (ov : Num) :
    requested (M := M) ov (List.replicate n .calculate) = [] := by
  induction n with
  | zero => rfl
  | succ n ih => exact ih

/-- What the invariant says about the execution. -/
theorem executes_of_exec {M : Machine} {δ : ℝ} {E d : Nat → ℝ} (hs : Suited M δ E) {J : List Job} {t : ℝ} {c' : MotionCtrl M.kit}
    (hne : J ≠ []) (hall : ∀ j ∈ J, 0 ≤ j.T) (hex : Exec M δ E d J t c') : Executes M δ d J t c' := by
  have htot := rest_total hne hall (t := t)
  unfold Exec at hex
  split at hex
  · rename_i u hu
    have hd : total J < t := htot.1 (by rw [hu])
    refine ⟨fun h => absurd hd (not_lt.2 h), fun _ => ?_, fun axis ha => ?_⟩
    · obtain ⟨off, o1, o2, o3⟩ := hex.clock.base
      have hδ := hs.width
      have hn : (0 : ℝ) ≤ c'.time.sampleIndex * δ := by positivity
      have hoff : off = 0 := by linarith
      have hidx : (c'.time.sampleIndex : ℝ) * δ = 0 := by linarith
      refine ⟨hex.state, hex.queue.level, hex.queue.head, hex.clock.width, hex.clock.now, ?_, by rw [o1, hoff]⟩
      rcases mul_eq_zero.1 hidx with h | h
      · exact_mod_cast h
      · linarith
    · rw [placeAt_done (by rw [hu])]; exact hex.near axis ha
  · rename_i j js₁ u hu
    have hd : ¬ total J < t := fun h => by have := htot.2 h; rw [hu] at this; simp at this
    refine ⟨fun _ => ?_, fun h => absurd h hd, fun axis ha => ?_⟩
    · rw [hu]
      refine ⟨hex.state, hex.queue.level, ?_, hex.clock.now⟩
      show _ = some (some j.r)
      rw [hex.queue.getHead.request]
      rfl
    · rw [placeAt_rest hu]
      exact (hex.near axis ha).1.trans (by have := hs.le axis ha; unfold Machine.perTick at this; unfold travel; linarith)

/-- The common part of the theorems about executions. -/
theorem executed {M : Machine} (hM : M.Ok) {δ : ℝ} {E d : Nat → ℝ} (hs : Suited M δ E) {c : MotionCtrl M.kit}
    (hi : Idle M δ c) {rs : List SimplifiedMotion} (hne : rs ≠ []) (hlen : rs.length ≤ 32)
    (hr : ∀ r ∈ rs, Executable M.n r) (ho : ∀ r ∈ rs, (r.vFeed * c.overrides.feedOverride).Pos)
    (hnear : ∀ axis, axis < M.n → |d axis * M.stepsPerMm axis - c.machinePosition axis| ≤ 1 / 2 + M.hysteresis + E axis)
    {ks : List (MCall M)} {c₀ c' : MotionCtrl M.kit} {log₀ log}
    (h₀ : c.run (rs.map (push M) ++ [.start]) = some (c₀, log₀)) (hf : Feeds M c₀ ks)
    (h : c₀.run ks = some (c', log)) :
    ticksOf log₀ = [] ∧ ∃ js : List Job, js.map (fun j => (j.r, j.f)) = program c.overrides.feedOverride rs ks ∧ (∀ j ∈ js, j.Ok M) ∧
      (Good M δ E d js → Executes M δ d js ((ticksOf log).length * δ) c') ∧ (∀ j ∈ js, Executable M.n j.r) ∧
      (Good M δ E d js → ∀ axis, axis < M.n →
        Trace M δ d js axis 0 (c.machinePosition axis) ((ticksOf log).map fun x => x.cmd axis)) ∧
      (Good M δ E d js → Exec M δ E d js ((ticksOf log).length * δ) c') := by
  obtain ⟨c₁, l₁, l₂, h1, h2, rfl⟩ := run_split _ _ h₀
  have hq0 : Queue (Waits M) c.buffer [] := ⟨hi.head, hi.level, by simp, fun k hk => by simp at hk⟩
  obtain ⟨q1, q2, q3, q4, q5⟩ := append_all hM rs [] hq0 (by simpa using hlen) hr ho h1
  rw [List.nil_append] at q1
  simp only [run, call, Option.map_some, Option.some.injEq, Prod.mk.injEq] at h2
  obtain ⟨rfl, rfl⟩ := h2
  obtain ⟨s1, s2, s3, s4, s5, -⟩ := start_queue hne q1 (by rw [q3]; exact ho) (by rw [q2]; exact hi.now)
  obtain ⟨js, hjs, hjq, hok, hwait⟩ := queue_jobs s1 hr
  have hjne : js ≠ [] := by rintro rfl; simp at hjs; exact hne hjs
  have hstart : Good M δ E d js → Exec M δ E d js 0 c₁.start := by
    intro hg
    obtain ⟨j, js', rfl⟩ := List.exists_cons_of_ne_nil hjne
    have hj := hok j List.mem_cons_self
    unfold Exec
    rw [rest, if_pos hj.pos.le]
    have hline : Line M c₁.start.buffer j js' 0 := by
      refine ⟨hjq, ?_, fun k hk => ?_⟩
      · have := (hwait 0 (by simp)).begun
        rw [Nat.add_zero, Nat.mod_eq_of_lt hjq.head] at this
        show (c₁.start.buffer.cells c₁.start.buffer.head).prof.doneDuration.le (fin 0) = true
        rw [this, le_fin]; simp
      · have := hwait (k + 1) (by simp; omega)
        simpa using this
    refine ⟨s3, hline, ?_, le_rfl, hj.pos.le, fun axis ha => ⟨?_, fun h0 => absurd h0 (lt_irrefl _)⟩⟩
    · rw [s2, q2]
      exact ⟨hi.width, hi.now, 0, hi.offset, le_rfl, by rw [hi.index]; simp⟩
    · rw [hj.start, hg.connected.1 axis ha, s5, q4]
      exact hnear axis ha
  obtain ⟨js', a1, a2, a3, a4, a5⟩ := exec_run hM hs ks hstart hf h
  have hexe : ∀ j ∈ js, Executable M.n j.r := by
    intro j hj
    have hm : (j.r, j.f) ∈ rs.map (fun r => (r, r.vFeed * c.overrides.feedOverride)) := by
      rw [q3] at hjs
      rw [← hjs]; exact List.mem_map_of_mem (f := fun j : Job => (j.r, j.f)) hj
    obtain ⟨r, hrm, he⟩ := List.mem_map.1 hm
    simp only [Prod.mk.injEq] at he
    rw [← he.1]; exact hr r hrm
  refine ⟨by rw [ticks_append, q5]; rfl, js ++ js', by rw [List.map_append, hjs, a1, s4, q3]; rfl, ?_, ?_,
    fun j hj => (List.mem_append.1 hj).elim (hexe j) (a4 j), fun hg axis ha => ?_, fun hg => by simpa using a3 hg⟩
  rotate_right
  · have := (a5 hg).2 axis ha
    rw [s5, q4] at this
    exact this
  · intro j hj
    rcases List.mem_append.1 hj with h | h
    · exact hok j h
    · exact a2 j h
  intro hg
  have hex := a3 hg
  rw [zero_add] at hex
  have hall : ∀ j ∈ js ++ js', 0 ≤ j.T := by
    intro j hj
    rcases List.mem_append.1 hj with h | h
    · exact (hok j h).pos.le
    · exact (a2 j h).pos.le
  exact executes_of_exec hs (by simp [hjne]) hall hex

private theorem feeds_rested {M : Machine} (hM : M.Ok) (ks : List (MCall M)) : ∀ {c : MotionCtrl M.kit},
    Kept (K := M.kit) (fun x => x.prof.doneDuration = fin 0) c → Feeds M c ks → ∀ {c' log}, c.run ks = some (c', log) →
    Kept (K := M.kit) (fun x => x.prof.doneDuration = fin 0) c' := by
  induction ks with
  | nil =>
    intro c h _ c' log hrun
    simp only [run, Option.some.injEq, Prod.mk.injEq] at hrun
    obtain ⟨rfl, rfl⟩ := hrun
    exact h
  | cons k ks ih =>
    intro c h hf c' log hrun
    rw [run] at hrun
    split at hrun
    · simp at hrun
    · rename_i c₁ x hx
      simp only [Option.map_eq_some_iff, Prod.exists, Prod.mk.injEq] at hrun
      obtain ⟨c₂, l, h1, rfl, rfl⟩ := hrun
      refine ih ?_ (hf.2 c₁ x hx) h1
      rcases hf.1 with rfl | ⟨o, rfl⟩ | ⟨r, rfl, hst, hl, hr, ho⟩
      · simp only [call, calcNext, Option.map_eq_some_iff, Prod.exists, Prod.mk.injEq] at hx
        obtain ⟨c₀, e, ts, h2, rfl, rfl⟩ := hx
        exact h.calcLoop _ h2
      · simp only [call, Option.some.injEq, Prod.mk.injEq] at hx
        obtain ⟨rfl, rfl⟩ := hx
        exact ⟨⟨h.1.head, h.1.level, h.1.busy⟩, h.2⟩
      · simp only [push, call, Option.some.injEq, Prod.mk.injEq] at hx
        obtain ⟨rfl, rfl⟩ := hx
        obtain ⟨q0, q2, q3, q4, -⟩ := append_cells hM h.1.head hr.moves ho hl
        refine ⟨⟨by rw [q4]; exact h.1.head, by rw [q0]; exact hl, fun _ => by rw [q0]; omega⟩, fun k hk => ?_⟩
        rcases Nat.lt_or_ge k c.buffer.level with h' | h'
        · show ((c.append r).buffer.cells (((c.append r).buffer.head + k) % 32)).prof.doneDuration = _
          rw [q2 k h']; exact h.2 k h'
        · obtain rfl : k = c.buffer.level := by rw [q0] at hk; omega
          exact Waits.begun ⟨_, _, q3⟩

/-- The motions in the queue have all been planned from rest. -/
theorem rested {M : Machine} (hM : M.Ok) {δ : ℝ} {c : MotionCtrl M.kit}
    (hi : Idle M δ c) {rs : List SimplifiedMotion} (hne : rs ≠ []) (hlen : rs.length ≤ 32)
    (hr : ∀ r ∈ rs, Executable M.n r) (ho : ∀ r ∈ rs, (r.vFeed * c.overrides.feedOverride).Pos)
    {ks : List (MCall M)} {c₀ c' : MotionCtrl M.kit} {log₀ log}
    (h₀ : c.run (rs.map (push M) ++ [.start]) = some (c₀, log₀)) (hf : Feeds M c₀ ks)
    (h : c₀.run ks = some (c', log)) (hl : c'.buffer.level ≠ 0) : c'.buffer.getHead.prof.doneDuration = fin 0 := by
  obtain ⟨c₁, l₁, l₂, h1, h2, rfl⟩ := run_split _ _ h₀
  have hq0 : Queue (Waits M) c.buffer [] := ⟨hi.head, hi.level, by simp, fun k hk => by simp at hk⟩
  obtain ⟨q1, q2, q3, q4, q5⟩ := append_all hM rs [] hq0 (by simpa using hlen) hr ho h1
  rw [List.nil_append] at q1
  simp only [run, call, Option.map_some, Option.some.injEq, Prod.mk.injEq] at h2
  obtain ⟨rfl, rfl⟩ := h2
  obtain ⟨s1, -, -, -, -, -⟩ := start_queue hne q1 (by rw [q3]; exact ho) (by rw [q2]; exact hi.now)
  have hk : Kept (K := M.kit) (fun x => x.prof.doneDuration = fin 0) c₁.start :=
    ⟨⟨s1.head, by rw [s1.level]; exact hlen, fun _ => by rw [s1.level]; exact List.length_pos_iff.2 hne⟩, fun k hk =>
      Waits.begun ⟨_, _, s1.cell k (by rw [← s1.level]; exact hk)⟩⟩
  have hk' := feeds_rested hM ks hk hf h
  have := hk'.2 0 (by omega)
  rw [Nat.add_zero, Nat.mod_eq_of_lt hk'.1.head] at this
  exact this

/-! ## C74: a program of connected motions -/

/-- Any number of connected motions, the first ones appended before the start and the others while the controller runs, are
executed one after the other, each from rest to rest within the feed rate and the speed limit of every axis; at all times each
axis is where the program wants it to be, and it ends at the programmed end. -/
theorem program_executed {M : Machine} (hM : M.Ok) {δ : ℝ} (hm : CanFollow M δ (1 / 2)) {c : MotionCtrl M.kit} (hi : Idle M δ c)
    {rs : List SimplifiedMotion} (hne : rs ≠ []) (hlen : rs.length ≤ 32) (hr : ∀ r ∈ rs, Executable M.n r)
    (ho : ∀ r ∈ rs, (r.vFeed * c.overrides.feedOverride).Pos) {d : Nat → ℝ}
    (hnear : ∀ axis, axis < M.n →
      |d axis * M.stepsPerMm axis - c.machinePosition axis| ≤ 1 / 2 + M.hysteresis + travel M δ axis)
    {ks : List (MCall M)} {c₀ c' : MotionCtrl M.kit} {log₀ log}
    (h₀ : c.run (rs.map (push M) ++ [.start]) = some (c₀, log₀)) (hf : Feeds M c₀ ks) (h : c₀.run ks = some (c', log))
    (hcon : Connected M.n d ((program c.overrides.feedOverride rs ks).map Prod.fst))
    (hall : ∀ x ∈ program c.overrides.feedOverride rs ks, Long M δ x.1 ∧ Brief M δ x.1 x.2 ∧ Reachable M x.1) :
    ∃ js : List Job, js.map (fun j => (j.r, j.f)) = program c.overrides.feedOverride rs ks ∧ (∀ j ∈ js, j.Ok M) ∧
      Executes M δ d js ((ticksOf log).length * δ) c' ∧
      (total js < ks.countP Call.isCalculate * δ → Idle M δ c' ∧ ∀ axis, axis < M.n →
        |endOf d ((program c.overrides.feedOverride rs ks).map Prod.fst) axis * M.stepsPerMm axis - c'.machinePosition axis| ≤
          1 / 2 + M.hysteresis + travel M δ axis) := by
  have hpos : ∀ axis, axis < M.n → 0 ≤ travel M δ axis := fun axis ha =>
    mul_nonneg (mul_nonneg (hM.vMax axis ha).le hm.width.le) (hm.steps axis ha)
  have hs : Suited M δ (travel M δ) := ⟨hm.width, hm.hysteresis, hm.steps, hpos, fun axis ha => le_rfl,
    fun axis ha => by have := hm.rate axis ha; unfold Machine.perTick; unfold travel at this ⊢; linarith⟩
  obtain ⟨-, js, h1, h2, h3, -⟩ := executed hM hs hi hne hlen hr ho hnear h₀ hf h
  have hmem : ∀ j ∈ js, (j.r, j.f) ∈ program c.overrides.feedOverride rs ks := fun j hj => by
    rw [← h1]; exact List.mem_map_of_mem (f := fun j : Job => (j.r, j.f)) hj
  have hmap : js.map Job.r = (program c.overrides.feedOverride rs ks).map Prod.fst := by
    rw [← h1, List.map_map]; rfl
  have hF := h3 ⟨fun j hj => ⟨Job.short_of (h2 j hj) (hall _ (hmem j hj)).2.1, (hall _ (hmem j hj)).2.2⟩, by rw [hmap]; exact hcon,
    .inr ⟨fun _ _ => rfl, fun j hj => Job.long_of (h2 j hj).toSound (hall _ (hmem j hj)).1⟩⟩
  refine ⟨js, h1, h2, hF, fun ht => ?_⟩
  have hge := ticks_ge ks h
  have ht' : total js < (ticksOf log).length * δ :=
    ht.trans_le (mul_le_mul_of_nonneg_right (by exact_mod_cast hge) hm.width.le)
  refine ⟨hF.done ht', fun axis ha => ?_⟩
  have hjne : js ≠ [] := by
    rintro rfl
    have := congrArg List.length h1
    simp only [program, List.length_map, List.length_nil, List.length_append] at this
    have := List.length_pos_iff.2 hne
    omega
  have := hF.near axis ha
  rw [placeAt_done ((rest_total hjne (fun j hj => (h2 j hj).pos.le)).2 ht'), hmap] at this
  exact this

/-! ## C64: one motion -/

/-- A single motion from a matching position, at most one step per tick: the axes follow it, and it ends within half a step, the
hysteresis and the travel within a tick of its end. -/
theorem motion_executed {M : Machine} (hM : M.Ok) {δ : ℝ} (hm : CanFollow M δ 1) {c : MotionCtrl M.kit} (hi : Idle M δ c)
    {r : SimplifiedMotion} (hr : Executable M.n r) (ho : (r.vFeed * c.overrides.feedOverride).Pos)
    (hnear : ∀ axis, axis < M.n →
      |place r axis 0 * M.stepsPerMm axis - c.machinePosition axis| ≤ 1 / 2 + M.hysteresis)
    (hreach : Reachable M r) (hbrief : Brief M δ r (r.vFeed * c.overrides.feedOverride)) {n : Nat} {c' : MotionCtrl M.kit} {log}
    (h : c.run (push M r :: .start :: List.replicate n .calculate) = some (c', log)) :
    ∃ j : Job, j.r = r ∧ j.f = r.vFeed * c.overrides.feedOverride ∧ j.Ok M ∧
      Executes M δ (fun axis => place r axis 0) [j] ((ticksOf log).length * δ) c' ∧
      (j.T < n * δ → Idle M δ c' ∧ ∀ axis, axis < M.n →
        |place r axis j.L * M.stepsPerMm axis - c'.machinePosition axis| ≤ 1 / 2 + M.hysteresis + travel M δ axis) := by
  have hpos : ∀ axis, axis < M.n → 0 ≤ travel M δ axis := fun axis ha =>
    mul_nonneg (mul_nonneg (hM.vMax axis ha).le hm.width.le) (hm.steps axis ha)
  have hs : Suited M δ (fun _ => 0) := ⟨hm.width, hm.hysteresis, hm.steps, fun _ _ => le_rfl, hpos,
    fun axis ha => by have := hm.rate axis ha; unfold Machine.perTick; unfold travel at this; linarith⟩
  obtain ⟨c₀, l₀, l, h₀, hrun, rfl⟩ := run_split (K := M.kit) ([r].map (push M) ++ [.start]) (List.replicate n .calculate) h
  obtain ⟨ht0, js, h1, h2, h3, -⟩ := executed hM hs hi (rs := [r]) (by simp) (by simp) (by simpa using hr) (by simpa using ho)
    (d := fun axis => place r axis 0) (by simpa using hnear) h₀ (feeds_calculate n c₀) hrun
  unfold program at h1
  rw [requested_calculate, List.append_nil] at h1
  obtain ⟨j, rfl⟩ : ∃ j, js = [j] := List.length_eq_one_iff.1 (by have := congrArg List.length h1; simpa using this)
  simp only [List.map_cons, List.map_nil, List.cons.injEq, and_true, Prod.mk.injEq] at h1
  obtain ⟨rfl, hjf⟩ := h1
  rw [← hjf] at hbrief
  have hF := h3 ⟨by simpa using ⟨Job.short_of (h2 j (by simp)) hbrief, hreach⟩, ⟨fun _ _ => rfl, trivial⟩,
    .inl ⟨fun _ _ => rfl, by simp⟩⟩
  rw [ticks_append, ht0, List.nil_append]
  refine ⟨j, rfl, hjf, h2 j (by simp), hF, fun ht => ?_⟩
  have hge := ticks_ge _ hrun
  have hcount : (List.replicate n (Call.calculate : MCall M)).countP Call.isCalculate = n := by
    rw [List.countP_replicate]; simp [Call.isCalculate]
  have hge' : n ≤ (ticksOf l).length := by rw [← hcount]; exact hge
  have htot : total [j] = j.T := by simp [total]
  have ht' : total [j] < (ticksOf l).length * δ := by
    rw [htot]
    exact ht.trans_le (mul_le_mul_of_nonneg_right (by exact_mod_cast hge') hm.width.le)
  refine ⟨hF.done ht', fun axis ha => ?_⟩
  have := hF.near axis ha
  rw [placeAt_done ((rest_total (by simp) (fun j' hj' => (h2 j' hj').pos.le)).2 ht')] at this
  exact this

/-! ## Examples -/

/-- A new controller after `initialize()` is idle. -/
theorem idle_configured (M : Machine) (maxTicks : Nat) (δ : ℝ) : Idle M δ ((fresh M.kit).configure maxTicks (fin δ)) :=
  ⟨rfl, rfl, show 0 < 32 by decide, rfl, rfl, rfl, rfl⟩

/-- The constants of the cnc3axis machine — lib_target/cnc3axis/general/machineproperties.h:30-46,69. -/
noncomputable def cnc3axis : Machine :=
  ⟨3, fun _ => 200, 1 / 20, fun _ => 30, fun _ => 200, fun _ => -200, 600, 0, fun _ => 0⟩

/-- With its 60000 ticks per second this machine can follow: at most a tenth of a step per tick. -/
example : cnc3axis.Ok ∧ CanFollow cnc3axis (1 / 60000) (1 / 2) ∧ ∀ axis, travel cnc3axis (1 / 60000) axis = 1 / 10 := by
  have ht : ∀ axis, travel cnc3axis (1 / 60000) axis = 1 / 10 := fun _ => by norm_num [travel, cnc3axis]
  refine ⟨by constructor <;> intros <;> norm_num [cnc3axis], ⟨by norm_num, by norm_num [cnc3axis], fun _ _ => by norm_num [cnc3axis],
    fun axis _ => ?_⟩, ht⟩
  rw [ht]; norm_num

namespace ExecuteExample
open Example

/-- The way back. -/
noncomputable def back : SimplifiedMotion :=
  { request with
    trajectory := { request.trajectory with
      startPosition := fun _ => fin 1
      delta := fun _ => fin (-1) } }

theorem place_request (s : ℝ) : place request 0 s = s := by
  simp [place, request, SimplifiedMotion.fresh, val]

theorem place_back (s : ℝ) : place back 0 s = 1 - s := by
  simp [place, back, request, SimplifiedMotion.fresh, val]; ring

theorem executable_request : Executable machine.n request where
  moves := request_moves
  start _ _ := ⟨0, rfl⟩
  arc h := by simp [request, SimplifiedMotion.fresh, machine] at h

theorem executable_back : Executable machine.n back where
  moves :=
    { type := rfl
      length := rfl
      pos := one_pos
      delta := fun _ _ => ⟨-1, rfl⟩
      radius := ⟨0, rfl, fun i hi h => by simp [back, request, SimplifiedMotion.fresh, machine] at h hi; omega⟩
      some := ⟨0, one_pos, Or.inr (Or.inr ⟨-1, by norm_num, rfl⟩)⟩ }
  start _ _ := ⟨1, rfl⟩
  arc h := by simp [back, request, SimplifiedMotion.fresh, machine] at h

theorem lengths : val request.trajectory.length = 1 ∧ val back.trajectory.length = 1 := ⟨rfl, rfl⟩

theorem direction_request : |request.direction 0| = 1 := by
  simp [SimplifiedMotion.direction, request, SimplifiedMotion.fresh]

theorem direction_back : |back.direction 0| = 1 := by
  simp [SimplifiedMotion.direction, back, request, SimplifiedMotion.fresh]

theorem allowed {r : SimplifiedMotion} (hr : r = request ∨ r = back) : Allowed machine r 1 1 := by
  have hd : |r.direction 0| = 1 := by rcases hr with rfl | rfl; exacts [direction_request, direction_back]
  have harc : ¬ (0 = r.trajectory.arcAxis0 ∨ 0 = r.trajectory.arcAxis1) := by
    rcases hr with rfl | rfl <;> simp [back, request, SimplifiedMotion.fresh]
  have h0 : ∀ axis, axis < machine.n → axis = 0 := by simp [machine]
  refine ⟨one_pos, one_pos, ?_, ?_, ?_, ?_⟩
  · intro axis ha; rw [h0 axis ha, hd]; norm_num [machine]
  · intro axis ha; rw [h0 axis ha, hd]; norm_num [machine]
  · intro axis ha; rw [h0 axis ha, hd]; norm_num [machine]
  · intro axis ha h; rw [h0 axis ha] at h; exact absurd h harc

theorem brief {r : SimplifiedMotion} (hr : r = request ∨ r = back) {δ : ℝ} (hδ : 1 / 8000 ≤ δ) :
    Brief machine δ r (r.vFeed * fin 1) := by
  have hl : val r.trajectory.length = 1 := by rcases hr with rfl | rfl <;> rfl
  have hf : r.vFeed = fin 2 := by rcases hr with rfl | rfl <;> rfl
  refine ⟨1, 1, allowed hr, ?_, by rw [hl]; norm_num, by rw [hl]; linarith⟩
  rw [hf, fin_mul, le_fin]; norm_num

theorem reachable {r : SimplifiedMotion} (hr : r = request ∨ r = back) : Reachable machine r := by
  intro axis ha s h0 h1
  have hl : val r.trajectory.length = 1 := by rcases hr with rfl | rfl <;> rfl
  have ha0 : axis = 0 := by simpa [machine] using ha
  subst ha0
  rw [hl] at h1
  unfold Machine.InRange
  rw [abs_le]
  rcases hr with rfl | rfl
  · rw [place_request]; norm_num [machine]; constructor <;> linarith
  · rw [place_back]; norm_num [machine]; constructor <;> linarith

theorem long {r : SimplifiedMotion} (hr : r = request ∨ r = back) {δ : ℝ} (hδ : δ ≤ 1 / 4000) : Long machine δ r := by
  refine ⟨0, one_pos, by norm_num [machine], 1, zero_le_one, ?_, ?_⟩
  · rcases hr with rfl | rfl <;> exact le_rfl
  · rcases hr with rfl | rfl
    · rw [place_request, place_request]; norm_num [machine]; linarith
    · rw [place_back, place_back]; norm_num [machine]; linarith

/-- C64: the motion of 1 mm (200 steps) on a new controller with 2000 ticks per second; it takes at most 2 seconds, and ends at
step 199, 200 or 201. -/
example : ∃ c' log, (fresh machine.kit).run (.configure 100 (fin (1 / 2000)) :: push machine request :: .start ::
      List.replicate 4001 .calculate) = some (c', log) ∧
    c'.state = .stopped ∧ c'.buffer.level = 0 ∧ 199 ≤ c'.machinePosition 0 ∧ c'.machinePosition 0 ≤ 201 := by
  obtain ⟨c', log, hrun, -⟩ := motion_history_returns (K := machine.kit)
    (.configure 100 (fin (1 / 2000)) :: push machine request :: .start :: List.replicate 4001 .calculate)
  refine ⟨c', log, hrun, ?_⟩
  obtain ⟨c₁, l₁, l₂, h1, h2, -⟩ := run_split (K := machine.kit) [.configure 100 (fin (1 / 2000))]
    (push machine request :: .start :: List.replicate 4001 .calculate) hrun
  simp only [run, call, Option.map_some, Option.some.injEq, Prod.mk.injEq] at h1
  obtain ⟨rfl, -⟩ := h1
  have hf : CanFollow machine (1 / 2000) 1 := by
    refine ⟨by norm_num, by norm_num [machine], fun _ _ => by norm_num [machine], fun _ _ => ?_⟩
    norm_num [travel, machine]
  have h0 : ∀ axis, axis < machine.n → axis = 0 := by simp [machine]
  have hfeed : (fresh machine.kit |>.configure 100 (fin (1 / 2000))).overrides.feedOverride = fin 1 := rfl
  obtain ⟨j, hj, hjf, hok, -, hend⟩ := motion_executed machine_ok hf (idle_configured machine 100 (1 / 2000)) executable_request
    (by rw [hfeed]; show (fin 2 * fin 1).Pos; rw [fin_mul]; norm_num [Num.Pos])
    (by intro axis ha; rw [h0 axis ha, place_request]; norm_num [machine]; show |((0 : Int) : ℝ)| ≤ _; norm_num)
    (reachable (.inl rfl)) (by rw [hfeed]; exact brief (.inl rfl) (by norm_num)) h2
  have hL : j.L = 1 := by unfold Job.L; rw [hj]; rfl
  have hT : j.T ≤ 2 := by
    have := hok.brisk 1 1 (hj ▸ allowed (.inl rfl)) (by
      rw [hjf, hfeed]; show (fin 1).le (fin 2 * fin 1) = true; rw [fin_mul, le_fin]; norm_num) (by rw [hL]; norm_num)
    rw [hL] at this; linarith
  obtain ⟨hi, hn⟩ := hend (by norm_num; linarith)
  refine ⟨hi.state, hi.level, ?_⟩
  have := hn 0 one_pos
  rw [place_request, hL, abs_le] at this
  norm_num [machine, travel] at this
  have h3 : ((198 : Int) : ℝ) < c'.machinePosition 0 := by push_cast; linarith [this.2]
  have h4 : (c'.machinePosition 0 : ℝ) < ((202 : Int) : ℝ) := by push_cast; linarith [this.1]
  have h3 := Int.cast_lt.1 h3
  have h4 := Int.cast_lt.1 h4
  omega

/-- C74: there and back, the way back appended while the controller is already running; 4000 ticks per second. The machine ends
within one step of where it was. -/
example : ∃ c' log, (fresh machine.kit).run (.configure 100 (fin (1 / 4000)) :: (push machine request :: .start ::
      push machine back :: List.replicate 16001 .calculate)) = some (c', log) ∧
    c'.state = .stopped ∧ c'.buffer.level = 0 ∧ |c'.machinePosition 0| ≤ 1 := by
  obtain ⟨c', log, hrun, -⟩ := motion_history_returns (K := machine.kit)
    (.configure 100 (fin (1 / 4000)) :: (push machine request :: .start :: push machine back :: List.replicate 16001 .calculate))
  refine ⟨c', log, hrun, ?_⟩
  obtain ⟨c₁, l₁, l₂, h1, h2, -⟩ := run_split (K := machine.kit) [.configure 100 (fin (1 / 4000))]
    (push machine request :: .start :: push machine back :: List.replicate 16001 .calculate) hrun
  simp only [run, call, Option.map_some, Option.some.injEq, Prod.mk.injEq] at h1
  obtain ⟨rfl, -⟩ := h1
  obtain ⟨c₀, l₃, l₄, h3, h4, -⟩ := run_split (K := machine.kit) ([request].map (push machine) ++ [.start])
    (push machine back :: List.replicate 16001 .calculate) h2
  have hf : CanFollow machine (1 / 4000) (1 / 2) := by
    refine ⟨by norm_num, by norm_num [machine], fun _ _ => by norm_num [machine], fun _ _ => ?_⟩
    norm_num [travel, machine]
  have h0 : ∀ axis, axis < machine.n → axis = 0 := by simp [machine]
  have hi := idle_configured machine 100 (1 / 4000)
  have hfeed : (fresh machine.kit |>.configure 100 (fin (1 / 4000))).overrides.feedOverride = fin 1 := rfl
  have hpos : (fresh machine.kit |>.configure 100 (fin (1 / 4000))).machinePosition = fun _ => 0 := rfl
  generalize (fresh machine.kit).configure 100 (fin (1 / 4000)) = c at *
  have ho : ∀ r, r = request ∨ r = back → (r.vFeed * c.overrides.feedOverride).Pos := by
    intro r hr
    have hf : r.vFeed = fin 2 := by rcases hr with rfl | rfl <;> rfl
    rw [hfeed, hf, fin_mul]; norm_num [Num.Pos]
  -- the state after the start
  have e3 : c₀ = (c.append request).start := by
    simp only [List.map_cons, List.map_nil, List.cons_append, List.nil_append, push, run, call, Option.map_some,
      Option.some.injEq, Prod.mk.injEq] at h3
    exact h3.1.symm
  have hq0 : Queue (Waits machine) c.buffer [] := ⟨hi.head, hi.level, by simp, fun k hk => by simp at hk⟩
  obtain ⟨q1, -, -, -, q5, -, q7, -, -⟩ := append_queue machine_ok hq0 executable_request.moves (ho _ (.inl rfl)) (by decide)
  obtain ⟨s1, -, s3, s4, -, -⟩ := start_queue (by simp) q1 (by rw [q7]; simpa using ho _ (.inl rfl)) (by rw [q5]; exact hi.now)
  rw [← e3] at s1 s3 s4
  rw [q7] at s4
  have hfe : Feeds machine c₀ (push machine back :: List.replicate 16001 .calculate) :=
    ⟨.inr (.inr ⟨back, rfl, s3, by rw [s1.level]; decide, executable_back, by rw [s4]; exact ho _ (.inr rfl)⟩),
      fun _ _ _ => feeds_calculate _ _⟩
  have hprog : program (M := machine) c.overrides.feedOverride [request] (push machine back :: List.replicate 16001 .calculate) =
      [(request, request.vFeed * fin 1), (back, back.vFeed * fin 1)] := by
    rw [hfeed]
    show [(request, request.vFeed * fin 1)] ++ (back, back.vFeed * fin 1) :: requested (M := machine) _ _ = _
    rw [requested_calculate]; rfl
  obtain ⟨js, h5, h6, -, h7⟩ := program_executed machine_ok hf hi (rs := [request]) (by simp) (by simp)
    (by simpa using executable_request) (by simpa using ho _ (.inl rfl)) (d := fun _ => 0)
    (by intro axis ha; rw [hpos]; norm_num [machine, travel]) h3 hfe h4
    (by
      rw [hprog]
      refine ⟨fun axis ha => by rw [h0 axis ha, place_request], fun axis ha => ?_, trivial⟩
      rw [h0 axis ha, place_back]
      show _ = place request 0 1
      rw [place_request]; norm_num)
    (by
      rw [hprog]
      intro x hx
      have hx' : x = (request, request.vFeed * fin 1) ∨ x = (back, back.vFeed * fin 1) := by simpa using hx
      rcases hx' with rfl | rfl
      · exact ⟨long (.inl rfl) le_rfl, brief (.inl rfl) (by norm_num), reachable (.inl rfl)⟩
      · exact ⟨long (.inr rfl) le_rfl, brief (.inr rfl) (by norm_num), reachable (.inr rfl)⟩)
  rw [hprog] at h5 h7
  have hT : ∀ j ∈ js, j.T ≤ 2 := by
    intro j hj
    have hm : (j.r, j.f) ∈ [(request, request.vFeed * fin 1), (back, back.vFeed * fin 1)] := by
      rw [← h5]; exact List.mem_map_of_mem (f := fun j : Job => (j.r, j.f)) hj
    have hr : j.r = request ∨ j.r = back := by
      simp only [List.mem_cons, Prod.mk.injEq, List.not_mem_nil, or_false] at hm
      exact hm.imp And.left And.left
    have hjf : j.f = fin 2 * fin 1 := by
      simp only [List.mem_cons, Prod.mk.injEq, List.not_mem_nil, or_false] at hm
      rcases hm with h | h <;> exact h.2
    have hL : j.L = 1 := by unfold Job.L; rcases hr with h | h <;> rw [h] <;> rfl
    have := (h6 j hj).brisk 1 1 (allowed hr) (by rw [hjf, fin_mul, le_fin]; norm_num) (by rw [hL]; norm_num)
    rw [hL] at this; linarith
  have htot : total js ≤ 4 := by
    have hlen : js.length = 2 := by simpa using congrArg List.length h5
    obtain ⟨a, b, rfl⟩ := List.length_eq_two.1 hlen
    have := hT a (by simp); have := hT b (by simp)
    simp [total]; linarith
  have hcount : (push machine back :: List.replicate 16001 Call.calculate).countP Call.isCalculate = 16001 := by
    rw [List.countP_cons, List.countP_replicate]; simp [Call.isCalculate, push]
  obtain ⟨hi', hn⟩ := h7 (by rw [hcount]; norm_num; linarith)
  refine ⟨hi'.state, hi'.level, ?_⟩
  have := hn 0 one_pos
  change |place back 0 1 * _ - _| ≤ _ at this
  rw [place_back, abs_le] at this
  norm_num [machine, travel] at this
  have h3 : ((-2 : Int) : ℝ) < c'.machinePosition 0 := by push_cast; linarith [this.2]
  have h4 : (c'.machinePosition 0 : ℝ) < ((2 : Int) : ℝ) := by push_cast; linarith [this.1]
  have h3 := Int.cast_lt.1 h3
  have h4 := Int.cast_lt.1 h4
  rw [abs_le]; omega

end ExecuteExample

end Moovr.Props
