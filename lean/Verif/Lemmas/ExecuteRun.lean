import Verif.Lemmas.ExecuteQueue
import Verif.Props.Steps
/-!
# Executing a queue of motions
-/
namespace Moovr
open Num ExecSpec MotionCtrl MotionSpec PulseSpec

/-- The clock shows `u`: a number of samples after a carry-over. -/
structure Clock (M : Machine) (δ : ℝ) (t : SampleTime M.kit) (u : ℝ) : Prop where
  width : t.minStepPulseWidth = fin δ
  now : t.timeInMotion = fin u
  base : ∃ off : ℝ, t.sampleZeroOffset = fin off ∧ 0 ≤ off ∧ u = t.sampleIndex * δ + off

theorem Clock.reinit {M : Machine} {δ : ℝ} {t : SampleTime M.kit} {u : ℝ} (h : Clock M δ t u) : Clock M δ t.reinit 0 :=
  ⟨h.width, rfl, 0, rfl, le_rfl, by simp [SampleTime.reinit]⟩

theorem Queue.pop {K : MotionKit} {α : Type} {R : Motion K → α → Prop} {b : MotionBuffer K} {a : α} {l : List α}
    (h : Queue R b (a :: l)) : Queue R b.pop l := by
  have hm := h.max; have hl := h.level; have hh := h.head
  simp only [List.length_cons] at hm hl
  refine ⟨Nat.mod_lt _ (by decide), ?_, by omega, fun k hk => ?_⟩
  · show u32sub b.level 1 = _
    rw [hl]; unfold u32sub; omega
  · have := h.cell (k + 1) (by simp; omega)
    simp only [List.getElem_cons_succ] at this
    have e : ((b.head + 1) % 32 + k) % 32 = (b.head + (k + 1)) % 32 := by omega
    show R (b.cells (((b.head + 1) % 32 + k) % 32)) _
    rw [e]; exact this

theorem Queue.getHead {K : MotionKit} {α : Type} {R : Motion K → α → Prop} {b : MotionBuffer K} {a : α} {l : List α}
    (h : Queue R b (a :: l)) : R b.getHead a := by
  have := h.cell 0 (by simp)
  rw [Nat.add_zero, Nat.mod_eq_of_lt h.head] at this
  exact this

theorem isBeyond_fin {M : Machine} {t : SampleTime M.kit} {u T : ℝ} (h : t.timeInMotion = fin u) :
    t.isBeyond (K := M.kit) (fin T) = decide (T < u) := by
  show (fin T).lt t.timeInMotion = _
  rw [h, lt_fin]

/-- The queue at time `u` of its first motion: the first motion is planned up to now, the others wait. -/
structure Line (M : Machine) (b : MotionBuffer M.kit) (j : Job) (js : List Job) (u : ℝ) : Prop where
  queue : Queue (Runs M) b (j :: js)
  begun : b.getHead.prof.doneDuration.le (fin u) = true
  waits : ∀ k (hk : k < js.length), Waits M (b.cells ((b.head + (k + 1)) % 32)) js[k].r

theorem Line.later {M : Machine} {b : MotionBuffer M.kit} {j : Job} {js : List Job} {u u' : ℝ} (h : Line M b j js u) (hu : u ≤ u') :
    Line M b j js u' := by
  refine ⟨h.queue, ?_, h.waits⟩
  obtain ⟨i, l, rr, w, m, B, hb, -⟩ := h.queue.getHead.under
  have := h.begun
  rw [hb.of.doneT, le_fin, decide_eq_true_eq] at this ⊢
  linarith

theorem Line.pop {M : Machine} {b : MotionBuffer M.kit} {j j' : Job} {js : List Job} {u u' : ℝ} (h : Line M b j (j' :: js) u)
    (hu : 0 ≤ u') : Line M b.pop j' js u' := by
  have hw : ∀ k (hk : k < (j' :: js).length), Waits M (b.pop.cells ((b.pop.head + k) % 32)) (j' :: js)[k].r := by
    intro k hk
    have e : ((b.head + 1) % 32 + k) % 32 = (b.head + (k + 1)) % 32 := by omega
    show Waits M (b.cells (((b.head + 1) % 32 + k) % 32)) _
    rw [e]; exact h.waits k hk
  refine ⟨h.queue.pop, ?_, fun k hk => ?_⟩
  · have := hw 0 (by simp)
    rw [Nat.add_zero, Nat.mod_eq_of_lt h.queue.pop.head] at this
    have e := this.begun
    show (b.pop.cells b.pop.head).prof.doneDuration.le (fin u') = true
    rw [e, le_fin, decide_eq_true_eq]; exact hu
  · have := hw (k + 1) (by simp; omega)
    simpa using this

/-- The inner loop skips the motions that are over. -/
theorem settle_jobs {M : Machine} {δ : ℝ} (j : Job) (js : List Job) {c : MotionCtrl M.kit} {u : ℝ}
    (hq : Line M c.buffer j js u) (hc : Clock M δ c.time u) {fuel : Nat} {r} (h : settle fuel c = some r) :
    ((rest (j :: js) u).1 = [] ∧ r.1.state = .stopped ∧ Queue (Runs M) r.1.buffer [] ∧ Clock M δ r.1.time 0 ∧
      r.1.machinePosition = c.machinePosition ∧ r.2.2 = none ∧ r.1.overrides = c.overrides ∧
      r.1.events = c.events ++ List.replicate js.length .motionCompleted ++
        [.motionStopped, .motionCompleted, .allMotionsCompleted]) ∨
    (∃ j' js' u', rest (j :: js) u = (j' :: js', u') ∧ Line M r.1.buffer j' js' u' ∧ Clock M δ r.1.time u' ∧
      r.2.2 ≠ none ∧ r.1.state = c.state ∧ r.1.overrides = c.overrides ∧
      r.1.events = c.events ++ List.replicate (js.length - js'.length) .motionCompleted) := by
  induction js generalizing j c u fuel with
  | nil =>
    cases fuel with
    | zero => simp [settle] at h
    | succ fuel =>
      unfold settle at h
      have hd : M.kit.duration c.buffer.getHead.prof = fin j.T := hq.queue.getHead.duration
      rw [hd, isBeyond_fin hc.now] at h
      have hlv := hq.queue.level
      by_cases hb : j.T < u
      · have hrest : (rest [j] u).1 = [] := by simp [rest, not_le.2 hb]
        simp only [hb, decide_true, if_true] at h
        rw [if_neg (by rw [hlv]; simp)] at h
        simp only [Option.some.injEq] at h
        left
        subst h
        refine ⟨hrest, rfl, hq.queue.pop, hc.reinit, rfl, rfl, rfl, ?_⟩
        simp [lastMotion, pushEvent]
      · have hrest : rest [j] u = ([j], u) := by rw [rest, if_pos (not_lt.1 hb)]
        simp only [hb, decide_false, Bool.false_eq_true, if_false, Option.some.injEq] at h
        subst h
        right
        exact ⟨j, [], u, hrest, hq, hc, by simp, rfl, rfl, by simp [move]⟩
  | cons j' js ih =>
    cases fuel with
    | zero => simp [settle] at h
    | succ fuel =>
      unfold settle at h
      have hd : M.kit.duration c.buffer.getHead.prof = fin j.T := hq.queue.getHead.duration
      rw [hd, isBeyond_fin hc.now] at h
      have hlv := hq.queue.level
      simp only [List.length_cons] at hlv
      by_cases hb : j.T < u
      · have hrest : rest (j :: j' :: js) u = rest (j' :: js) (u - j.T) := by rw [rest, if_neg (not_le.2 hb)]
        simp only [hb, decide_true, if_true] at h
        rw [if_pos (by omega)] at h
        have hc' : Clock M δ c.nextMotion.time (u - j.T) := by
          have e : M.kit.diff c.time.timeInMotion (M.kit.duration c.buffer.getHead.prof) = fin (u - j.T) := by
            rw [hd, hc.now]; exact fin_sub _ _
          refine ⟨hc.width, e, u - j.T, e, by linarith, ?_⟩
          simp [nextMotion, pushEvent, SampleTime.initializeNextMotion]
        have hev : c.nextMotion.events = c.events ++ [.motionCompleted] := rfl
        rw [hrest]
        rcases ih j' (c := c.nextMotion) (hq.pop (by linarith)) hc' h with ⟨a1, a2, a3, a4, a5, a6, a7, a8⟩ | ⟨j₂, js₂, u₂, a1, a2, a3, a4, a5, a6, a7⟩
        · refine .inl ⟨a1, a2, a3, a4, a5, a6, a7, ?_⟩
          rw [a8, hev, List.append_assoc c.events, List.length_cons, ← List.replicate_one (a := Event.motionCompleted),
            List.replicate_append_replicate, Nat.add_comm 1]
        · refine .inr ⟨j₂, js₂, u₂, a1, a2, a3, a4, a5, a6, ?_⟩
          have hle : js₂.length + 1 ≤ js.length + 1 := by
            have : ∀ (l : List Job) (v : ℝ), (rest l v).1.length ≤ l.length := by
              intro l
              induction l with
              | nil => intro v; simp [rest]
              | cons a l ih => intro v; rw [rest]; split
                               · rfl
                               · exact (ih _).trans (by simp)
            have := this (j' :: js) (u - j.T)
            rw [a1] at this
            simpa using this
          rw [a7, hev, List.append_assoc, List.length_cons, ← List.replicate_one (a := Event.motionCompleted),
            List.replicate_append_replicate]
          congr 2; omega
      · have hrest : rest (j :: j' :: js) u = (j :: j' :: js, u) := by rw [rest, if_pos (not_lt.1 hb)]
        simp only [hb, decide_false, Bool.false_eq_true, if_false, Option.some.injEq] at h
        subst h
        right
        exact ⟨j, j' :: js, u, hrest, hq, hc, by simp, rfl, rfl, by simp [move]⟩

theorem Clock.next {M : Machine} {δ : ℝ} {t : SampleTime M.kit} {u : ℝ} (hc : Clock M δ t u) (hi : t.sampleIndex + 1 < 2 ^ 32) :
    Clock M δ t.next (u + δ) := by
  obtain ⟨off, h1, h2, h3⟩ := hc.base
  have e : (t.next).timeInMotion = fin (u + δ) := by
    show M.kit.sample (u32add t.sampleIndex 1) t.minStepPulseWidth t.sampleZeroOffset = _
    rw [u32add_of_lt (by omega), hc.width, h1]
    show fin _ * fin _ + fin _ = _
    rw [fin_mul, fin_add, h3]
    push_cast
    congr 1; ring
  refine ⟨hc.width, e, off, h1, h2, ?_⟩
  show u + δ = ((u32add t.sampleIndex 1 : Nat) : ℝ) * δ + off
  rw [u32add_of_lt (by omega), h3]; push_cast; ring

/-- One tick. -/
theorem tick_jobs {M : Machine} {δ : ℝ} (hδ : 0 ≤ δ) {j : Job} {js : List Job} {c c' : MotionCtrl M.kit} {t} {u : ℝ}
    (hq : Line M c.buffer j js u) (hc : Clock M δ c.time u) (hr : c.state = .running)
    (hi : c.time.sampleIndex + 1 < 2 ^ 32) (h : c.tick = some (c', t)) :
    ((rest (j :: js) (u + δ)).1 = [] ∧ c'.state = .stopped ∧ Queue (Runs M) c'.buffer [] ∧ Clock M δ c'.time 0 ∧
      c'.machinePosition = c.machinePosition ∧ t.active = none ∧ c'.overrides = c.overrides ∧
      t.events = List.replicate js.length .motionCompleted ++
        [.motionStopped, .motionCompleted, .allMotionsCompleted]) ∨
    (∃ j' js' u', rest (j :: js) (u + δ) = (j' :: js', u') ∧ Line M c'.buffer j' js' u' ∧ Clock M δ c'.time u' ∧
      t.active ≠ none ∧ c'.state = .running ∧ c'.overrides = c.overrides ∧
      t.events = List.replicate (js.length - js'.length) .motionCompleted) := by
  unfold tick at h
  simp only at h
  have hrun : c.isRunning = true := by simp [isRunning, hr]
  rw [if_pos hrun] at h
  have hs : sampleAndCheckStop { c with signals := c.signals.next } =
      { c with signals := c.signals.next, time := c.time.next } := by
    unfold sampleAndCheckStop
    simp only
    have e : M.kit.tStop c.buffer.getHead.prof = posInf := hq.queue.getHead.noStop
    rw [e, if_neg]
    have hl : ∀ x : Num, posInf.lt x = false := fun x => by cases x <;> rfl
    exact fun h => Bool.noConfusion ((hl c.time.next.timeInMotion).symm.trans h)
  rw [hs] at h
  simp only [Option.map_eq_some_iff, Prod.exists, Prod.mk.injEq] at h
  obtain ⟨c'', cmd, act, hs', rfl, rfl⟩ := h
  rcases settle_jobs j js (c := { c with signals := c.signals.next, time := c.time.next }) (hq.later (by linarith)) (hc.next hi) hs' with
    ⟨a1, a2, a3, a4, a5, a6, a7, a8⟩ | ⟨j₂, js₂, u₂, a1, a2, a3, a4, a5, a6, a7⟩
  · refine .inl ⟨a1, a2, a3, a4, a5, a6, a7, ?_⟩
    simp only at a8
    simp only [a8, List.append_assoc, List.drop_left]
  · refine .inr ⟨j₂, js₂, u₂, a1, a2, a3, a4, a5.trans hr, a6, ?_⟩
    simp only at a7
    simp only [a7, List.drop_left]

/-! ## Tracking -/

/-- Largest travel of an axis in one tick, in steps. -/
noncomputable def Machine.perTick (M : Machine) (δ : ℝ) (axis : Nat) : ℝ := M.vMax axis * δ * M.stepsPerMm axis

/-- What is required of machine and tick width; `E` is how far (in steps) an axis may be off when it begins to move, beyond the
band of half a step and the hysteresis. -/
structure Suited (M : Machine) (δ : ℝ) (E : Nat → ℝ) : Prop where
  width : 0 < δ
  hysteresis : 0 ≤ M.hysteresis
  steps : ∀ axis, axis < M.n → 0 ≤ M.stepsPerMm axis
  carry : ∀ axis, axis < M.n → 0 ≤ E axis
  le : ∀ axis, axis < M.n → E axis ≤ M.perTick δ axis
  rate : ∀ axis, axis < M.n → E axis + M.perTick δ axis ≤ 1

/-- What is required of a motion. -/
structure Fits (M : Machine) (δ : ℝ) (j : Job) : Prop where
  short : j.T + δ < 2 ^ 32 * δ
  range : ∀ axis, axis < M.n → ∀ s, 0 ≤ s → s ≤ j.L → M.InRange (place j.r axis s * M.stepsPerMm axis)

/-- The first motion of `js` is being executed, at time `u`. -/
structure Running (M : Machine) (δ : ℝ) (E : Nat → ℝ) (j : Job) (js : List Job) (u : ℝ) (c : MotionCtrl M.kit) : Prop where
  state : c.state = .running
  line : Line M c.buffer j js u
  clock : Clock M δ c.time u
  nonneg : 0 ≤ u
  le : u ≤ j.T
  near : ∀ axis, axis < M.n →
    |place j.r axis (j.S u) * M.stepsPerMm axis - c.machinePosition axis| ≤ 1 / 2 + M.hysteresis + E axis ∧
    (0 < u → c.buffer.getHead.traj.trajectory.isMoving axis = true →
      |place j.r axis (j.S u) * M.stepsPerMm axis - c.machinePosition axis| ≤ 1 / 2 + M.hysteresis)

theorem Running.queue {M : Machine} {δ : ℝ} {E : Nat → ℝ} {j : Job} {js : List Job} {u : ℝ} {c : MotionCtrl M.kit}
    (h : Running M δ E j js u c) : Queue (Runs M) c.buffer (j :: js) := h.line.queue

/-- All motions are over and the machine is at the end `e`. -/
structure Finished (M : Machine) (δ : ℝ) (e : Nat → ℝ) (c : MotionCtrl M.kit) : Prop where
  state : c.state = .stopped
  queue : Queue (Runs M) c.buffer []
  clock : Clock M δ c.time 0
  near : ∀ axis, axis < M.n →
    |e axis * M.stepsPerMm axis - c.machinePosition axis| ≤ 1 / 2 + M.hysteresis + M.perTick δ axis

theorem Clock.index {M : Machine} {δ : ℝ} {t : SampleTime M.kit} {u T : ℝ} (h : Clock M δ t u) (hδ : 0 < δ) (hu : u ≤ T)
    (hT : T + δ < 2 ^ 32 * δ) : t.sampleIndex + 1 < 2 ^ 32 := by
  obtain ⟨off, -, h2, h3⟩ := h.base
  have : ((t.sampleIndex : ℝ) + 1) * δ < 2 ^ 32 * δ := by nlinarith
  have := lt_of_mul_lt_mul_right this hδ.le
  exact_mod_cast this

/-- The decision of one axis that takes part. -/
theorem near_of_step {M : Machine} {c c' : MotionCtrl M.kit} {t} (h : c.tick = some (c', t)) {axis : Nat} {p e : ℝ}
    (hp : Props.commanded M c' axis = fin p) (hr : M.InRange (p * M.stepsPerMm axis)) (ht : Props.TakesPart M c' t axis)
    (he : |p * M.stepsPerMm axis - c.machinePosition axis| ≤ 1 / 2 + M.hysteresis + e) (he1 : e ≤ 1) (hh : 0 ≤ M.hysteresis) :
    |p * M.stepsPerMm axis - c'.machinePosition axis| ≤ 1 / 2 + M.hysteresis := by
  obtain ⟨h1, -, -, h4⟩ := Props.one_step_per_tick h axis
  obtain ⟨hf, hb, hn⟩ := h4 p hp hr ht
  rw [h1]
  have he := abs_le.1 he
  rcases hc : t.cmd axis with _ | d
  · simp only [stepsOf, add_zero]; exact hn hc
  · rw [abs_le]
    cases d with
    | forward =>
      have := hf hc
      simp only [stepsOf]; push_cast
      constructor <;> linarith
    | backward =>
      have := hb hc
      simp only [stepsOf]; push_cast
      constructor <;> linarith

/-- One tick of a program, while the sample counter does not overflow. -/
theorem Running.tick_index {M : Machine} {δ : ℝ} {E : Nat → ℝ} {j : Job} {js : List Job} {u : ℝ} {c c' : MotionCtrl M.kit} {t}
    (hs : Suited M δ E) (hrange : ∀ j' ∈ j :: js, ∀ axis, axis < M.n → ∀ s, 0 ≤ s → s ≤ j'.L →
      M.InRange (place j'.r axis s * M.stepsPerMm axis)) (hidx : c.time.sampleIndex + 1 < 2 ^ 32)
    (hmode : (∀ axis, axis < M.n → E axis = 0) ∧ js = [] ∨
      (∀ axis, axis < M.n → E axis = M.perTick δ axis) ∧ ∀ j' ∈ j :: js, δ ≤ j'.T)
    (h : Running M δ E j js u c) (ht : c.tick = some (c', t))
    (hcon : ∀ j' js', js = j' :: js' → ∀ axis, axis < M.n → place j'.r axis 0 = place j.r axis j.L) :
    (u + δ ≤ j.T ∧ Running M δ E j js (u + δ) c') ∨
    (j.T < u + δ ∧ ∃ j' js', js = j' :: js' ∧ Running M δ E j' js' (u + δ - j.T) c') ∨
    (j.T < u + δ ∧ js = [] ∧ Finished M δ (fun axis => place j.r axis j.L) c') := by
  have hδ := hs.width
  have hjok : j.Sound M := h.queue.getHead.ok
  have hstep : ∀ axis, axis < M.n → ∀ x y z : ℝ, |y - x| ≤ M.vMax axis * z →
      |y * M.stepsPerMm axis - x * M.stepsPerMm axis| ≤ M.vMax axis * z * M.stepsPerMm axis := by
    intro axis ha x y z hxy
    rw [← sub_mul, abs_mul, abs_of_nonneg (hs.steps axis ha)]
    exact mul_le_mul_of_nonneg_right hxy (hs.steps axis ha)
  have hper : ∀ axis, axis < M.n → 0 ≤ M.vMax axis * δ := by
    intro axis ha
    have := hjok.speed axis ha 0 j.T le_rfl hjok.pos.le le_rfl
    have h1 : 0 ≤ M.vMax axis * (j.T - 0) := (abs_nonneg _).trans this
    have h2 : 0 ≤ M.vMax axis := by
      by_contra hneg
      have := mul_neg_of_neg_of_pos (not_le.1 hneg) (show 0 < j.T - 0 by linarith [hjok.pos])
      linarith
    exact mul_nonneg h2 hδ.le
  have hn2 : j.T < u + δ → ∀ axis, axis < M.n → c.buffer.getHead.traj.trajectory.isMoving axis = true →
      |place j.r axis (j.S u) * M.stepsPerMm axis - c.machinePosition axis| ≤ 1 / 2 + M.hysteresis := by
    intro hT axis ha hm
    obtain ⟨n1, n2⟩ := h.near axis ha
    rcases hmode with ⟨hE, -⟩ | ⟨-, hl⟩
    · rw [hE axis ha] at n1; linarith
    · exact n2 (by have := hl j List.mem_cons_self; linarith) hm
  -- a tick moves only axes that take part
  have hidle : ∀ axis, ¬ Props.TakesPart M c' t axis → c'.machinePosition axis = c.machinePosition axis := by
    intro axis hn
    obtain ⟨h1, -, h3, -⟩ := Props.one_step_per_tick ht axis
    rw [h1, h3 hn]; simp [stepsOf]
  have hcomm : ∀ {j₁ : Job} {js₁ u₁}, Line M c'.buffer j₁ js₁ u₁ → Clock M δ c'.time u₁ → ∀ axis, axis < M.n →
      Props.commanded M c' axis = fin (place j₁.r axis (j₁.S u₁)) := by
    intro j₁ js₁ u₁ hq hc axis ha
    have hr := hq.queue.getHead
    unfold Props.commanded
    have e : c'.buffer.getHead.prof.s c'.time.timeInMotion = fin (j₁.S u₁) := by
      rw [hc.now]; exact hr.s u₁ hq.begun
    rw [e]; exact hr.position axis ha _
  rcases tick_jobs hδ.le h.line h.clock h.state hidx ht with
    ⟨a1, a2, a3, a4, a5, a6, a7⟩ | ⟨j₂, js₂, u₂, a1, a2, a3, a4, a5, a6⟩
  · -- the last motion is over
    right; right
    have hb : j.T < u + δ := by
      by_contra hb
      rw [rest, if_pos (not_lt.1 hb)] at a1
      simp at a1
    have hjs : js = [] := by
      cases js with
      | nil => rfl
      | cons j' js' =>
        exfalso
        rw [rest, if_neg (not_le.2 hb), rest, if_pos] at a1
        · simp at a1
        · rcases hmode with ⟨-, hm⟩ | ⟨-, hl⟩
          · simp at hm
          · have := hl j' (by simp); linarith [h.le]
    refine ⟨hb, hjs, a2, a3, a4, fun axis ha => ?_⟩
    rw [a5]
    obtain ⟨n1, n2⟩ := h.near axis ha
    have hd := hstep axis ha _ _ _ (hjok.speed axis ha u j.T h.nonneg h.le le_rfl)
    rw [hjok.finish] at hd
    have hle : M.vMax axis * (j.T - u) * M.stepsPerMm axis ≤ M.perTick δ axis := by
      unfold Machine.perTick
      refine mul_le_mul_of_nonneg_right ?_ (hs.steps axis ha)
      have := hper axis ha
      have h0 : 0 ≤ M.vMax axis := by
        by_contra hneg; have := mul_neg_of_neg_of_pos (not_le.1 hneg) hδ; linarith
      exact mul_le_mul_of_nonneg_left (by linarith) h0
    by_cases hm : c.buffer.getHead.traj.trajectory.isMoving axis = true
    · have n2 := hn2 hb axis ha hm
      rw [abs_le] at *
      constructor <;> linarith [n2.1, n2.2, hd.1, hd.2]
    · rw [h.queue.getHead.still axis ha (by simpa using hm) j.L (j.S u)]
      exact n1.trans (by linarith [hs.le axis ha])
  · by_cases hb : u + δ ≤ j.T
    · -- the same motion
      left
      have hrest : rest (j :: js) (u + δ) = (j :: js, u + δ) := by rw [rest, if_pos hb]
      rw [hrest] at a1
      simp only [Prod.mk.injEq, List.cons.injEq] at a1
      obtain ⟨⟨rfl, rfl⟩, rfl⟩ := a1
      refine ⟨hb, a5, a2, a3, by linarith [h.nonneg], hb, fun axis ha => ?_⟩
      obtain ⟨n1, n2⟩ := h.near axis ha
      have hd := hstep axis ha _ _ _ (hjok.speed axis ha u (u + δ) h.nonneg (by linarith) hb)
      rw [add_sub_cancel_left] at hd
      change _ ≤ M.perTick δ axis at hd
      by_cases hm : c'.buffer.getHead.traj.trajectory.isMoving axis = true
      · have he : |place j.r axis (j.S (u + δ)) * M.stepsPerMm axis - c.machinePosition axis| ≤
            1 / 2 + M.hysteresis + (E axis + M.perTick δ axis) := by
          rw [abs_le] at *
          constructor <;> linarith [n1.1, n1.2, hd.1, hd.2]
        have hfin := near_of_step ht (hcomm a2 a3 axis ha)
          (hrange j List.mem_cons_self axis ha _ (by
            have := hjok.forward 0 (u + δ) le_rfl (by linarith [h.nonneg]) hb; rw [hjok.start] at this; exact this)
            (by have := hjok.forward (u + δ) j.T (by linarith [h.nonneg]) hb le_rfl; rw [hjok.finish] at this; exact this))
          ⟨a4, ha, hm⟩ he (hs.rate axis ha) hs.hysteresis
        exact ⟨by linarith [hs.carry axis ha], fun _ _ => hfin⟩
      · have hst := a2.queue.getHead.still axis ha (by simpa using hm) (j.S (u + δ)) (j.S u)
        rw [hidle axis (fun h => hm h.2.2), hst]
        exact ⟨n1, fun _ h => absurd h hm⟩
    · -- the next motion
      right; left
      rw [not_le] at hb
      obtain ⟨j', js', rfl⟩ : ∃ j' js', js = j' :: js' := by
        cases js with
        | nil => rw [rest, if_neg (not_le.2 hb), rest] at a1; simp at a1
        | cons j' js' => exact ⟨_, _, rfl⟩
      obtain ⟨hE, hl⟩ : (∀ axis, axis < M.n → E axis = M.perTick δ axis) ∧ ∀ j₁ ∈ j :: j' :: js', δ ≤ j₁.T := by
        rcases hmode with ⟨-, hm⟩ | hm
        · simp at hm
        · exact hm
      have hlong := hl j' (by simp)
      have hu' : u + δ - j.T ≤ j'.T := by linarith [h.le]
      have hrest : rest (j :: j' :: js') (u + δ) = (j' :: js', u + δ - j.T) := by
        rw [rest, if_neg (not_le.2 hb), rest, if_pos hu']
      rw [hrest] at a1
      simp only [Prod.mk.injEq, List.cons.injEq] at a1
      obtain ⟨⟨rfl, rfl⟩, rfl⟩ := a1
      have hjok' : j'.Sound M := a2.queue.getHead.ok
      have h0' : 0 ≤ u + δ - j.T := by linarith
      refine ⟨hb, j', js', rfl, a5, a2, a3, h0', hu', fun axis ha => ?_⟩
      obtain ⟨n1, n2⟩ := h.near axis ha
      have hcon' := hcon j' js' rfl axis ha
      have hd1 := hstep axis ha _ _ _ (hjok.speed axis ha u j.T h.nonneg h.le le_rfl)
      have hd2 := hstep axis ha _ _ _ (hjok'.speed axis ha 0 (u + δ - j.T) le_rfl h0' hu')
      rw [hjok.finish] at hd1
      rw [hjok'.start, hcon'] at hd2
      have hsum : M.vMax axis * (j.T - u) * M.stepsPerMm axis + M.vMax axis * (u + δ - j.T - 0) * M.stepsPerMm axis =
          M.perTick δ axis := by unfold Machine.perTick; ring
      have hd : |place j'.r axis (j'.S (u + δ - j.T)) * M.stepsPerMm axis - place j.r axis (j.S u) * M.stepsPerMm axis| ≤
          M.perTick δ axis := by
        rw [← hsum]
        rw [abs_le] at *
        constructor <;> linarith [hd1.1, hd1.2, hd2.1, hd2.2]
      by_cases hm : c'.buffer.getHead.traj.trajectory.isMoving axis = true
      · have he : |place j'.r axis (j'.S (u + δ - j.T)) * M.stepsPerMm axis - c.machinePosition axis| ≤
            1 / 2 + M.hysteresis + (E axis + M.perTick δ axis) := by
          rw [abs_le] at *
          constructor <;> linarith [n1.1, n1.2, hd.1, hd.2]
        have hfin := near_of_step ht (hcomm a2 a3 axis ha)
          (hrange j' (by simp) axis ha _ (by
            have := hjok'.forward 0 _ le_rfl h0' hu'; rw [hjok'.start] at this; exact this)
            (by have := hjok'.forward _ j'.T h0' hu' le_rfl; rw [hjok'.finish] at this; exact this))
          ⟨a4, ha, hm⟩ he (hs.rate axis ha) hs.hysteresis
        exact ⟨by linarith [hs.carry axis ha], fun _ _ => hfin⟩
      · rw [hidle axis (fun h => hm h.2.2)]
        refine ⟨?_, fun _ h => absurd h hm⟩
        by_cases hm0 : c.buffer.getHead.traj.trajectory.isMoving axis = true
        · have n2 := hn2 hb axis ha hm0
          rw [abs_le] at *
          have := hE axis ha
          constructor <;> linarith [n2.1, n2.2, hd.1, hd.2]
        · have hst := h.queue.getHead.still axis ha (by simpa using hm0) (j.S u) j.L
          have hst' := a2.queue.getHead.still axis ha (by simpa using hm) (j'.S (u + δ - j.T)) 0
          rw [hst', hcon', ← hst]
          exact n1

theorem Running.tick {M : Machine} {δ : ℝ} {E : Nat → ℝ} {j : Job} {js : List Job} {u : ℝ} {c c' : MotionCtrl M.kit} {t}
    (hs : Suited M δ E) (hfit : ∀ j' ∈ j :: js, Fits M δ j')
    (hmode : (∀ axis, axis < M.n → E axis = 0) ∧ js = [] ∨
      (∀ axis, axis < M.n → E axis = M.perTick δ axis) ∧ ∀ j' ∈ j :: js, δ ≤ j'.T)
    (h : Running M δ E j js u c) (ht : c.tick = some (c', t))
    (hcon : ∀ j' js', js = j' :: js' → ∀ axis, axis < M.n → place j'.r axis 0 = place j.r axis j.L) :
    (u + δ ≤ j.T ∧ Running M δ E j js (u + δ) c') ∨
    (j.T < u + δ ∧ ∃ j' js', js = j' :: js' ∧ Running M δ E j' js' (u + δ - j.T) c') ∨
    (j.T < u + δ ∧ js = [] ∧ Finished M δ (fun axis => place j.r axis j.L) c') :=
  h.tick_index hs (fun j' hj' => (hfit j' hj').range) (h.clock.index hs.width h.le (hfit j List.mem_cons_self).short) hmode ht hcon

end Moovr
