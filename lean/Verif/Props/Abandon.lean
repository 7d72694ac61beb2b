import Verif.Lemmas.TickInv
import Verif.Props.StopExecute
/-!
# Property C127: a program can be abandoned for another one

`flushMotionBuffer()` at standstill, after any history whatever, and the execution of the next program.
-/
namespace Moovr.Props
open Num ExecSpec MotionCtrl MotionSpec

/-- Not `initialize()`. -/
def NeverConfigured {R T O : Type} (ks : List (Call R T O)) : Prop := ∀ k ∈ ks, ∀ m w, k ≠ .configure m w

/-- A program that is executed as C74 requires, but for what C74 says about the controller: the first motions `rs` are appended to the
controller `c`, it is started, and then called with `ks`; the motions are connected and lead on from `d`. -/
structure Given (M : Machine) (δ : ℝ) (d : Nat → ℝ) (c : MotionCtrl M.kit) (rs : List SimplifiedMotion) (ks : List (MCall M))
    (c' : MotionCtrl M.kit) (log : Log M.kit.Req (Option M.kit.Req) M.kit.Time M.kit.Ovr) : Prop where
  some : rs ≠ []
  fit : rs.length ≤ 32
  executable : ∀ r ∈ rs, Executable M.n r
  feed : ∀ r ∈ rs, (r.vFeed * c.overrides.feedOverride).Pos
  run : ∃ c₀ log₀, c.run (rs.map (push M) ++ [.start]) = .some (c₀, log₀) ∧ Feeds M c₀ ks ∧ c₀.run ks = .some (c', log)
  connected : Connected M.n d ((program c.overrides.feedOverride rs ks).map Prod.fst)
  motions : ∀ x ∈ program c.overrides.feedOverride rs ks, Long M δ x.1 ∧ Brief M δ x.1 x.2 ∧ Reachable M x.1

/-- The program is carried out: the axes follow the paths within all limits, and when the time is over the controller is idle and the axes
are at the end of the last motion. -/
def CarriedOut (M : Machine) (δ : ℝ) (d : Nat → ℝ) (c : MotionCtrl M.kit) (rs : List SimplifiedMotion) (ks : List (MCall M))
    (c' : MotionCtrl M.kit) (log : Log M.kit.Req (Option M.kit.Req) M.kit.Time M.kit.Ovr) : Prop :=
  ∃ js : List Job, js.map (fun j => (j.r, j.f)) = program c.overrides.feedOverride rs ks ∧ (∀ j ∈ js, j.Ok M) ∧
    Executes M δ d js ((ticksOf log).length * δ) c' ∧
    (total js < ks.countP Call.isCalculate * δ → Idle M δ c' ∧ ∀ axis, axis < M.n →
      |endOf d ((program c.overrides.feedOverride rs ks).map Prod.fst) axis * M.stepsPerMm axis - c'.machinePosition axis| ≤
        1 / 2 + M.hysteresis + travel M δ axis)

namespace AbandonProof

theorem width_settle {K : MotionKit} (fuel : Nat) : ∀ {c : MotionCtrl K} {r}, settle fuel c = some r →
    r.1.time.minStepPulseWidth = c.time.minStepPulseWidth := by
  induction fuel with
  | zero => intro c r h; simp [settle] at h
  | succ fuel ih =>
    intro c r h
    unfold settle at h
    split at h
    · split at h
      · exact ih (c := c.nextMotion) h
      · simp only [Option.some.injEq] at h
        subst h
        rfl
    · simp only [Option.some.injEq] at h
      subst h
      rfl

theorem width_tick {K : MotionKit} {c c' : MotionCtrl K} {t} (h : c.tick = some (c', t)) :
    c'.time.minStepPulseWidth = c.time.minStepPulseWidth := by
  unfold tick at h
  simp only at h
  split at h
  · simp only [Option.map_eq_some_iff, Prod.mk.injEq] at h
    obtain ⟨x, hx, rfl, -⟩ := h
    refine (width_settle _ hx).trans ?_
    unfold sampleAndCheckStop
    simp only
    split <;> rfl
  · simp only [Option.some.injEq, Prod.mk.injEq] at h
    obtain ⟨rfl, -⟩ := h
    rfl

theorem width_call {K : MotionKit} {c c' : MotionCtrl K} {k x} (hk : ∀ m w, k ≠ .configure m w) (h : c.call k = some (c', x)) :
    c'.time.minStepPulseWidth = c.time.minStepPulseWidth := by
  cases k with
  | configure m w => exact absurd rfl (hk m w)
  | calculate =>
    simp only [call, calcNext, Option.map_eq_some_iff, Prod.exists, Prod.mk.injEq] at h
    obtain ⟨c₀, e, ts, h2, rfl, -⟩ := h
    exact (calcLoop_inv (P := fun _ d => d.time.minStepPulseWidth = c.time.minStepPulseWidth) (fun _ _ _ h => h)
      (fun _ _ _ _ h h' => (width_tick h').trans h) _ (k := 0) rfl h2).1
  | append r =>
    simp only [call, Option.some.injEq, Prod.mk.injEq] at h
    obtain ⟨rfl, -⟩ := h
    unfold append
    split <;> rfl
  | start =>
    simp only [call, Option.some.injEq, Prod.mk.injEq] at h
    obtain ⟨rfl, -⟩ := h
    unfold start
    split
    · rw [(sameButProf_optimize _).time]; rfl
    · rfl
  | stop =>
    simp only [call, Option.some.injEq, Prod.mk.injEq] at h
    obtain ⟨rfl, -⟩ := h
    unfold stop
    rw [(sameButProf_optimize _).time]; rfl
  | flush =>
    simp only [call, Option.some.injEq, Prod.mk.injEq] at h
    obtain ⟨rfl, -⟩ := h
    unfold flushMotionBuffer
    split <;> rfl
  | resetPosition =>
    simp only [call, Option.some.injEq, Prod.mk.injEq] at h
    obtain ⟨rfl, -⟩ := h
    rfl
  | override o =>
    simp only [call, Option.some.injEq, Prod.mk.injEq] at h
    obtain ⟨rfl, -⟩ := h
    rfl

theorem width_run {K : MotionKit} : ∀ (ks : List (Call K.Req K.Time K.Ovr)) {c c' : MotionCtrl K} {log}, NeverConfigured ks →
    c.run ks = some (c', log) → c'.time.minStepPulseWidth = c.time.minStepPulseWidth := by
  intro ks
  induction ks with
  | nil =>
    intro c c' log _ h
    simp only [run, Option.some.injEq, Prod.mk.injEq] at h
    rw [h.1]
  | cons k ks ih =>
    intro c c' log hk h
    rw [run] at h
    split at h
    · simp at h
    · rename_i c₁ x hx
      simp only [Option.map_eq_some_iff, Prod.exists, Prod.mk.injEq] at h
      obtain ⟨c₂, l, h1, rfl, -⟩ := h
      exact (ih (fun k h => hk k (List.mem_cons_of_mem _ h)) h1).trans (width_call (hk k (by simp)) hx)

theorem width_feeds {M : Machine} : ∀ (ks : List (MCall M)) {c c' : MotionCtrl M.kit} {log}, Feeds M c ks →
    c.run ks = some (c', log) → c'.time.minStepPulseWidth = c.time.minStepPulseWidth := by
  intro ks
  induction ks with
  | nil => intro c c' log _ h; exact width_run [] (by simp [NeverConfigured]) h
  | cons k ks ih =>
    intro c c' log ⟨hk, hf⟩ h
    rw [run] at h
    split at h
    · simp at h
    · rename_i c₁ x hx
      simp only [Option.map_eq_some_iff, Prod.exists, Prod.mk.injEq] at h
      obtain ⟨c₂, l, h1, rfl, -⟩ := h
      refine (ih (hf _ _ hx) h1).trans (width_call ?_ hx)
      rcases hk with rfl | ⟨o, rfl⟩ | ⟨r, rfl, -⟩ <;> simp [push]

theorem width_waiting {M : Machine} : ∀ (ks : List (MCall M)) {c c' : MotionCtrl M.kit} {log}, Waiting M c ks →
    c.run ks = some (c', log) → c'.time.minStepPulseWidth = c.time.minStepPulseWidth := by
  intro ks
  induction ks with
  | nil => intro c c' log _ h; exact width_run [] (by simp [NeverConfigured]) h
  | cons k ks ih =>
    intro c c' log ⟨hk, hf⟩ h
    rw [run] at h
    split at h
    · simp at h
    · rename_i c₁ x hx
      simp only [Option.map_eq_some_iff, Prod.exists, Prod.mk.injEq] at h
      obtain ⟨c₂, l, h1, rfl, -⟩ := h
      refine (ih (hf _ _ hx) h1).trans (width_call ?_ hx)
      rcases hk with rfl | ⟨o, rfl⟩ | ⟨r, rfl, -⟩ <;> simp [push]

theorem flush_idle {M : Machine} {δ : ℝ} {c : MotionCtrl M.kit} (hs : c.state = .stopped) (hw : c.time.minStepPulseWidth = fin δ) :
    Idle M δ c.flushMotionBuffer ∧ c.flushMotionBuffer.machinePosition = c.machinePosition ∧
      c.flushMotionBuffer.overrides = c.overrides := by
  have hfl : c.flushMotionBuffer = { c with time := c.time.reinit, buffer := c.buffer.flush } := by
    unfold flushMotionBuffer
    rw [if_pos (by simp [isRunning, hs])]
  rw [hfl]
  exact ⟨⟨hs, rfl, by simp [MotionBuffer.flush], hw, rfl, rfl, rfl⟩, rfl, rfl⟩

theorem carried_out {M : Machine} (hM : M.Ok) {δ : ℝ} (hm : CanFollow M δ (1 / 2)) {d : Nat → ℝ} {c c' : MotionCtrl M.kit} {rs ks log}
    (hi : Idle M δ c)
    (hnear : ∀ axis, axis < M.n → |d axis * M.stepsPerMm axis - c.machinePosition axis| ≤ 1 / 2 + M.hysteresis + travel M δ axis)
    (h : Given M δ d c rs ks c' log) : CarriedOut M δ d c rs ks c' log := by
  obtain ⟨c₀, log₀, h1, h2, h3⟩ := h.run
  exact program_executed hM hm hi h.some h.fit h.executable h.feed hnear h1 h2 h3 h.connected h.motions

/-- Neither `initialize()` nor new overrides. -/
def Plain {R T O : Type} (k : Call R T O) : Prop := (∀ m w, k ≠ .configure m w) ∧ ∀ o, k ≠ .override o

theorem overrides_run {K : MotionKit} : ∀ (ks : List (Call K.Req K.Time K.Ovr)) {c c' : MotionCtrl K} {log}, (∀ k ∈ ks, Plain k) →
    c.run ks = some (c', log) → c'.overrides = c.overrides := by
  intro ks
  induction ks with
  | nil =>
    intro c c' log _ h
    simp only [run, Option.some.injEq, Prod.mk.injEq] at h
    rw [h.1]
  | cons k ks ih =>
    intro c c' log hk h
    rw [run] at h
    split at h
    · simp at h
    · rename_i c₁ x hx
      simp only [Option.map_eq_some_iff, Prod.exists, Prod.mk.injEq] at h
      obtain ⟨c₂, l, h1, rfl, -⟩ := h
      refine (ih (fun k h => hk k (List.mem_cons_of_mem _ h)) h1).trans ?_
      obtain ⟨p1, p2⟩ := hk k (by simp)
      cases k with
      | configure m w => exact absurd rfl (p1 m w)
      | override o => exact absurd rfl (p2 o)
      | calculate =>
        simp only [call, calcNext, Option.map_eq_some_iff, Prod.exists, Prod.mk.injEq] at hx
        obtain ⟨c₀, e, ts, h2, rfl, -⟩ := hx
        exact calcLoop_overrides _ h2
      | append r =>
        simp only [call, Option.some.injEq, Prod.mk.injEq] at hx
        obtain ⟨rfl, -⟩ := hx
        unfold append
        split <;> rfl
      | start =>
        simp only [call, Option.some.injEq, Prod.mk.injEq] at hx
        obtain ⟨rfl, -⟩ := hx
        unfold start
        split
        · rw [(sameButProf_optimize _).ovr]; rfl
        · rfl
      | stop =>
        simp only [call, Option.some.injEq, Prod.mk.injEq] at hx
        obtain ⟨rfl, -⟩ := hx
        unfold stop
        rw [(sameButProf_optimize _).ovr]; rfl
      | flush =>
        simp only [call, Option.some.injEq, Prod.mk.injEq] at hx
        obtain ⟨rfl, -⟩ := hx
        unfold flushMotionBuffer
        split <;> rfl
      | resetPosition =>
        simp only [call, Option.some.injEq, Prod.mk.injEq] at hx
        obtain ⟨rfl, -⟩ := hx
        rfl

end AbandonProof

open AbandonProof

/-- **C127 (flushing).** After any history of calls whatever (`initialize()` being called first only): if the controller stands still,
`flushMotionBuffer()` returns it to the idle state — empty queue, clock at zero — with the position kept; otherwise it does nothing. -/
theorem flush_makes_idle {M : Machine} {δ : ℝ} {t : Nat} {ks : List (MCall M)} (hk : NeverConfigured ks) {c : MotionCtrl M.kit} {log}
    (h : (fresh M.kit).run (.configure t (fin δ) :: ks) = some (c, log)) :
    (c.state = .stopped → Idle M δ c.flushMotionBuffer ∧ c.flushMotionBuffer.machinePosition = c.machinePosition ∧
      c.flushMotionBuffer.overrides = c.overrides) ∧
    (c.state ≠ .stopped → c.flushMotionBuffer = c) := by
  constructor
  · intro hs
    refine flush_idle hs ?_
    rw [run] at h
    simp only [call, Option.map_eq_some_iff, Prod.exists, Prod.mk.injEq] at h
    obtain ⟨c₂, l, h1, rfl, -⟩ := h
    exact (width_run ks hk h1).trans rfl
  · intro hs
    unfold flushMotionBuffer
    rw [if_neg (by simp [isRunning, hs])]

/-- **C127 (the next program).** After any history whatever, when the controller stands still and the queue has been flushed, a program
that begins where the axes stand (as `getMachinePosition()` reports it) is carried out as by a new controller. -/
theorem flush_then_program {M : Machine} (hM : M.Ok) {δ : ℝ} (hm : CanFollow M δ (1 / 2)) (hsteps : ∀ i, i < M.n → M.stepsPerMm i ≠ 0)
    {t : Nat} {ks : List (MCall M)} (hk : NeverConfigured ks) {c : MotionCtrl M.kit} {log}
    (h : (fresh M.kit).run (.configure t (fin δ) :: ks) = some (c, log)) (hs : c.state = .stopped)
    {rs : List SimplifiedMotion} {ks' : List (MCall M)} {c' : MotionCtrl M.kit} {log'}
    (hg : Given M δ (fun axis => c.machinePosition axis / M.stepsPerMm axis) c.flushMotionBuffer rs ks' c' log') :
    CarriedOut M δ (fun axis => c.machinePosition axis / M.stepsPerMm axis) c.flushMotionBuffer rs ks' c' log' := by
  obtain ⟨h1, h2, -⟩ := (flush_makes_idle hk h).1 hs
  refine carried_out hM hm h1 (fun axis ha => ?_) hg
  rw [h2, div_mul_cancel₀ _ (hsteps axis ha), sub_self, abs_zero]
  have : 0 ≤ travel M δ axis := mul_nonneg (mul_nonneg (hM.vMax axis ha).le hm.width.le) (hm.steps axis ha)
  have := hm.hysteresis
  linarith

/-- **C127, partial (a stopped program).** A program is stopped while the motion in progress is not speeding up and short of the end of
its path (C89); when it has come to rest the queue is flushed. Then a program that begins at the place where the stop has ended is
carried out as by a new controller; nothing of the old program is executed. Missing: stops while the motion speeds up (C37) — for
them only `flush_then_program` holds. -/
theorem program_abandoned_partial {M : Machine} {δ : ℝ} {d : Nat → ℝ} {c c' : MotionCtrl M.kit} {rs ks log}
    (h : Performs M δ d c rs ks c' log)
    (hfeed : ∀ x ∈ program c.overrides.feedOverride rs ks, (x.1.vFeed * c'.overrides.feedOverride).Pos)
    (hbrief : ∀ x ∈ program c.overrides.feedOverride rs ks, Brief M (δ / 4) x.1 x.2) :
    ∃ js : List Job, js.map (fun j => (j.r, j.f)) = program c.overrides.feedOverride rs ks ∧ (∀ j ∈ js, j.Ok M) ∧
      Executes M δ d js ((ticksOf log).length * δ) c' ∧
      ∀ {j js' u}, rest js ((ticksOf log).length * δ) = (j :: js', u) → j.Settled u →
        ∃ k : Brake, k.Ok M j u ∧ (k.S k.E < j.L → ∀ {ks₁ c₁ log₁}, c'.run (.stop :: ks₁) = some (c₁, log₁) → Waiting M c'.stop ks₁ →
          k.E < u + (ticksOf log₁).length * δ →
          ∀ {rs₂ ks₂ c₂ log₂}, Given M δ (fun axis => place j.r axis (k.S k.E)) c₁.flushMotionBuffer rs₂ ks₂ c₂ log₂ →
            CarriedOut M δ (fun axis => place j.r axis (k.S k.E)) c₁.flushMotionBuffer rs₂ ks₂ c₂ log₂) := by
  obtain ⟨js, h1, h2, h3, h4⟩ := program_stops_and_resumes_partial h hfeed hbrief
  refine ⟨js, h1, h2, h3, fun {j js' u} hrest hset => ?_⟩
  obtain ⟨k, hk, h5⟩ := h4 hrest hset
  refine ⟨k, hk, fun hlt {ks₁ c₁ log₁} hrun hw hE {rs₂ ks₂ c₂ log₂} hg => ?_⟩
  obtain ⟨hh, -, -⟩ := h5 hrun hw
  obtain ⟨hs, -, hp⟩ := hh.stopped hE
  have hwid : c₁.time.minStepPulseWidth = fin δ := by
    obtain ⟨c₀, log₀, r1, r2, r3⟩ := h.run
    have w1 := width_run _ (by
      intro k hk m w e
      subst e
      rcases List.mem_append.1 hk with hk | hk
      · obtain ⟨r, -, hr⟩ := List.mem_map.1 hk
        simp [push] at hr
      · simp at hk) r1
    have w2 := width_feeds ks r2 r3
    rw [run] at hrun
    simp only [call, Option.map_eq_some_iff, Prod.exists, Prod.mk.injEq] at hrun
    obtain ⟨c₃, l, r4, rfl, -⟩ := hrun
    have w3 := width_waiting ks₁ hw r4
    have w4 : c'.stop.time.minStepPulseWidth = c'.time.minStepPulseWidth := width_call (k := .stop) (by simp) rfl
    rw [w3, w4, w2, w1, h.idle.width]
  obtain ⟨hi, hpos, -⟩ := flush_idle hs hwid
  exact carried_out h.machine h.follow hi (by rw [hpos]; exact hp hlt) hg

namespace ExecuteExample
open Example

theorem plain_example (n m : Nat) : ∀ k ∈ (((([request].map (push machine) ++ [.start]) ++ List.replicate n .calculate) ++
      (.stop :: List.replicate m .calculate)) ++ [.resetPosition] : List (MCall machine)), Plain k := by
  intro k hk
  simp only [List.map_cons, List.map_nil, List.mem_append, List.mem_cons, List.not_mem_nil, or_false, List.mem_replicate] at hk
  rcases hk with (((rfl | rfl) | ⟨-, rfl⟩) | (rfl | ⟨-, rfl⟩)) | rfl <;> simp [Plain, push]

/-- The controller of `resume_violated` — the motion has been stopped in such a way that after `start()` it would never end — is not
lost: the position is declared to be 0, the queue flushed, and the same motion is executed to its end. -/
example : ∃ c₁ log₁, (fresh machine.kit).run (([.configure 1 (fin (1 / 8000))] ++ (([request].map (push machine) ++
      [.start]) ++ List.replicate 12000 .calculate)) ++ (.stop :: List.replicate 4001 .calculate)) = some (c₁, log₁) ∧
    ∃ c₂ log₂, c₁.run ([.resetPosition, .flush] ++ (([request].map (push machine) ++ [.start]) ++
      List.replicate 40000 .calculate)) = some (c₂, log₂) ∧
      c₂.state = .stopped ∧ c₂.buffer.level = 0 ∧ 199 ≤ c₂.machinePosition 0 ∧ c₂.machinePosition 0 ≤ 201 := by
  obtain ⟨c₁, log₁, hrun, hst, -⟩ := resume_violated
  refine ⟨c₁, log₁, hrun, ?_⟩
  -- the whole history returns
  obtain ⟨c₂, log, hall, -⟩ := motion_history_returns (K := machine.kit)
    ((([.configure 1 (fin (1 / 8000))] ++ (([request].map (push machine) ++
      [.start]) ++ List.replicate 12000 .calculate)) ++ (.stop :: List.replicate 4001 .calculate)) ++
      ([.resetPosition, .flush] ++ (([request].map (push machine) ++ [.start]) ++ List.replicate 40000 .calculate)))
  obtain ⟨c₁', l₁, log₂, hr1, hr2, -⟩ := run_split (K := machine.kit) _ _ hall
  obtain rfl : c₁ = c₁' := by
    have := hrun.symm.trans hr1
    simp only [Option.some.injEq, Prod.mk.injEq] at this
    exact this.1
  refine ⟨c₂, log₂, hr2, ?_⟩
  obtain ⟨cf, l₂, l₃, h1, h2, -⟩ := run_split (K := machine.kit) _ _ hr2
  obtain ⟨cs, l₄, l₅, h3, h4, -⟩ := run_split (K := machine.kit) _ _ h2
  have e1 : cf = c₁.resetMachinePosition.flushMotionBuffer := by
    simp only [run, call, Option.map_some, Option.some.injEq, Prod.mk.injEq] at h1
    exact h1.1.symm
  obtain ⟨cr, lr, hr, -⟩ := motion_history_returns (K := machine.kit)
    ((([.configure 1 (fin (1 / 8000))] ++ (([request].map (push machine) ++
      [.start]) ++ List.replicate 12000 .calculate)) ++ (.stop :: List.replicate 4001 .calculate)) ++ [.resetPosition])
  have e2 : cr = c₁.resetMachinePosition := by
    obtain ⟨c₃, l₆, l₇, h5, h6, -⟩ := run_split (K := machine.kit) _ _ hr
    have := hrun.symm.trans h5
    simp only [Option.some.injEq, Prod.mk.injEq] at this
    obtain ⟨rfl, -⟩ := this
    simp only [run, call, Option.map_some, Option.some.injEq, Prod.mk.injEq] at h6
    exact h6.1.symm
  have hk : NeverConfigured (((([request].map (push machine) ++ [.start]) ++ List.replicate 12000 .calculate) ++
      (.stop :: List.replicate 4001 .calculate)) ++ [.resetPosition] : List (MCall machine)) := by
    exact fun k hk => (plain_example _ _ k hk).1
  have hr' : (fresh machine.kit).run (.configure 1 (fin (1 / 8000)) :: (((([request].map (push machine) ++ [.start]) ++
      List.replicate 12000 .calculate) ++ (.stop :: List.replicate 4001 .calculate)) ++ [.resetPosition])) = some (cr, lr) := hr
  have hovr : c₁.overrides = (⟨fin 1, fin 1⟩ : machine.kit.Ovr) := by
    have hrun' : (fresh machine.kit).run (.configure 1 (fin (1 / 8000)) :: ((([request].map (push machine) ++ [.start]) ++
      List.replicate 12000 .calculate) ++ (.stop :: List.replicate 4001 .calculate))) = some (c₁, log₁) := hrun
    rw [run] at hrun'
    simp only [call, Option.map_eq_some_iff, Prod.exists, Prod.mk.injEq] at hrun'
    obtain ⟨c₃, l, h5, rfl, -⟩ := hrun'
    exact (overrides_run _ (fun k hk => plain_example _ _ k (List.mem_append_left _ hk)) h5).trans rfl
  have hfeed : c₁.resetMachinePosition.flushMotionBuffer.overrides.feedOverride = fin 1 := by
    have : cr.state = .stopped := by rw [e2]; exact hst
    have := ((flush_makes_idle hk hr').1 this).2.2
    rw [e2] at this
    rw [this]
    exact congrArg _ hovr
  have hprog : program (M := machine) (fin 1) [request] (List.replicate 40000 .calculate) = [(request, request.vFeed * fin 1)] := by
    show [(request, request.vFeed * fin 1)] ++ requested (M := machine) _ _ = _
    rw [requested_calculate]; rfl
  have hf1 : request.vFeed * fin 1 = fin 2 := by show fin 2 * fin 1 = _; rw [fin_mul, mul_one]
  have hd : (fun axis => ((cr.machinePosition axis : ℝ) / machine.stepsPerMm axis)) 0 = 0 := by
    rw [e2]
    show (((if 0 < machine.n then 0 else c₁.machinePosition 0 : Int) : ℝ)) / _ = 0
    rw [if_pos (by simp [machine])]; simp
  have hg : Given machine (1 / 8000) (fun axis => cr.machinePosition axis / machine.stepsPerMm axis) cr.flushMotionBuffer [request]
      (List.replicate 40000 .calculate) c₂ l₅ := by
    rw [e2] at hd ⊢
    refine ⟨by simp, by simp, by simpa using executable_request, ?_, ⟨cs, l₄, e1 ▸ h3, feeds_calculate _ _, h4⟩, ?_, ?_⟩
    · intro r hr
      rw [List.mem_singleton.1 hr, hfeed, hf1]; norm_num [Num.Pos]
    · rw [hfeed, hprog]
      exact ⟨fun axis ha => by rw [far_axis axis ha]; exact (place_request 0).trans hd.symm, trivial⟩
    · rw [hfeed]
      intro x hx
      rw [hprog, List.mem_singleton] at hx
      rw [hx]
      exact ⟨long (.inl rfl) (by norm_num), brief (.inl rfl) (by norm_num), reachable (.inl rfl)⟩
  obtain ⟨js, j1, j2, -, j4⟩ := flush_then_program machine_ok ⟨by norm_num, by norm_num [machine], fun _ _ => by norm_num [machine],
      fun _ _ => by norm_num [travel, machine]⟩ (by intro i _; norm_num [machine]) hk hr' (by rw [e2]; exact hst) hg
  rw [show cr.flushMotionBuffer.overrides.feedOverride = fin 1 from e2 ▸ hfeed, hprog] at j1 j4
  obtain ⟨j, rfl⟩ : ∃ j, js = [j] := List.length_eq_one_iff.1 (by simpa using congrArg List.length j1)
  simp only [List.map_cons, List.map_nil, List.cons.injEq, Prod.mk.injEq, and_true] at j1
  obtain ⟨-, hT, -⟩ := request_law (j2 j List.mem_cons_self) j1.1 (j1.2.trans hf1)
  have hcount : (List.replicate 40000 (Call.calculate : MCall machine)).countP Call.isCalculate = 40000 := by
    rw [List.countP_replicate]; simp [Call.isCalculate]
  obtain ⟨hi, hn⟩ := j4 (by
    rw [hcount]
    simp [total]; rw [hT]; norm_num)
  refine ⟨hi.state, hi.level, ?_⟩
  have := hn 0 one_pos
  change |place request 0 1 * _ - _| ≤ _ at this
  rw [place_request, abs_le] at this
  norm_num [machine, travel] at this
  have h3 : ((198 : Int) : ℝ) < c₂.machinePosition 0 := by push_cast; linarith [this.2]
  have h4 : (c₂.machinePosition 0 : ℝ) < ((202 : Int) : ℝ) := by push_cast; linarith [this.1]
  have h3 := Int.cast_lt.1 h3
  have h4 := Int.cast_lt.1 h4
  omega

end ExecuteExample

end Moovr.Props
