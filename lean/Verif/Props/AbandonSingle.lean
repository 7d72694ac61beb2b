import Verif.Props.Abandon
import Verif.Props.SingleStop
import Verif.Props.SingleQueue
/-!
# Property C129: a program can be abandoned, in single precision

`flushMotionBuffer()` at standstill and the execution of the next queue, 3-axis machine with `float` arithmetic.
-/
namespace Moovr.Props
open Num Float32 Single MotionCtrl MotionSpec PulseSpec Straight32

/-- **C129 (flushing).** After any history of calls whatever (`initialize()` being called first only): if the controller stands still,
`flushMotionBuffer()` returns it to the idle state, with the position and the overrides kept. -/
theorem flush_makes_idle_single {fpu : Fpu} {t : Nat} {ks : List (Call (cnc3axis32.kit32 fpu).Req (cnc3axis32.kit32 fpu).Time
      (cnc3axis32.kit32 fpu).Ovr)} (hk : NeverConfigured ks) {c : MotionCtrl (cnc3axis32.kit32 fpu)} {log}
    (h : (fresh (cnc3axis32.kit32 fpu)).run (.configure t (num width32) :: ks) = some (c, log)) (hs : c.state = .stopped) :
    Idle32 width32 c.flushMotionBuffer ∧ c.flushMotionBuffer.machinePosition = c.machinePosition ∧
      c.flushMotionBuffer.overrides = c.overrides := by
  have hw : c.time.minStepPulseWidth = num width32 := by
    rw [run] at h
    simp only [call, Option.map_eq_some_iff, Prod.exists, Prod.mk.injEq] at h
    obtain ⟨c₂, l, h1, rfl, -⟩ := h
    exact (AbandonProof.width_run ks hk h1).trans rfl
  have hfl : c.flushMotionBuffer = { c with time := c.time.reinit, buffer := c.buffer.flush } := by
    unfold flushMotionBuffer
    rw [if_pos (by simp [isRunning, hs])]
  rw [hfl]
  exact ⟨⟨hs, rfl, by simp [MotionBuffer.flush], hw, rfl, rfl, rfl⟩, rfl, rfl⟩

/-- **C129 (the next queue).** After any history whatever, when the controller stands still and `flushMotionBuffer()` has been called: lines and
arcs that begin within one step of the position of the motors are executed as C98 says: in order, on their paths, to the end. Nothing is left of
what was in the queue. -/
theorem flush_then_queue_single {fpu : Fpu} {t : Nat} {ks₀ : List (Call (cnc3axis32.kit32 fpu).Req (cnc3axis32.kit32 fpu).Time
      (cnc3axis32.kit32 fpu).Ovr)} (hk : NeverConfigured ks₀) {c c' : MotionCtrl (cnc3axis32.kit32 fpu)} {log₀ log}
    (h₀ : (fresh (cnc3axis32.kit32 fpu)).run (.configure t (num width32) :: ks₀) = some (c, log₀)) (hs : c.state = .stopped)
    {q : ℝ} (hq : c.overrides.feedOverride = fin q) {x : Nat → ℝ} (hm : ∀ i, i < 3 → |200 * x i - c.machinePosition i| ≤ 1)
    {ps : List Piece} (hok : ∀ a ∈ ps, a.Ok q) (hch : Chain x ps)
    {ks : List (Call (cnc3axis32.kit32 fpu).Req (cnc3axis32.kit32 fpu).Time (cnc3axis32.kit32 fpu).Ovr)}
    (ho : Orderly c.flushMotionBuffer ks) (ha : appendedRequests ks = ps.map Piece.r) (h : c.run (.flush :: ks) = some (c', log)) :
    ∃ done todo, ps = done ++ todo ∧ c'.buffer.level = todo.length ∧
      (c'.state = .stopped → ∀ i, i < 3 → |200 * after x done i - c'.machinePosition i| ≤ 1) ∧
      (c'.state ≠ .stopped → ∃ a l, todo = a :: l ∧ ∃ s, 0 ≤ s ∧ s ≤ a.L ∧
        ∀ i, i < 3 → |200 * ExecSpec.place a.r i s - c'.machinePosition i| ≤ 1) ∧
      (c'.state ≠ .stopped → ∀ (n : Nat) c'' log', (todo.map Piece.cost).sum ≤ n →
        c'.run (List.replicate n .calculate) = some (c'', log') →
        Idle32 width32 c'' ∧ ∀ i, i < 3 → |200 * after x ps i - c''.machinePosition i| ≤ 1) := by
  obtain ⟨h1, h2, h3⟩ := flush_makes_idle_single hk h₀ hs
  rw [run] at h
  simp only [call, Option.map_eq_some_iff, Prod.exists, Prod.mk.injEq] at h
  obtain ⟨c₂, l, h4, rfl, -⟩ := h
  exact queue_single h1 (by rw [h3]; exact hq) (by rw [h2]; exact hm) hok hch ho ha h4

/-- **C129 (a stopped motion).** A straight motion is stopped during the cruise (C117) and abandoned: after 36900 ticks the queue is flushed, and
up to 32 lines and arcs that begin within one step of the position of the motors are appended, started and calculated. They are executed to
the end of the last one. -/
theorem line_abandoned_single {fpu : Fpu} {c c₁ c₂ c₃ : MotionCtrl (cnc3axis32.kit32 fpu)} {log₁ log₂ log₃} (hc : Idle32 width32 c)
    {r : SimplifiedMotion} {x d : Nat → ℝ} {L q g V : ℝ} {m n : Nat} (hq : c.overrides.feedOverride = fin q) (hr : LineRequest r x d L)
    (hg : Asked r L q g) (hm : ∀ i, i < 3 → |200 * x i - c.machinePosition i| ≤ 1) (hV : AtMost r d L q V)
    (hrun : c.run (.append r :: .start :: List.replicate m .calculate) = some (c₁, log₁))
    (hstop : c₁.run (.stop :: List.replicate n .calculate) = some (c₂, log₂)) (hn : 36900 ≤ n)
    (early : 37800 ≤ (ticksOf log₁).length) (late : V * ((ticksOf log₁).length / 60000 + 7 / 10) ≤ L)
    {y : Nat → ℝ} (hy : ∀ i, i < 3 → |200 * y i - c₂.machinePosition i| ≤ 1) {ps : List Piece} (hok : ∀ a ∈ ps, a.Ok q) (hch : Chain y ps)
    (hps : ps.length ≤ 32) {k : Nat} (hcost : (ps.map Piece.cost).sum ≤ k)
    (h : c₂.run (.flush :: ((ps.map fun a => .append a.r) ++ .start :: List.replicate k .calculate)) = some (c₃, log₃)) :
    c₂.state = .stopped ∧ c₂.buffer.level = 1 ∧
      Idle32 width32 c₃ ∧ ∀ i, i < 3 → |200 * after y ps i - c₃.machinePosition i| ≤ 1 := by
  obtain ⟨N, s₀, s₁, n1, n2, -, -, -, -, -, n5, -⟩ := stop_cruise_single hc hq hr hg hm hV hrun hstop early late
  obtain ⟨j1, j2, -⟩ := n5 (by omega)
  -- neither the run nor the stop changes the width of a tick or the overrides
  have p1 : ∀ k ∈ (.append r :: .start :: List.replicate m .calculate : List (Call (cnc3axis32.kit32 fpu).Req
      (cnc3axis32.kit32 fpu).Time (cnc3axis32.kit32 fpu).Ovr)), AbandonProof.Plain k := by
    intro k hk
    simp only [List.mem_cons, List.mem_replicate] at hk
    rcases hk with rfl | rfl | ⟨-, rfl⟩ <;> simp [AbandonProof.Plain]
  have p2 : ∀ k ∈ (.stop :: List.replicate n .calculate : List (Call (cnc3axis32.kit32 fpu).Req
      (cnc3axis32.kit32 fpu).Time (cnc3axis32.kit32 fpu).Ovr)), AbandonProof.Plain k := by
    intro k hk
    simp only [List.mem_cons, List.mem_replicate] at hk
    rcases hk with rfl | ⟨-, rfl⟩ <;> simp [AbandonProof.Plain]
  have hovr := (AbandonProof.overrides_run _ p2 hstop).trans (AbandonProof.overrides_run _ p1 hrun)
  have hwid := ((AbandonProof.width_run _ (fun k hk => (p2 k hk).1) hstop).trans
    (AbandonProof.width_run _ (fun k hk => (p1 k hk).1) hrun)).trans hc.width
  rw [run] at h
  simp only [call, Option.map_eq_some_iff, Prod.exists, Prod.mk.injEq] at h
  obtain ⟨c₄, l, h4, rfl, -⟩ := h
  have hfl : c₂.flushMotionBuffer = { c₂ with time := c₂.time.reinit, buffer := c₂.buffer.flush } := by
    unfold flushMotionBuffer
    rw [if_pos (by simp [isRunning, j1])]
  have hi : Idle32 width32 c₂.flushMotionBuffer := by
    rw [hfl]
    exact ⟨j1, rfl, by simp [MotionBuffer.flush], hwid, rfl, rfl, rfl⟩
  refine ⟨j1, j2, queue_batch_single hi ?_ ?_ hok hch hps hcost h4⟩
  · rw [hfl]
    show c₂.overrides.feedOverride = _
    rw [hovr]; exact hq
  · rw [hfl]
    exact hy

/-- Stopped two seconds after the start on the way to (30, 40, 0) mm; then the position is declared to be the origin, the queue is flushed and the
same motion is made again: the motors end within one step of (30, 40, 0) mm from the new origin. -/
example (fpu : Fpu) : ∃ m c₁ log₁ c₂ log₂,
    (fresh (cnc3axis32.kit32 fpu)).run (.configure 375 (num width32) :: ((.append oblique :: .start :: List.replicate m .calculate) ++
      (.stop :: List.replicate 40000 .calculate) ++ [.resetPosition])) = some (c₁, log₁) ∧ c₁.state = .stopped ∧ c₁.buffer.level = 1 ∧
    c₁.run (.flush :: .append oblique :: .start :: List.replicate 500000 .calculate) = some (c₂, log₂) ∧
      c₂.state = .stopped ∧ c₂.buffer.level = 0 ∧ |(6000 : ℝ) - c₂.machinePosition 0| ≤ 1 ∧ |(8000 : ℝ) - c₂.machinePosition 1| ≤ 1 := by
  obtain ⟨m, c, log, h1, h2, h3⟩ := ticks_reach (cnc3axis32.kit32 fpu) (num width32) oblique 120000 (by norm_num)
  obtain ⟨c₂, l, hrun, -⟩ := motion_history_returns (K := cnc3axis32.kit32 fpu)
    (([.configure 375 (num width32)] ++ ((.append oblique :: .start :: List.replicate m .calculate) ++
      (.stop :: List.replicate 40000 .calculate) ++ [.resetPosition])) ++
      (.flush :: .append oblique :: .start :: List.replicate 500000 .calculate))
  obtain ⟨c₁, log₁, log₂, g1, g2, -⟩ := run_split _ _ hrun
  refine ⟨m, c₁, log₁, c₂, log₂, g1, ?_⟩
  have hk : NeverConfigured ((.append oblique :: .start :: List.replicate m .calculate) ++
      (.stop :: List.replicate 40000 .calculate) ++ [.resetPosition] : List (Call (cnc3axis32.kit32 fpu).Req
      (cnc3axis32.kit32 fpu).Time (cnc3axis32.kit32 fpu).Ovr)) := by
    generalize 40000 = n
    intro k hk
    simp only [List.mem_append, List.mem_cons, List.mem_replicate, List.not_mem_nil, or_false] at hk
    rcases hk with ((rfl | rfl | ⟨-, rfl⟩) | rfl | ⟨-, rfl⟩) | rfl <;> simp
  have hp : ∀ k ∈ ((.append oblique :: .start :: List.replicate m .calculate) ++
      (.stop :: List.replicate 40000 .calculate) ++ [.resetPosition] : List (Call (cnc3axis32.kit32 fpu).Req
      (cnc3axis32.kit32 fpu).Time (cnc3axis32.kit32 fpu).Ovr)), AbandonProof.Plain k := by
    generalize 40000 = n
    intro k hk
    simp only [List.mem_append, List.mem_cons, List.mem_replicate, List.not_mem_nil, or_false] at hk
    rcases hk with ((rfl | rfl | ⟨-, rfl⟩) | rfl | ⟨-, rfl⟩) | rfl <;> simp [AbandonProof.Plain]
  obtain ⟨ci, l₁, l₂, e1, e2, -⟩ := run_split _ _ g1
  simp only [run, call, Option.map_some, Option.some.injEq, Prod.mk.injEq] at e1
  obtain ⟨rfl, -⟩ := e1
  have hovr := AbandonProof.overrides_run _ hp e2
  obtain ⟨cs, l₃, l₄, e3, e4, -⟩ := run_split _ _ e2
  obtain ⟨cr, l₅, l₆, e5, e6, -⟩ := run_split _ _ e3
  obtain ⟨rfl, rfl⟩ : c = cr ∧ log = l₅ := by
    have := h1.symm.trans e5
    simpa using this
  obtain ⟨i1, i2, i3⟩ := idle_configured_single fpu 375
  have late : (10 : ℝ) * (((ticksOf log).length : ℝ) / 60000 + 7 / 10) ≤ 50 := by
    have : ((ticksOf log).length : ℝ) < 120375 := by exact_mod_cast h3
    linarith
  obtain ⟨N, s₀, s₁, n1, n2, -, -, -, -, -, n5, -⟩ := stop_cruise_single (g := 10) (V := 10) i1 i3 oblique_line
    (.inr ⟨10, rfl, by norm_num, by norm_num, by norm_num, by norm_num⟩) (fun i _ => by rw [i2]; norm_num)
    (.inl ⟨10, rfl, by norm_num⟩) h1 e6 (by omega) late
  obtain ⟨j1, j2, -⟩ := n5 (by omega)
  have er : c₁ = cs.resetMachinePosition := by
    simp only [run, call, Option.map_some, Option.some.injEq, Prod.mk.injEq] at e4
    exact e4.1.symm
  have hs : c₁.state = .stopped := by rw [er]; exact j1
  refine ⟨hs, by rw [er]; exact j2, g2, ?_⟩
  obtain ⟨k1, k2, k3⟩ := flush_makes_idle_single hk g1 hs
  rw [run] at g2
  simp only [call, Option.map_eq_some_iff, Prod.exists, Prod.mk.injEq] at g2
  obtain ⟨c₄, l₇, g3, rfl, -⟩ := g2
  obtain ⟨N', o1, o2, -, o3, -⟩ := straight_motion_single (q := 1) (g := 10) k1 (by rw [k3, hovr]; exact i3) oblique_line
    (.inr ⟨10, rfl, by norm_num, by norm_num, by norm_num, by norm_num⟩) (fun i hi => by
      have : c₁.machinePosition i = 0 := by
        rw [er]
        show (if i < 3 then (0 : Int) else _) = 0
        rw [if_pos hi]
      rw [k2, this]; norm_num) g3
  have hN : N' ≤ 457500 := by
    have : (N' : ℝ) ≤ 457500 := o1.trans (by norm_num)
    exact_mod_cast this
  obtain ⟨q1, q2⟩ := o3 (by omega)
  refine ⟨q1.state, q1.level, ?_, ?_⟩
  · have := q2 0 (by norm_num)
    norm_num at this ⊢; exact this
  · have := q2 1 (by norm_num)
    norm_num at this ⊢; exact this

end Moovr.Props
