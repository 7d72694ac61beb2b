import Verif.Props.SingleRun
import Verif.Props.StepTiming
/-!
# Property C108: the pulses of straight motions in single precision

With `float` arithmetic too no axis is ever commanded on two consecutive ticks, so each commanded step is one pulse on the wire: the
pulses counted on the wire bring the motors within one step of the programmed line.
-/
namespace Moovr.Props
open Num Float32 Single MotionCtrl MotionSpec PulseSpec Straight32

/-- The pulses put on the wire of an axis: rising edges of the step line, each counted in the direction shown, in the waveform of a
history followed by the levels `next`. -/
def pulsesOf {K : MotionKit} (log : Log K.Req (Option K.Req) K.Time K.Ovr) (next : BitVec 32) (axis : Nat) : Int :=
  pulseCount false ((expand 0 ((entriesOf log).map fun e => (e.timeBefore, e.signals)) ++ [next]).map
    fun v => (v.getLsbD (2 * axis), v.getLsbD (2 * axis + 1)))

private theorem run_log {K : MotionKit} (ks : List (Call K.Req K.Time K.Ovr)) :
    ∀ {c c' : MotionCtrl K} {log}, c.run ks = some (c', log) → log.map Prod.fst = ks := by
  induction ks with
  | nil =>
    intro c c' log h
    simp only [run, Option.some.injEq, Prod.mk.injEq] at h
    rw [← h.2]; rfl
  | cons k ks ih =>
    intro c c' log h
    rw [run] at h
    split at h
    · simp at h
    · rename_i c₀ x hx
      simp only [Option.map_eq_some_iff, Prod.exists, Prod.mk.injEq] at h
      obtain ⟨c₂, l, h3, rfl, rfl⟩ := h
      rw [List.map_cons, ih h3]

private theorem run_follow {K : MotionKit} (ks₁ ks₂ : List (Call K.Req K.Time K.Ovr)) :
    ∀ {c c₁ c' : MotionCtrl K} {log₁ log₂}, c.run ks₁ = some (c₁, log₁) → c₁.run ks₂ = some (c', log₂) →
      c.run (ks₁ ++ ks₂) = some (c', log₁ ++ log₂) := by
  induction ks₁ with
  | nil =>
    intro c c₁ c' log₁ log₂ h1 h2
    simp only [run, Option.some.injEq, Prod.mk.injEq] at h1
    obtain ⟨rfl, rfl⟩ := h1
    exact h2
  | cons k ks ih =>
    intro c c₁ c' log₁ log₂ h1 h2
    rw [run] at h1
    split at h1
    · simp at h1
    · rename_i c₀ x hx
      simp only [Option.map_eq_some_iff, Prod.exists, Prod.mk.injEq] at h1
      obtain ⟨c₂, l, h3, rfl, rfl⟩ := h1
      rw [List.cons_append, run, hx]
      simp [ih h3 h2]

private theorem last_append {l₁ l₂ : List Cmd} (h1 : ∀ o ∈ l₁.getLast?, o = none) (h2 : ∀ o ∈ l₂.getLast?, o = none) :
    ∀ o ∈ (l₁ ++ l₂).getLast?, o = none := by
  intro o ho
  rw [List.getLast?_append] at ho
  cases h : l₂.getLast? with
  | none => rw [h] at ho; exact h1 o (by simpa using ho)
  | some z => rw [h] at ho; exact h2 o (by rw [h]; simpa using ho)

/-- **C108** However many straight motions are executed one after another from an idle controller, no axis is ever commanded on two
consecutive ticks, and each motion ends with a tick without a step. -/
theorem straight_motions_spaced {fpu : Fpu} {q : ℝ} (ls : List Leg) : ∀ {x : Nat → ℝ} {c c' : MotionCtrl (cnc3axis32.kit32 fpu)}
    {log}, Idle32 width32 c → c.overrides.feedOverride = fin q → (∀ i, i < 3 → |200 * x i - c.machinePosition i| ≤ 1) →
    Legs q x ls → c.run (legCalls ls) = some (c', log) →
    c'.overrides.feedOverride = fin q ∧ ∀ i, i < 3 → Spaced ((ticksOf log).map fun t => t.cmd i) ∧
      ∀ o ∈ ((ticksOf log).map fun t => t.cmd i).getLast?, o = none := by
  induction ls with
  | nil =>
    intro x c c' log hc hq hm _ h
    simp only [legCalls, List.flatMap_nil, run, Option.some.injEq, Prod.mk.injEq] at h
    obtain ⟨rfl, rfl⟩ := h
    exact ⟨hq, fun i hi => ⟨trivial, by simp [ticksOf]⟩⟩
  | cons l ls ih =>
    intro x c c' log hc hq hm hl h
    obtain ⟨h1, h2, h3, h4⟩ := hl
    rw [show legCalls (l :: ls) = (.append l.r :: .start :: List.replicate l.m .calculate) ++ legCalls ls from rfl] at h
    obtain ⟨c₁, log₁, log₂, r1, r2, rfl⟩ := run_split _ _ h
    obtain ⟨N, n1, n2, n3, n4, -, n6⟩ := straight_motion_full hc hq h1 h2 hm r1
    have hN : N ≤ l.m := by exact_mod_cast n1.trans h3
    obtain ⟨i1, i2⟩ := n4 (hN.trans n2)
    obtain ⟨a, b⟩ := ih i1 (by rw [n3]; exact hq) i2 h4 r2
    refine ⟨a, fun i hi => ?_⟩
    obtain ⟨-, -, -, s1, s2⟩ := n6 i hi
    rw [ticks_append, List.map_append]
    exact ⟨spaced_append s1 (b i hi).1 (s2 (hN.trans n2)), last_append (s2 (hN.trans n2)) (b i hi).2⟩

private theorem leg_calls_reset {T O : Type} {ls : List Leg} {k : Call SimplifiedMotion T O} (h : k ∈ legCalls ls) :
    k.isReset = false := by
  simp only [legCalls, List.mem_flatMap] at h
  obtain ⟨l, -, h⟩ := h
  simp only [List.mem_cons, List.mem_replicate] at h
  rcases h with rfl | rfl | ⟨-, rfl⟩ <;> rfl

/-- **C108** After a history without position reset that left the controller idle at `x`, whose steps were separate pulses and which
ended with a quiet tick (`pre`), straight motions `ls` are executed one after another to their ends, and then another one (`r`),
calculated any number of times: then all pulses that were put on the wire, including the one still to come in the following tick, are
within one step of a point of the line of the last motion; of its end, when it was calculated to the end. -/
theorem straight_motions_pulses_single {fpu : Fpu} {q : ℝ} {pre : List (Call SimplifiedMotion Single Overrides)} {logp logs}
    {c c' : MotionCtrl (cnc3axis32.kit32 fpu)} {x y d : Nat → ℝ} {ls : List Leg} {r : SimplifiedMotion} {L g : ℝ} {m : Nat}
    (hpre : (fresh (cnc3axis32.kit32 fpu)).run pre = some (c, logp)) (hreset : ∀ k ∈ pre, k.isReset = false)
    (hquiet : ∀ i, i < 3 → Spaced ((ticksOf logp).map fun t => t.cmd i) ∧ ∀ o ∈ ((ticksOf logp).map fun t => t.cmd i).getLast?, o = none)
    (hc : Idle32 width32 c) (hq : c.overrides.feedOverride = fin q) (hm : ∀ i, i < 3 → |200 * x i - c.machinePosition i| ≤ 1)
    (hls : Legs q x ls) (hy : ∀ i, y i = x i + (ls.map fun l => l.d i).sum) (hr : LineRequest r y d L) (hg : Asked r L q g)
    (hrun : c.run (legCalls ls ++ (.append r :: .start :: List.replicate m .calculate)) = some (c', logs)) :
    ∃ log, (fresh (cnc3axis32.kit32 fpu)).run (pre ++ (legCalls ls ++ (.append r :: .start :: List.replicate m .calculate))) =
        some (c', log) ∧
      (∀ i, i < 3 → Spaced ((ticksOf log).map fun t => t.cmd i)) ∧
      ∃ s, 0 ≤ s ∧ s ≤ L ∧ (61500 * (L / g) + 150000 ≤ m → s = L) ∧
        ∀ i, i < 3 → ∃ next, pulsesOf (K := cnc3axis32.kit32 fpu) log next i = c'.machinePosition i ∧
          |200 * (y i + d i * (s / L)) - pulsesOf (K := cnc3axis32.kit32 fpu) log next i| ≤ 1 := by
  have hall := run_follow _ _ hpre hrun
  obtain ⟨c₁, log₁, log₂, r1, r2, rfl⟩ := run_split _ _ hrun
  obtain ⟨i1, i2⟩ := straight_motions_single ls hc hq hm hls r1
  obtain ⟨o1, o2⟩ := straight_motions_spaced ls hc hq hm hls r1
  have hL := hr.toStraight32.L_pos
  obtain ⟨N, n1, n2, n3, n4, n5, n6⟩ := straight_motion_full i1 o1 hr hg (fun i hi => by rw [hy]; exact i2 i hi) r2
  have hsp : ∀ i, i < 3 → Spaced ((ticksOf (logp ++ (log₁ ++ log₂))).map fun t => t.cmd i) := by
    intro i hi
    rw [ticks_append, ticks_append, List.map_append, List.map_append]
    exact spaced_append (hquiet i hi).1 (spaced_append (o2 i hi).1 (n6 i hi).2.2.2.1 (o2 i hi).2) (hquiet i hi).2
  have hres : ∀ z ∈ logp ++ (log₁ ++ log₂), z.1.isReset = false := by
    intro z hz
    have hk := run_log _ hall
    have hz' := List.mem_map_of_mem (f := Prod.fst) hz
    rw [hk] at hz'
    have hm : z.1 ∈ pre ++ (legCalls ls ++ (.append r :: .start :: List.replicate m .calculate)) := hz'
    rcases List.mem_append.1 hm with h | h
    · exact hreset _ h
    · rcases List.mem_append.1 h with h | h
      · exact leg_calls_reset h
      · rcases List.mem_cons.1 h with h | h
        · rw [h]; rfl
        · rcases List.mem_cons.1 h with h | h
          · rw [h]; rfl
          · rw [(List.mem_replicate.1 h).2]; rfl
  refine ⟨_, hall, hsp, ?_⟩
  have pulses := fun i (hi : i < 3) => motion_position_pulses_partial _ c' _ hall (by show 3 ≤ 15; omega) i hi hres (hsp i hi)
  rcases Nat.lt_or_ge (ticksOf log₂).length N with h | h
  · obtain ⟨-, s, s0, s1, hs⟩ := n5 h
    refine ⟨s, s0, s1, fun hN => ?_, fun i hi => ?_⟩
    · have : N ≤ m := by exact_mod_cast n1.trans hN
      omega
    · obtain ⟨next, hp⟩ := pulses i hi
      exact ⟨next, hp, by rw [show pulsesOf _ next i = _ from hp]; exact hs i hi⟩
  · obtain ⟨-, hs⟩ := n4 h
    refine ⟨L, hL.le, le_rfl, fun _ => rfl, fun i hi => ?_⟩
    obtain ⟨next, hp⟩ := pulses i hi
    refine ⟨next, hp, ?_⟩
    rw [show pulsesOf _ next i = _ from hp, div_self hL.ne', mul_one]
    exact hs i hi

/-- To (30, 40, 0) mm and back: the pulses on the wire of each motor add up to between -1 and 1, whatever the rounding. -/
example (fpu : Fpu) (m : Nat) (hm : 457500 ≤ m) :
    ∃ c' log, (fresh (cnc3axis32.kit32 fpu)).run ([.configure 375 (num width32)] ++
        (legCalls [Leg.mk oblique (fun i => if i = 0 then 30 else if i = 1 then 40 else 0) 50 10 m] ++
          (.append homeward :: .start :: List.replicate m .calculate))) = some (c', log) ∧
      ∀ i, i < 3 → ∃ next, |pulsesOf (K := cnc3axis32.kit32 fpu) log next i| ≤ 1 := by
  obtain ⟨c', log, hrun, -⟩ := motion_history_returns (K := cnc3axis32.kit32 fpu) ([.configure 375 (num width32)] ++
    (legCalls [Leg.mk oblique (fun i => if i = 0 then 30 else if i = 1 then 40 else 0) 50 10 m] ++
      (.append homeward :: .start :: List.replicate m .calculate)))
  refine ⟨c', log, hrun, ?_⟩
  obtain ⟨c₁, log₁, log₂, h1, h2, -⟩ := run_split (K := cnc3axis32.kit32 fpu) [.configure 375 (num width32)] _ hrun
  have h1' := h1
  simp only [run, call, Option.map_some, Option.some.injEq, Prod.mk.injEq] at h1'
  obtain ⟨rfl, rfl⟩ := h1'
  obtain ⟨i1, i2, i3⟩ := idle_configured_single fpu 375
  have hm' : (457500 : ℝ) ≤ m := by exact_mod_cast hm
  obtain ⟨log', e1, -, s, -, -, e2, e3⟩ := straight_motions_pulses_single (x := fun _ => 0) (g := 10)
    (ls := [Leg.mk oblique (fun i => if i = 0 then 30 else if i = 1 then 40 else 0) 50 10 m])
    (y := fun i => if i = 0 then 30 else if i = 1 then 40 else 0)
    h1 (fun k hk => by rw [List.mem_singleton.1 hk]; rfl) (fun i _ => ⟨trivial, by simp [ticksOf]⟩) i1 i3
    (fun i _ => by rw [i2]; norm_num) ⟨oblique_line, .inr ⟨10, rfl, by norm_num, by norm_num, by norm_num, by norm_num⟩, by norm_num; linarith,
      trivial⟩ (fun i => by simp) homeward_line (.inr ⟨10, rfl, by norm_num, by norm_num, by norm_num, by norm_num⟩) h2
  have e1' : log' = log := by
    have := e1.symm.trans hrun
    simpa using this
  rw [e2 (by norm_num; linarith)] at e3
  intro i hi
  obtain ⟨next, -, e⟩ := e3 i hi
  refine ⟨next, ?_⟩
  rw [e1'] at e
  have h3 : |(pulsesOf (K := cnc3axis32.kit32 fpu) log next i : ℝ)| ≤ 1 := by
    rw [abs_le] at e ⊢
    split_ifs at e <;> norm_num at e ⊢ <;> constructor <;> linarith
  exact_mod_cast h3

end Moovr.Props
