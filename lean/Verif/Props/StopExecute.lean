import Verif.Lemmas.Doomed
import Verif.Props.StepTiming
/-!
# Stopping a program and resuming it (C89, C90)

While a program is executed (as in C74), `stop()` is called; later, when the machine has come to rest, `start()`. What `stop()` does
to the motion in progress is a `Brake`, and the motion as a whole, made in two parts, is again a `Job` (`Verif/Spec/Execute.lean`).

The acceleration of the motion in progress must be over (`Job.Settled`) when `stop()` is called: otherwise the planner continues
from a wrong speed (C37).
-/
namespace Moovr.Props
open Num ExecSpec MotionCtrl MotionSpec

/-- The calls after `stop()`: calculations, changes of the overrides, and motions appended while the queue has room. -/
def Waiting (M : Machine) (c : MotionCtrl M.kit) : List (MCall M) → Prop
  | [] => True
  | k :: ks =>
    (k = .calculate ∨ (∃ o, k = .override o) ∨
      ∃ r, k = push M r ∧ c.buffer.level < 32 ∧ Executable M.n r ∧ (r.vFeed * c.overrides.feedOverride).Pos) ∧
    ∀ c' x, c.call k = some (c', x) → Waiting M c' ks

/-- The motions appended by the calls. -/
def appended {M : Machine} (ks : List (MCall M)) : List SimplifiedMotion := ks.filterMap requestOf

/-- All events of the ticks. -/
def tickEvents {A B C D : Type} (log : Log A B C D) : List Event := (ticksOf log).flatMap fun x => x.events

/-- The time `x` after the call of `stop()` at time `u` of the motion `j`; the motions `rs` are to be made after it. Until time `k.E`
each axis is where the stop wants it to be; then the controller is in state `stopped`, and (unless the stop ends at the very end of
the path) each axis stays where the motion has come to rest. All motions are still in the queue. -/
structure Halts (M : Machine) (δ : ℝ) (j : Job) (rs : List SimplifiedMotion) (k : Brake) (u x : ℝ) (c : MotionCtrl M.kit) :
    Prop where
  braking : u + x ≤ k.E → c.state = .stopping ∧ c.time.timeInMotion = fin (u + x) ∧ ∀ axis, axis < M.n →
    |place j.r axis (k.S (u + x)) * M.stepsPerMm axis - c.machinePosition axis| ≤ 1 / 2 + M.hysteresis + travel M δ axis
  stopped : k.E < u + x → c.state = .stopped ∧ (∃ t, c.time.timeInMotion = fin t ∧ k.E < t ∧ t ≤ k.E + δ) ∧
    (k.S k.E < j.L → ∀ axis, axis < M.n →
      |place j.r axis (k.S k.E) * M.stepsPerMm axis - c.machinePosition axis| ≤ 1 / 2 + M.hysteresis + travel M δ axis)
  level : c.buffer.level = rs.length + 1
  front : c.buffer.getHead.request = some j.r
  behind : ∀ i (hi : i < rs.length), (c.buffer.cells ((c.buffer.head + (i + 1)) % 32)).request = some rs[i]

/-- `start()` is called in the state `c`, after a stop. The motion `j` in progress is continued from where it has come to rest, and
then the motions `rs` behind it and those appended later are made. (The hypotheses on the motions are those of C74, with the
present override, and with a fourth of the time that the tick counter allows.) -/
def Continues (M : Machine) (δ : ℝ) (j : Job) (rs : List SimplifiedMotion) (k : Brake) (u : ℝ) (c : MotionCtrl M.kit) : Prop :=
  ∃ t j' js, c.time.timeInMotion = fin t ∧ Resumes M j k u t (j.r.vFeed * c.overrides.feedOverride) j' ∧
    js.map (fun j => (j.r, j.f)) = rs.map (fun r => (r, r.vFeed * c.overrides.feedOverride)) ∧ (∀ j ∈ js, j.Ok M) ∧
    ∀ {ks : List (MCall M)} {c' log}, c.run (.start :: ks) = some (c', log) → Feeds M c.start ks →
      Connected M.n (fun axis => place j.r axis 0) (j.r :: rs ++ appended ks) →
      (∀ x ∈ program c.overrides.feedOverride (j.r :: rs) ks, Long M δ x.1 ∧ Brief M (δ / 4) x.1 x.2 ∧ Reachable M x.1) →
      ∃ js', js'.map (fun j => (j.r, j.f)) = requested c.overrides.feedOverride ks ∧ (∀ j ∈ js', j.Ok M) ∧
        Executes M δ (fun axis => place j.r axis 0) (j' :: js ++ js') (t + (ticksOf log).length * δ) c' ∧
        (total (j' :: js ++ js') < t + ks.countP Call.isCalculate * δ → Idle M δ c' ∧ ∀ axis, axis < M.n →
          |endOf (fun axis => place j.r axis 0) (j.r :: rs ++ appended ks) axis * M.stepsPerMm axis - c'.machinePosition axis| ≤
            1 / 2 + M.hysteresis + travel M δ axis)

/-! ## Proof -/

section
variable {M : Machine} {δ : ℝ} {E : Nat → ℝ} {j : Job} {u : ℝ} {i : PlanIn} {l rr : AccDec ℝ} {m : ℝ}

private theorem halting_run (hM : M.Ok) (hs : Suited M δ E)
    (hrange : ∀ axis, axis < M.n → ∀ s, 0 ≤ s → s ≤ j.L → M.InRange (place j.r axis s * M.stepsPerMm axis))
    (hshort : u + l.duration + δ < 2 ^ 32 * δ) (ks : List (MCall M)) :
    ∀ {rs : List SimplifiedMotion} {x : ℝ} {c c' : MotionCtrl M.kit} {log}, Halting M δ E j rs u i l rr m x c → Waiting M c ks →
      c.run ks = some (c', log) →
      Halting M δ E j (rs ++ appended ks) u i l rr m (x + (ticksOf log).length * δ) c' ∧ (∀ r ∈ appended ks, Executable M.n r) ∧
      tickEvents log = if u + x ≤ u + l.duration ∧ u + l.duration < u + x + (ticksOf log).length * δ then [.motionStopped] else [] := by
  have hδ := hs.width
  induction ks with
  | nil =>
    intro rs x c c' log h _ hrun
    simp only [run, Option.some.injEq, Prod.mk.injEq] at hrun
    obtain ⟨rfl, rfl⟩ := hrun
    refine ⟨by simpa [ticksOf, appended] using h, by simp [appended], ?_⟩
    rw [if_neg (by simp [ticksOf])]; rfl
  | cons k ks ih =>
    intro rs x c c' log h hw hrun
    rw [run] at hrun
    split at hrun
    · simp at hrun
    · rename_i c₁ y hx
      simp only [Option.map_eq_some_iff, Prod.exists, Prod.mk.injEq] at hrun
      obtain ⟨c₂, g, h1, rfl, rfl⟩ := hrun
      have hw' := hw.2 c₁ y hx
      rcases hw.1 with rfl | ⟨o, rfl⟩ | ⟨r, rfl, hl, hr, ho⟩
      · simp only [call, calcNext, Option.map_eq_some_iff, Prod.exists, Prod.mk.injEq] at hx
        obtain ⟨c₀, e, ts, h2, rfl, rfl⟩ := hx
        obtain ⟨b1, b2⟩ := h.calcLoop hM hs hrange hshort _ h2
        obtain ⟨a1, a2, a3⟩ := ih b1 hw' h1
        have hlen : ∀ o e', ((ticksOf (((Call.calculate : MCall M), (⟨o, e', ts⟩ : Ret (Option M.kit.Req))) :: g)).length : ℝ) * δ =
            ts.length * δ + (ticksOf g).length * δ := by
          intro o e'
          have : (ticksOf (((Call.calculate : MCall M), (⟨o, e', ts⟩ : Ret (Option M.kit.Req))) :: g)).length =
            ts.length + (ticksOf g).length := by simp [ticksOf]
          rw [this]; push_cast; ring
        refine ⟨?_, a2, ?_⟩
        · rw [hlen, ← add_assoc]; exact a1
        · have ev : ∀ o e', tickEvents (((Call.calculate : MCall M), (⟨o, e', ts⟩ : Ret (Option M.kit.Req))) :: g) =
              ts.flatMap (fun x => x.events) ++ tickEvents g := by
            intro o e'; simp [tickEvents, ticksOf]
          rw [ev, b2, a3, hlen, ← add_assoc u x (ts.length * δ), add_assoc (u + x) (ts.length * δ)]
          exact once_append (by positivity) (by positivity) _
      · simp only [call, Option.some.injEq, Prod.mk.injEq] at hx
        obtain ⟨rfl, rfl⟩ := hx
        obtain ⟨a1, a2, a3⟩ := ih (h.overrides o) hw' h1
        have ea : appended (Call.override o :: ks : List (MCall M)) = appended ks := rfl
        exact ⟨by rw [ea]; simpa [ticksOf] using a1, a2, by simpa [ticksOf, tickEvents] using a3⟩
      · simp only [push, call, Option.some.injEq, Prod.mk.injEq] at hx
        obtain ⟨rfl, rfl⟩ := hx
        obtain ⟨a1, a2, a3⟩ := ih (h.append hM hr ho hl) hw' h1
        have ea : appended (push M r :: ks) = r :: appended ks := rfl
        refine ⟨?_, ?_, by simpa [ticksOf, tickEvents] using a3⟩
        · rw [ea, List.append_cons]; simpa [ticksOf] using a1
        · rw [ea]
          intro r' hr'
          rcases List.mem_cons.1 hr' with rfl | hr'
          · exact hr
          · exact a2 r' hr'

private theorem halts_of_halting {rs : List SimplifiedMotion} {x : ℝ} {c : MotionCtrl M.kit} (hs : Suited M δ E)
    (h : Halting M δ E j rs u i l rr m x c) : Halts M δ j rs (brakeOf i l) u x c ∧
      ((brakeOf i l).S (brakeOf i l).E < j.L → 0 < m) := by
  obtain ⟨t, hb, h1, h2⟩ := h
  have hE : (brakeOf i l).E = u + l.duration := by show i.doneT + _ = _; rw [hb.front.doneT]
  have hSE : (brakeOf i l).S (brakeOf i l).E = i.doneL + l.length := stopS_after hb.front.plan le_rfl
  have hmpos : (brakeOf i l).S (brakeOf i l).E < j.L → 0 < m := by
    intro hlt
    have := stops_end hb.front.plan hb.front.base.vE
    have := hb.front.length
    linarith
  have hnear : (t ≤ u + l.duration ∨ 0 < m) → ∀ axis, axis < M.n →
      |place j.r axis (stopS i l t) * M.stepsPerMm axis - c.machinePosition axis| ≤ 1 / 2 + M.hysteresis + travel M δ axis := by
    intro hm axis ha
    exact (hb.near hm axis ha).1.trans (by have := hs.le axis ha; unfold Machine.perTick at this; unfold travel; linarith)
  refine ⟨⟨fun hle => ?_, fun hlt => ?_, hb.tail.level, hb.front.holds.request, fun i hi => ?_⟩, hmpos⟩
  · rw [hE] at hle
    have e : t = u + x := le_antisymm h1 (not_lt.1 fun h => by linarith [h2 h])
    subst e
    refine ⟨?_, hb.clock.now, hnear (.inl hle)⟩
    rcases hb.phase with ⟨-, h⟩ | ⟨h, -⟩
    · exact h
    · linarith
  · rw [hE] at hlt
    have ht : u + l.duration < t := by
      rcases h1.lt_or_eq with h | h
      · exact h2 h
      · rw [h]; exact hlt
    rcases hb.phase with ⟨h, -⟩ | ⟨-, h3, h4⟩
    · linarith
    · refine ⟨h4, ⟨t, hb.clock.now, by rw [hE]; exact ht, by rw [hE]; exact h3⟩, fun hl axis ha => ?_⟩
      rw [hSE]
      have := hnear (.inr (hmpos hl)) axis ha
      rwa [stopS_after hb.front.plan (by rw [hb.front.doneT]; exact ht.le)] at this
  · obtain ⟨-, -, hw, -⟩ := hb.tail.waits i hi
    exact hw.request

private theorem continues {rs : List SimplifiedMotion} {x : ℝ} {c : MotionCtrl M.kit} (hM : M.Ok) (hs : Suited M δ (travel M δ))
    (h : Halting M δ (travel M δ) j rs u i l rr m x c) (hm : 0 < m) (hst : c.state = .stopped)
    (hr : ∀ r ∈ rs, Executable M.n r) (ho : ∀ r ∈ j.r :: rs, (r.vFeed * c.overrides.feedOverride).Pos)
    (hT : 2 * j.T < 2 ^ 31 * δ) (hsoon : l.duration ≤ 2 * (j.T - u)) :
    Continues M δ j rs (brakeOf i l) u c := by
  obtain ⟨t, hb, -, -⟩ := h
  obtain ⟨j', js, g1, g2, g3, g4, g5, -⟩ := resume hM hb hst hm hr ho
  refine ⟨t, j', js, hb.clock.now, g1, g2, g3, fun {ks c' log} hrun hf hcon hall => ?_⟩
  have hδ := hs.width
  rw [run] at hrun
  simp only [call, Option.map_eq_some_iff, Prod.exists, Prod.mk.injEq] at hrun
  obtain ⟨c₂, g, hrun, rfl, rfl⟩ := hrun
  have hgr := g1.request
  have ht : t ≤ j'.T := g1.later.le
  have ht0 : 0 ≤ t := hb.front.range.1.trans hb.since
  have hstart : Exec M δ (travel M δ) (fun axis => place j.r axis 0) (j' :: js) t c.start := by
    unfold Exec
    rw [rest, if_pos ht]
    exact g4
  obtain ⟨js', a1, a2, a3, a4, -⟩ := exec_run hM hs ks (fun _ => hstart) hf hrun
  rw [g5] at a1
  have hcount : ∀ ov, (requested (M := M) ov ks).map Prod.fst = appended ks := by
    clear hrun hf hcon hall a1
    induction ks with
    | nil => intro; rfl
    | cons k ks ih =>
      intro ov
      unfold requested appended
      cases hk : requestOf k with
      | none => simp only [List.filterMap_cons, hk]; exact ih _
      | some r => simp only [List.filterMap_cons, hk, List.map_cons]; rw [ih]; rfl
  have hmapr : js.map Job.r = rs := by
    have := congrArg (List.map Prod.fst) g2
    rw [List.map_map, List.map_map] at this
    simpa [Function.comp_def] using this
  have hmapr' : js'.map Job.r = appended ks := by
    rw [← hcount c.overrides.feedOverride, ← a1, List.map_map]; rfl
  have hlist : (j' :: js ++ js').map Job.r = j.r :: rs ++ appended ks := by
    simp [hmapr, hmapr', hgr]
  have hfit : ∀ a ∈ j' :: js ++ js', Fits M δ a ∧ δ ≤ a.T := by
    intro a ha
    have hprog : ∀ y ∈ js ++ js', (y.r, y.f) ∈ program c.overrides.feedOverride (j.r :: rs) ks := by
      intro y hy
      unfold program
      rcases List.mem_append.1 hy with hy | hy
      · refine List.mem_append_left _ (List.mem_cons_of_mem _ ?_)
        rw [← g2]; exact List.mem_map_of_mem (f := fun j : Job => (j.r, j.f)) hy
      · refine List.mem_append_right _ ?_
        rw [← a1]; exact List.mem_map_of_mem (f := fun j : Job => (j.r, j.f)) hy
    have hok : ∀ y ∈ js ++ js', y.Ok M := fun y hy => (List.mem_append.1 hy).elim (g3 y) (a2 y)
    rw [List.cons_append] at ha
    rcases List.mem_cons.1 ha with rfl | ha
    · obtain ⟨b1, ⟨v, acc, c1, c2, c3, c4⟩, b3⟩ := hall (j.r, j.r.vFeed * c.overrides.feedOverride)
        (List.mem_append_left _ List.mem_cons_self)
      have hk := hb.front.brake hM
      have hSE : (brakeOf i l).S (brakeOf i l).E = i.doneL + l.length := stopS_after hb.front.plan le_rfl
      have hs0 : 0 ≤ (brakeOf i l).S (brakeOf i l).E := by
        rw [hSE, hb.front.doneL]
        have h7 := hb.front.sound.forward 0 u le_rfl hb.front.range.1 hb.front.range.2
        rw [hb.front.sound.start] at h7
        have := (stop_facts hb.front.base hb.front.plan).2.2.2.1
        linarith
      have hsl : (brakeOf i l).S (brakeOf i l).E < j.L := by
        rw [hSE]
        have := stops_end hb.front.plan hb.front.base.vE
        have := hb.front.length
        linarith
      have hsn := g1.soon hs0 hsl c1 c2 c3
      have ht1 : t ≤ u + l.duration + δ := by
        rcases hb.phase with ⟨h, -⟩ | ⟨-, h, -⟩ <;> linarith
      change 2 * j.L / v + δ / 4 < 2 ^ 32 * (δ / 4) at c4
      refine ⟨⟨?_, ?_⟩, Job.long_of g1.sound (by rw [hgr]; exact b1)⟩
      · have := hb.front.range
        have e : (2 : ℝ) ^ 32 * (δ / 4) = 2 ^ 30 * δ := by ring
        have e' : (2 : ℝ) ^ 32 * δ = 2 ^ 31 * δ + 2 * (2 ^ 30 * δ) := by ring
        rw [e'] ; rw [e] at c4
        have : (0 : ℝ) < (2 ^ 30 - 3) * δ := mul_pos (by norm_num) hδ
        linarith
      · unfold Job.L; rw [hgr]; exact b3
    · obtain ⟨b1, b2, b3⟩ := hall _ (hprog a ha)
      refine ⟨⟨?_, b3⟩, Job.long_of (hok a ha).toSound b1⟩
      refine Job.short_of (hok a ha) ?_
      obtain ⟨v, acc, c1, c2, c3, c4⟩ := b2
      refine ⟨v, acc, c1, c2, c3, ?_⟩
      have h0 : 0 ≤ 2 * val a.r.trajectory.length / v :=
        div_nonneg (mul_nonneg (by norm_num) (by
          have := (hok a ha).forward 0 a.T le_rfl (hok a ha).pos.le le_rfl
          rw [(hok a ha).finish, (hok a ha).start] at this
          exact this)) c1.v0.le
      have e : (2 : ℝ) ^ 32 * (δ / 4) = 2 ^ 30 * δ := by ring
      rw [e] at c4
      have : (0 : ℝ) < (2 ^ 32 - 2 ^ 30 - 1) * δ := mul_pos (by norm_num) hδ
      simp only at c4 ⊢
      linarith
  have hgood : Good M δ (travel M δ) (fun axis => place j.r axis 0) (j' :: js ++ js') :=
    ⟨fun a ha => (hfit a ha).1, by rw [hlist]; exact hcon, .inr ⟨fun _ _ => rfl, fun a ha => (hfit a ha).2⟩⟩
  have hTn : ∀ a ∈ j' :: js ++ js', 0 ≤ a.T := fun a ha => hδ.le.trans (hfit a ha).2
  have hlog : ∀ o : Ret (Option M.kit.Req), o.ticks = [] → (ticksOf (((Call.start : MCall M), o) :: g)) = ticksOf g := by
    intro o h; simp [ticksOf, h]
  have hex := executes_of_exec hs (by simp) hTn (a3 hgood)
  refine ⟨js', a1, a2, ?_, fun htot => ?_⟩
  · rw [hlog _ rfl]; exact hex
  · have hge := ticks_ge ks hrun
    have ht' : total (j' :: js ++ js') < t + (ticksOf g).length * δ :=
      htot.trans_le (by
        have : (ks.countP Call.isCalculate : ℝ) * δ ≤ (ticksOf g).length * δ :=
          mul_le_mul_of_nonneg_right (by exact_mod_cast hge) hδ.le
        linarith)
    refine ⟨hex.done ht', fun axis ha => ?_⟩
    have := hex.near axis ha
    rw [placeAt_done ((rest_total (by simp) hTn).2 ht'), hlist] at this
    exact this

end

/-- The state after `stop()`. -/
private theorem performs_halting {M : Machine} {δ : ℝ} {d : Nat → ℝ} {c c' : MotionCtrl M.kit} {rs ks log}
    (h : Performs M δ d c rs ks c' log)
    (hfeed : ∀ x ∈ program c.overrides.feedOverride rs ks, (x.1.vFeed * c'.overrides.feedOverride).Pos)
    (hbrief : ∀ x ∈ program c.overrides.feedOverride rs ks, Brief M (δ / 4) x.1 x.2) :
    Suited M δ (travel M δ) ∧ ∃ js : List Job, js.map (fun j => (j.r, j.f)) = program c.overrides.feedOverride rs ks ∧
      (∀ j ∈ js, j.Ok M) ∧ Executes M δ d js ((ticksOf log).length * δ) c' ∧
      ∀ {j js' u}, rest js ((ticksOf log).length * δ) = (j :: js', u) → j.Settled u →
        ∃ i l rr m, (brakeOf i l).Ok M j u ∧ (brakeOf i l).E = u + l.duration ∧ 0 ≤ l.duration ∧
          Halting M δ (travel M δ) j (js'.map Job.r) u i l rr m 0 c'.stop ∧ u + l.duration + δ < 2 ^ 32 * δ ∧
          l.duration ≤ 2 * (j.T - u) ∧ 2 * j.T < 2 ^ 31 * δ ∧ (∀ a ∈ js', Executable M.n a.r) ∧
          ∀ axis, axis < M.n → ∀ s, 0 ≤ s → s ≤ j.L → M.InRange (place j.r axis s * M.stepsPerMm axis) := by
  obtain ⟨c₀, log₀, h₀, hf, hrun⟩ := h.run
  have hm := h.follow
  have hM := h.machine
  have hδ := hm.width
  have hpos : ∀ axis, axis < M.n → 0 ≤ travel M δ axis := fun axis ha =>
    mul_nonneg (mul_nonneg (hM.vMax axis ha).le hm.width.le) (hm.steps axis ha)
  have hs : Suited M δ (travel M δ) := ⟨hm.width, hm.hysteresis, hm.steps, hpos, fun axis ha => le_rfl,
    fun axis ha => by have := hm.rate axis ha; unfold Machine.perTick; unfold travel at this ⊢; linarith⟩
  obtain ⟨-, js, h1, h2, h3, h4, -, h5⟩ := executed hM hs h.idle h.some h.fit h.executable h.feed h.near h₀ hf hrun
  have hmem : ∀ j ∈ js, (j.r, j.f) ∈ program c.overrides.feedOverride rs ks := fun j hj => by
    rw [← h1]; exact List.mem_map_of_mem (f := fun j : Job => (j.r, j.f)) hj
  have hmap : js.map Job.r = (program c.overrides.feedOverride rs ks).map Prod.fst := by
    rw [← h1, List.map_map]; rfl
  have hg : Good M δ (travel M δ) d js := ⟨fun j hj => ⟨Job.short_of (h2 j hj) (h.motions _ (hmem j hj)).2.1,
    (h.motions _ (hmem j hj)).2.2⟩, by rw [hmap]; exact h.connected,
    .inr ⟨fun _ _ => rfl, fun j hj => Job.long_of (h2 j hj).toSound (h.motions _ (hmem j hj)).1⟩⟩
  refine ⟨hs, js, h1, h2, h3 hg, fun {j js' u} hrest hset => ?_⟩
  have hex := h5 hg
  unfold Exec at hex
  rw [hrest] at hex
  simp only at hex
  have hsub : ∀ a ∈ j :: js', a ∈ js := fun a ha => rest_mem (t := (ticksOf log).length * δ) (by rw [hrest]; exact ha)
  have hj := hsub j List.mem_cons_self
  have hpl := hex.queue.getHead.pastLeft
    (rested hM h.idle h.some h.fit h.executable h.feed h₀ hf hrun (by rw [hex.queue.level]; simp)) hex.nonneg hex.le hset
  obtain ⟨i, l, rr, m, hhalt⟩ := halting_stop hex hpl (by
    intro r hr
    obtain ⟨a, ha, rfl⟩ := List.mem_map.1 hr
    exact hfeed _ (hmem a (hsub a ha)))
  obtain ⟨t₀, hb₀, -, -⟩ := id hhalt
  have hk := hb₀.front.brake hM
  obtain ⟨v, acc, b1, b2, b3, b4⟩ := hbrief _ (hmem j hj)
  have hsoon := hk.soon hM (h2 j hj).toSound hex.nonneg hex.le hset b1
  have hE : (brakeOf i l).E = u + l.duration := by show i.doneT + _ = _; rw [hb₀.front.doneT]
  rw [hE, add_sub_cancel_left] at hsoon
  have hjT : j.T ≤ 2 * j.L / v := by
    rw [le_div_iff₀ b1.v0]
    have := (h2 j hj).brisk v acc b1 b2 b3
    linarith
  change 2 * j.L / v + δ / 4 < 2 ^ 32 * (δ / 4) at b4
  have hT : 2 * j.T < 2 ^ 31 * δ := by
    have e : (2 : ℝ) ^ 32 * (δ / 4) = 2 ^ 30 * δ := by ring
    have e' : (2 : ℝ) ^ 31 * δ = 2 * (2 ^ 30 * δ) := by ring
    rw [e'] ; rw [e] at b4; linarith
  have hshort : u + l.duration + δ < 2 ^ 32 * δ := by
    have e : (2 : ℝ) ^ 32 * δ = 2 ^ 31 * δ + 2 ^ 31 * δ := by ring
    have : (0 : ℝ) < (2 ^ 31 - 1) * δ := mul_pos (by norm_num) hδ
    linarith [hex.nonneg, hex.le]
  exact ⟨i, l, rr, m, hk, hE, (stop_facts hb₀.front.base hb₀.front.plan).1, hhalt, hshort, hsoon, hT,
    fun a ha => h4 a (hsub a (List.mem_cons_of_mem _ ha)), (hg.fits j hj).range⟩

/-! ## C89, C90 -/

/-- **C89**, **C90** (partial: stops during the acceleration are excluded, and so is going on after a stop that ends at the very
end of the path). -/
theorem program_stops_and_resumes_partial {M : Machine} {δ : ℝ} {d : Nat → ℝ} {c c' : MotionCtrl M.kit} {rs ks log}
    (h : Performs M δ d c rs ks c' log)
    (hfeed : ∀ x ∈ program c.overrides.feedOverride rs ks, (x.1.vFeed * c'.overrides.feedOverride).Pos)
    (hbrief : ∀ x ∈ program c.overrides.feedOverride rs ks, Brief M (δ / 4) x.1 x.2) :
    ∃ js : List Job, js.map (fun j => (j.r, j.f)) = program c.overrides.feedOverride rs ks ∧ (∀ j ∈ js, j.Ok M) ∧
      Executes M δ d js ((ticksOf log).length * δ) c' ∧
      ∀ {j js' u}, rest js ((ticksOf log).length * δ) = (j :: js', u) → j.Settled u →
        ∃ k : Brake, k.Ok M j u ∧ ∀ {ks₁ c₁ log₁}, c'.run (.stop :: ks₁) = some (c₁, log₁) → Waiting M c'.stop ks₁ →
          Halts M δ j (js'.map Job.r ++ appended ks₁) k u ((ticksOf log₁).length * δ) c₁ ∧
          tickEvents log₁ = (if k.E < u + (ticksOf log₁).length * δ then [.motionStopped] else []) ∧
          (c₁.state = .stopped → k.S k.E < j.L →
            (∀ r ∈ j.r :: (js'.map Job.r ++ appended ks₁), (r.vFeed * c₁.overrides.feedOverride).Pos) →
            Continues M δ j (js'.map Job.r ++ appended ks₁) k u c₁) := by
  obtain ⟨hs, js, h1, h2, h3, h4⟩ := performs_halting h hfeed hbrief
  have hM := h.machine
  refine ⟨js, h1, h2, h3, fun {j js' u} hrest hset => ?_⟩
  obtain ⟨i, l, rr, m, hk, hE, hl0, hhalt, hshort, hsoon, hT, hexe, hrange⟩ := h4 hrest hset
  refine ⟨brakeOf i l, hk, fun {ks₁ c₁ log₁} hrun₁ hw => ?_⟩
  rw [run] at hrun₁
  simp only [call, Option.map_eq_some_iff, Prod.exists, Prod.mk.injEq] at hrun₁
  obtain ⟨c₂, g, hrun₂, rfl, rfl⟩ := hrun₁
  obtain ⟨a1, a2, a3⟩ := halting_run hM hs hrange hshort ks₁ hhalt hw hrun₂
  rw [zero_add] at a1
  have hlog : ∀ o : Ret (Option M.kit.Req), o.ticks = [] → (ticksOf (((Call.stop : MCall M), o) :: g)) = ticksOf g := by
    intro o h; simp [ticksOf, h]
  obtain ⟨e1, e2⟩ := halts_of_halting hs a1
  refine ⟨by rw [hlog _ rfl]; exact e1, ?_, fun hst hlt ho => ?_⟩
  · rw [hlog _ rfl]
    have : tickEvents g = _ := a3
    rw [hE]
    unfold tickEvents at *
    rw [hlog _ rfl, this]
    congr 1
    simp [hl0]
  · refine continues hM hs a1 (e2 hlt) hst ?_ ho hT hsoon
    intro r hr
    rcases List.mem_append.1 hr with hr | hr
    · obtain ⟨a, ha, rfl⟩ := List.mem_map.1 hr
      exact hexe a ha
    · exact a2 r hr

/-- **C90** is violated if the stop ends at the very end of the path (as the stop of a motion that is already slowing down as quickly
as it can does): after `start()` the motion in progress never ends, whatever the number of calls. -/
theorem resume_at_end_never_ends {M : Machine} {δ : ℝ} {d : Nat → ℝ} {c c' : MotionCtrl M.kit} {rs ks log}
    (h : Performs M δ d c rs ks c' log)
    (hfeed : ∀ x ∈ program c.overrides.feedOverride rs ks, (x.1.vFeed * c'.overrides.feedOverride).Pos)
    (hbrief : ∀ x ∈ program c.overrides.feedOverride rs ks, Brief M (δ / 4) x.1 x.2) :
    ∃ js : List Job, js.map (fun j => (j.r, j.f)) = program c.overrides.feedOverride rs ks ∧ (∀ j ∈ js, j.Ok M) ∧
      ∀ {j u}, rest js ((ticksOf log).length * δ) = ([j], u) → j.Settled u →
        ∃ k : Brake, k.Ok M j u ∧ (k.S k.E = j.L →
          ∀ {ks₁ c₁ log₁}, c'.run (.stop :: ks₁) = some (c₁, log₁) → Waiting M c'.stop ks₁ → appended ks₁ = [] →
            k.E < u + (ticksOf log₁).length * δ → (j.r.vFeed * c₁.overrides.feedOverride).Pos →
            c₁.state = .stopped ∧
            ∀ n c₂ log₂, c₁.run (.start :: List.replicate n .calculate) = some (c₂, log₂) →
              c₂.state = .running ∧ c₂.buffer.level = 1 ∧ tickEvents log₂ = []) := by
  obtain ⟨hs, js, h1, h2, -, h4⟩ := performs_halting h hfeed hbrief
  have hM := h.machine
  refine ⟨js, h1, h2, fun {j u} hrest hset => ?_⟩
  obtain ⟨i, l, rr, m, hk, hE, hl0, hhalt, hshort, -, -, -, hrange⟩ := h4 hrest hset
  refine ⟨brakeOf i l, hk, fun hend {ks₁ c₁ log₁} hrun₁ hw happ hlate ho => ?_⟩
  rw [run] at hrun₁
  simp only [call, Option.map_eq_some_iff, Prod.exists, Prod.mk.injEq] at hrun₁
  obtain ⟨c₂, g, hrun₂, rfl, rfl⟩ := hrun₁
  obtain ⟨⟨t, a1, a2, a3⟩, -, -⟩ := halting_run hM hs hrange hshort ks₁ hhalt hw hrun₂
  have hlog : ∀ o : Ret (Option M.kit.Req), o.ticks = [] → (ticksOf (((Call.stop : MCall M), o) :: g)) = ticksOf g := by
    intro o h; simp [ticksOf, h]
  rw [hlog _ rfl, hE] at hlate
  rw [zero_add] at a2 a3
  rw [happ, List.map_nil, List.append_nil] at a1
  have hst : c₂.state = .stopped := by
    rcases a1.phase with ⟨p1, -⟩ | ⟨-, -, p3⟩
    · rcases a2.lt_or_eq with h | h
      · linarith [a3 h]
      · linarith
    · exact p3
  have hSE : (brakeOf i l).S (brakeOf i l).E = i.doneL + l.length := stopS_after a1.front.plan le_rfl
  have hm : m = 0 := by
    have := (stop_facts a1.front.base a1.front.plan).2.2.1
    have := a1.front.length
    have := a1.front.plan.m0
    rw [hend] at hSE
    linarith
  subst hm
  have hend := endless_of_stop a1 hst ho
  refine ⟨hst, fun n c₃ log₂ hrun => ?_⟩
  rw [run] at hrun
  simp only [call, Option.map_eq_some_iff, Prod.exists, Prod.mk.injEq] at hrun
  obtain ⟨c₄, g₂, hrun₃, rfl, rfl⟩ := hrun
  obtain ⟨b1, b2⟩ := hend.run n hrun₃
  refine ⟨b1.state, b1.level, ?_⟩
  simp only [tickEvents, ticksOf, List.flatMap_cons, List.nil_append, List.flatMap_eq_nil_iff, List.mem_flatMap]
  rintro x ⟨y, hy, hx⟩
  exact b2 y hy x hx

/-! ## Example -/

namespace ExecuteExample
open Example

/-- At most one tick per call; overrides `o`. -/
structure OneTick {K : MotionKit} (o : K.Ovr) (c : MotionCtrl K) : Prop where
  inv : SInv c
  max : c.signals.maxTicksSinceLastOutput = 1
  overrides : c.overrides = o

theorem OneTick.same {K : MotionKit} {o : K.Ovr} {c c' : MotionCtrl K} (h : OneTick o c) (hs : c'.signals = c.signals)
    (ho : c'.overrides = c.overrides) : OneTick o c' :=
  ⟨⟨by rw [hs]; exact h.inv.ticks, by rw [hs]; exact h.inv.limit⟩, by rw [hs]; exact h.max, by rw [ho]; exact h.overrides⟩

theorem OneTick.append {K : MotionKit} {o : K.Ovr} {c : MotionCtrl K} (h : OneTick o c) (r : K.Req) : OneTick o (c.append r) :=
  h.same (by unfold MotionCtrl.append; split <;> rfl) (by unfold MotionCtrl.append; split <;> rfl)

theorem OneTick.start {K : MotionKit} {o : K.Ovr} {c : MotionCtrl K} (h : OneTick o c) : OneTick o c.start := by
  refine h.same ?_ ?_ <;> unfold MotionCtrl.start <;> split
  exacts [(sameButProf_optimize _).signals, rfl, (sameButProf_optimize _).ovr, rfl]

theorem OneTick.stop {K : MotionKit} {o : K.Ovr} {c : MotionCtrl K} (h : OneTick o c) : OneTick o c.stop :=
  h.same (sameButProf_optimize _).signals (sameButProf_optimize _).ovr

/-- With at most one tick per call, there are as many ticks as calls. -/
theorem OneTick.run {K : MotionKit} {o : K.Ovr} (n : Nat) : ∀ {c c' : MotionCtrl K} {log}, OneTick o c →
    c.run (List.replicate n .calculate) = some (c', log) → (ticksOf log).length = n ∧ OneTick o c' := by
  induction n with
  | zero =>
    intro c c' log h hrun
    simp only [List.replicate_zero, MotionCtrl.run, Option.some.injEq, Prod.mk.injEq] at hrun
    obtain ⟨rfl, rfl⟩ := hrun
    exact ⟨rfl, h⟩
  | succ n ih =>
    intro c c' log h hrun
    obtain ⟨c₁, e, ts, h1, h2, h3, h4, h7, -, h5⟩ := h.inv.calculate
    rw [List.replicate_succ, MotionCtrl.run] at hrun
    simp only [call, h1, Option.map_some, Option.map_eq_some_iff, Prod.exists, Prod.mk.injEq] at hrun
    obtain ⟨c₂, g, h6, rfl, rfl⟩ := hrun
    obtain ⟨k1, k2⟩ := ih ⟨h2, h5.trans h.max, (calcLoop_overrides _ (h7 _ le_rfl)).trans h.overrides⟩ h6
    refine ⟨?_, k2⟩
    rw [h.max, max_self] at h4
    have := List.length_pos_iff.2 h3
    simp [ticksOf] at k1 ⊢
    omega

/-- A motion of 10 mm at a feed rate of 1 mm/s. -/
noncomputable def far : SimplifiedMotion :=
  { request with
    vFeed := fin 1
    trajectory := { request.trajectory with length := fin 10, delta := fun _ => fin 10 } }

theorem place_far (s : ℝ) : place far 0 s = s := by
  simp [place, far, request, SimplifiedMotion.fresh, val]

theorem executable_far : Executable machine.n far where
  moves :=
    { type := rfl
      length := rfl
      pos := by show (0 : ℝ) < 10; norm_num
      delta := fun _ _ => ⟨10, rfl⟩
      radius := ⟨0, rfl, fun i hi h => by simp [far, request, SimplifiedMotion.fresh, machine] at h hi; omega⟩
      some := ⟨0, one_pos, Or.inr (Or.inr ⟨10, by norm_num, rfl⟩)⟩ }
  start _ _ := ⟨0, rfl⟩
  arc h := by simp [far, request, SimplifiedMotion.fresh, machine] at h

theorem far_axis : ∀ axis, axis < machine.n → axis = 0 := by simp [machine]

theorem direction_far : |far.direction 0| = 1 := by
  simp [SimplifiedMotion.direction, far, request, SimplifiedMotion.fresh]

theorem allowed_far : Allowed machine far 1 1 := by
  have harc : ¬ (0 = far.trajectory.arcAxis0 ∨ 0 = far.trajectory.arcAxis1) := by
    simp [far, request, SimplifiedMotion.fresh]
  refine ⟨one_pos, one_pos, ?_, ?_, ?_, ?_⟩
  · intro axis ha; rw [far_axis axis ha, direction_far]; norm_num [machine]
  · intro axis ha; rw [far_axis axis ha, direction_far]; norm_num [machine]
  · intro axis ha; rw [far_axis axis ha, direction_far]; norm_num [machine]
  · intro axis ha h; rw [far_axis axis ha] at h; exact absurd h harc

theorem length_far : val far.trajectory.length = 10 := rfl

theorem feed_far : far.vFeed * fin 1 = fin 1 := by show fin 1 * fin 1 = _; rw [fin_mul, one_mul]

theorem brief_far {δ : ℝ} (hδ : 1 / 32000 ≤ δ) : Brief machine δ far (far.vFeed * fin 1) := by
  refine ⟨1, 1, allowed_far, ?_, by rw [length_far]; norm_num, by rw [length_far]; linarith⟩
  rw [feed_far, le_fin]; norm_num

theorem reachable_far : Reachable machine far := by
  intro axis ha s h0 h1
  have ha0 := far_axis axis ha
  subst ha0
  rw [length_far] at h1
  unfold Machine.InRange
  rw [abs_le, place_far]
  norm_num [machine]; constructor <;> linarith

theorem long_far {δ : ℝ} (hδ : δ ≤ 1 / 4000) : Long machine δ far := by
  refine ⟨0, one_pos, by norm_num [machine], 10, by norm_num, by rw [length_far], ?_⟩
  rw [place_far, place_far]; norm_num [machine]; linarith

/-- C89, C90: the motion of 10 mm with 8000 ticks per second. `stop()` is called after 3 seconds and takes not more than 2 seconds;
then the axis is somewhere before 4 mm. After `start()` it goes on to 10 mm (2000 steps). -/
example : ∃ c₀ c₁ c₂ log₀ log₁ log₂, (fresh machine.kit).run ([.configure 1 (fin (1 / 8000))] ++ (([far].map (push machine) ++ [.start]) ++
      List.replicate 24000 .calculate)) = some (c₀, log₀) ∧ c₀.state = .running ∧
    c₀.run (.stop :: List.replicate 16001 .calculate) = some (c₁, log₁) ∧ c₁.state = .stopped ∧ c₁.machinePosition 0 ≤ 800 ∧
    tickEvents log₁ = [.motionStopped] ∧
    c₁.run (.start :: List.replicate 160001 .calculate) = some (c₂, log₂) ∧ c₂.state = .stopped ∧ c₂.buffer.level = 0 ∧
    1999 ≤ c₂.machinePosition 0 ∧ c₂.machinePosition 0 ≤ 2001 := by
  obtain ⟨c₂, log, hrun, -⟩ := motion_history_returns (K := machine.kit)
    (([.configure 1 (fin (1 / 8000))] ++ (([far].map (push machine) ++ [.start]) ++ List.replicate 24000 .calculate)) ++
      ((.stop :: List.replicate 16001 .calculate) ++ (.start :: List.replicate 160001 .calculate)))
  obtain ⟨c₀, log₀, l, hrun₀, hrun', -⟩ := run_split (K := machine.kit) _ _ hrun
  obtain ⟨c₁, log₁, log₂, hrun₁, hrun₂, -⟩ := run_split (K := machine.kit) _ _ hrun'
  obtain ⟨cc, l₁, l₂, h1, h2, -⟩ := run_split (K := machine.kit) _ _ hrun₀
  obtain ⟨cs, l₃, l₄, h3, h4, -⟩ := run_split (K := machine.kit) _ _ h2
  refine ⟨c₀, c₁, c₂, log₀, log₁, log₂, hrun₀, ?_⟩
  simp only [run, call, Option.map_some, Option.some.injEq, Prod.mk.injEq] at h1
  obtain ⟨rfl, -⟩ := h1
  have hfeed : (fresh machine.kit |>.configure 1 (fin (1 / 8000))).overrides.feedOverride = fin 1 := rfl
  have hpos : (fresh machine.kit |>.configure 1 (fin (1 / 8000))).machinePosition = fun _ => 0 := rfl
  have hprog : ∀ n, program (M := machine) (fin 1) [far] (List.replicate n .calculate) = [(far, far.vFeed * fin 1)] := by
    intro n
    show [(far, far.vFeed * fin 1)] ++ requested (M := machine) _ _ = _
    rw [requested_calculate]; rfl
  have hmotion : ∀ n, ∀ x ∈ program (M := machine) (fin 1) [far] (List.replicate n .calculate),
      Long machine (1 / 8000) x.1 ∧ Brief machine (1 / 8000 / 4) x.1 x.2 ∧ Reachable machine x.1 := by
    intro n x hx
    rw [hprog, List.mem_singleton] at hx
    rw [hx]
    exact ⟨long_far (by norm_num), brief_far (by norm_num), reachable_far⟩
  have happ : ∀ n, appended (M := machine) (List.replicate n .calculate) = [] := by
    intro n; simp [appended, requestOf]
  -- the program
  have hp : Performs machine (1 / 8000) (fun _ => 0) ((fresh machine.kit).configure 1 (fin (1 / 8000))) [far]
      (List.replicate 24000 .calculate) c₀ l₄ := by
    refine ⟨machine_ok, ⟨by norm_num, by norm_num [machine], fun _ _ => by norm_num [machine],
      fun _ _ => by norm_num [travel, machine]⟩, idle_configured machine 1 (1 / 8000), by simp, by simp,
      by simpa using executable_far, ?_, ?_, ⟨cs, l₃, h3, feeds_calculate _ _, h4⟩, ?_, ?_⟩
    · intro r hr
      rw [List.mem_singleton.1 hr, hfeed, feed_far]; norm_num [Num.Pos]
    · intro axis ha; rw [hpos]; norm_num [machine, travel]
    · rw [hfeed, hprog]
      exact ⟨fun axis ha => by rw [far_axis axis ha]; exact place_far 0, trivial⟩
    · rw [hfeed]
      intro x hx
      obtain ⟨a, -, b⟩ := hmotion _ x hx
      rw [hprog, List.mem_singleton] at hx
      exact ⟨a, by rw [hx]; exact brief_far (by norm_num), b⟩
  -- one tick per call
  have o₁ : OneTick (K := machine.kit) ⟨fin 1, fin 1⟩ ((fresh machine.kit).configure 1 (fin (1 / 8000))) :=
    ⟨⟨rfl, by show 1 % 4294967296 < 4294967296; norm_num⟩, rfl, rfl⟩
  have e3 : cs = (((fresh machine.kit).configure 1 (fin (1 / 8000))).append far).start := by
    simp only [List.map_cons, List.map_nil, List.cons_append, List.nil_append, push, run, call, Option.map_some,
      Option.some.injEq, Prod.mk.injEq] at h3
    exact h3.1.symm
  have o₂ := (o₁.append far).start
  rw [← e3] at o₂
  obtain ⟨n₀, o₃⟩ := o₂.run _ h4
  have n₀' : ((ticksOf l₄).length : ℝ) * (1 / 8000) = 3 := by rw [n₀]; norm_num
  have f₀ : c₀.overrides.feedOverride = fin 1 := congrArg _ o₃.overrides
  have hrun₁' := hrun₁
  rw [run] at hrun₁'
  simp only [call, Option.map_eq_some_iff, Prod.exists, Prod.mk.injEq] at hrun₁'
  obtain ⟨c₁', g₁, h5, rfl, rfl⟩ := hrun₁'
  obtain ⟨n₁, o₄⟩ := o₃.stop.run _ h5
  have f₁ : c₁'.overrides.feedOverride = fin 1 := congrArg _ o₄.overrides
  generalize hlog₁ : (_ :: g₁ : Log machine.kit.Req (Option machine.kit.Req) machine.kit.Time machine.kit.Ovr) = log₁ at *
  have n₁' : ((ticksOf log₁).length : ℝ) * (1 / 8000) = 16001 / 8000 := by
    have : ticksOf log₁ = ticksOf g₁ := by rw [← hlog₁]; simp [ticksOf]
    rw [this, n₁]; norm_num
  -- the motion
  obtain ⟨js, j1, j2, j3, j4⟩ := program_stops_and_resumes_partial hp
    (by
      intro x hx
      rw [hfeed, hprog, List.mem_singleton] at hx
      rw [hx, f₀]; show (far.vFeed * fin 1).Pos; rw [feed_far]; norm_num [Num.Pos])
    (fun x hx => (hmotion _ x (by rw [hfeed] at hx; exact hx)).2.1)
  rw [hfeed, hprog] at j1
  obtain ⟨j, rfl⟩ : ∃ j, js = [j] := List.length_eq_one_iff.1 (by simpa using congrArg List.length j1)
  simp only [List.map_cons, List.map_nil, List.cons.injEq, Prod.mk.injEq, and_true] at j1
  obtain ⟨hr, hf⟩ := j1
  rw [feed_far] at hf
  have hok := j2 j List.mem_cons_self
  have hL : j.L = 10 := by unfold Job.L; rw [hr]; exact length_far
  have hT : 10 ≤ j.T := by
    have := hok.feed 1 hf 0 j.T le_rfl hok.pos.le le_rfl
    rw [hok.start, hok.finish, hL] at this; linarith
  rw [n₀'] at j3 j4
  have hrest : rest [j] 3 = ([j], 3) := by unfold rest; rw [if_pos (by linarith)]
  have hst := (j3.running (by simp [total]; linarith)).1
  obtain ⟨k, hk, hstop⟩ := j4 hrest (hok.settled (hr ▸ allowed_far) hf zero_le_one machine_ok.jMax (by norm_num [machine]))
  have hw : Waiting machine c₀.stop (List.replicate 16001 .calculate) := by
    have : ∀ (n : Nat) (c : MotionCtrl machine.kit), Waiting machine c (List.replicate n .calculate) := by
      intro n
      induction n with
      | zero => intro c; trivial
      | succ n ih => intro c; exact ⟨.inl rfl, fun c' x _ => ih c'⟩
    exact this _ _
  obtain ⟨hh, hev, hgo⟩ := hstop hrun₁ hw
  rw [n₁'] at hh hev
  simp only [List.map_nil, happ, List.append_nil] at hh hgo
  -- how the stop goes
  have hV : j.V 3 ≤ 1 := hok.toLaw.v_le hf zero_le_one (by norm_num) (by linarith)
  have hE : k.E ≤ 5 := by
    have := hk.quick 1 1 (hr ▸ allowed_far)
    have m1 : max (√(j.V 3 / machine.jMax)) (j.V 3 / 1) ≤ 1 := max_le (Real.sqrt_le_one.2 (by simpa [machine] using hV)) (by linarith)
    linarith
  have hS : j.S 3 ≤ 3 := by
    have := hok.feed 1 hf 0 3 le_rfl (by norm_num) (by linarith)
    rw [hok.start] at this; linarith
  have hSE : k.S k.E ≤ 4 := by
    have h1 := hk.law.feed 1 hf 3 k.E le_rfl hk.after le_rfl
    have h2 := hk.distance
    have h3 : j.V 3 * (k.E - 3) ≤ 1 * 2 := by
      have := hk.after
      calc j.V 3 * (k.E - 3) ≤ 1 * (k.E - 3) := mul_le_mul_of_nonneg_right hV (by linarith)
        _ ≤ 1 * 2 := by linarith
    linarith
  have hlt : k.S k.E < j.L := by rw [hL]; linarith
  have hEx : k.E < 3 + 16001 / 8000 := by linarith
  obtain ⟨s1, s2, s3⟩ := hh.stopped hEx
  rw [if_pos hEx] at hev
  refine ⟨hst, hrun₁, s1, ?_, hev, hrun₂, ?_⟩
  · have := s3 hlt 0 one_pos
    rw [hr, place_far, abs_le] at this
    norm_num [machine, travel] at this
    have h3 : (c₁'.machinePosition 0 : ℝ) < ((801 : Int) : ℝ) := by push_cast; linarith [this.1]
    have h3 := Int.cast_lt.1 h3
    omega
  -- and how it goes on
  obtain ⟨t, j', js', t1, t2, t3, t4, t5⟩ := hgo s1 hlt (by
    intro r hr'
    rw [List.mem_singleton.1 hr', hr, f₁]; show (far.vFeed * fin 1).Pos; rw [feed_far]; norm_num [Num.Pos])
  have hjs' : js' = [] := by simpa using congrArg List.length t3
  subst hjs'
  obtain ⟨js'', u1, u2, u3, u4⟩ := t5 hrun₂ (feeds_calculate _ _)
    (by
      rw [happ, hr]
      exact ⟨fun _ _ => rfl, trivial⟩)
    (by rw [f₁, hr]; exact hmotion _)
  rw [requested_calculate] at u1
  have hjs'' : js'' = [] := by simpa using congrArg List.length u1
  subst hjs''
  have hT' : j'.T - t ≤ 20 := by
    have := t2.brisk 1 1 (hr ▸ allowed_far) (by rw [hr, f₁]; show (fin 1).le (far.vFeed * fin 1) = true; rw [feed_far, le_fin]; norm_num)
      (by rw [hL]; linarith)
    have hs0 : 0 ≤ k.S k.E := by
      have h1 := hk.law.forward 3 k.E le_rfl hk.after le_rfl
      have h2 := hok.forward 0 3 le_rfl (by norm_num) (by linarith)
      rw [hok.start, ← hk.start.1] at h2; linarith
    rw [hL] at this; linarith
  have hcount : (List.replicate 160001 (Call.calculate : MCall machine)).countP Call.isCalculate = 160001 := by
    rw [List.countP_replicate]; simp [Call.isCalculate]
  obtain ⟨hi, hn⟩ := u4 (by
    rw [hcount]
    show total [j'] < _
    simp [total]; linarith)
  refine ⟨hi.state, hi.level, ?_⟩
  have := hn 0 one_pos
  rw [happ, hr] at this
  change |place far 0 10 * _ - _| ≤ _ at this
  rw [place_far, abs_le] at this
  norm_num [machine, travel] at this
  have h3 : ((1998 : Int) : ℝ) < c₂.machinePosition 0 := by push_cast; linarith [this.2]
  have h4 : (c₂.machinePosition 0 : ℝ) < ((2002 : Int) : ℝ) := by push_cast; linarith [this.1]
  have h3 := Int.cast_lt.1 h3
  have h4 := Int.cast_lt.1 h4
  omega

/-- The motion of 1 mm slows down during its second half, as quickly as it can. -/
theorem request_law {j : Job} (hok : j.Ok machine) (hr : j.r = request) (hf : j.f = fin 2) :
    j.L = 1 ∧ j.T = 2 ∧ (∀ x, 1 ≤ x → x ≤ 2 → j.S x = 1 - (2 - x) ^ 2 / 2) ∧ (∀ x, 1 < x → x ≤ 2 → j.V x = 2 - x) := by
  have hL : j.L = 1 := by unfold Job.L; rw [hr]; rfl
  have hT : j.T ≤ 2 := by
    have := hok.brisk 1 1 (hr ▸ allowed (.inl rfl)) (by rw [hf, le_fin]; norm_num) (by rw [hL]; norm_num)
    rw [hL] at this; linarith
  have hT0 := hok.pos
  have hup : ∀ x y, 0 ≤ x → x ≤ y → y ≤ j.T → j.V y - j.V x ≤ y - x := by
    intro x y h0 h1 h2
    have := hok.speedUp 0 one_pos x y h0 h1 h2
    rw [hr, direction_request] at this
    simpa [machine] using this
  have hdn : ∀ x y, 0 ≤ x → x ≤ y → y ≤ j.T → j.V x - j.V y ≤ y - x := by
    intro x y h0 h1 h2
    have := hok.slowDown 0 one_pos x y h0 h1 h2
    rw [hr, direction_request] at this
    simpa [machine] using this
  -- distances
  have key : ∀ (P p : ℝ → ℝ), (∀ x, HasDerivAt P (p x) x) → (∀ x, 0 < x → x < j.T → j.V x ≤ p x) →
      ∀ x y, 0 ≤ x → x ≤ y → y ≤ j.T → j.S y - j.S x ≤ P y - P x := by
    intro P p hP hp x y h0 h1 h2
    have hmono : MonotoneOn (fun x => P x - j.S x) (Set.Icc 0 j.T) := by
      refine monotoneOn_of_hasDerivWithinAt_nonneg (convex_Icc _ _) ?_ (f' := fun x => p x - j.V x) ?_ ?_
      · exact (Continuous.sub (continuous_iff_continuousAt.2 fun x => (hP x).continuousAt) hok.smooth).continuousOn
      · intro x hx
        rw [interior_Icc] at hx
        exact ((hP x).sub (hok.rate x hx.1 hx.2)).hasDerivWithinAt
      · intro x hx
        rw [interior_Icc] at hx
        have := hp x hx.1 hx.2
        show 0 ≤ p x - j.V x
        linarith
    have := hmono ⟨h0, h1.trans h2⟩ ⟨h0.trans h1, h2⟩ h1
    simp only at this
    linarith
  have k1 := key (fun x => x ^ 2 / 2) (fun x => x) (fun x => by
      have := ((hasDerivAt_id x).pow 2).div_const 2
      simpa using this) (fun x h0 h1 => by
      have := hup 0 x le_rfl h0.le h1.le
      rw [hok.atRest.1] at this; linarith)
  have k2 := key (fun x => -(j.T - x) ^ 2 / 2) (fun x => j.T - x) (fun x => by
      have := (((hasDerivAt_id x).const_sub j.T).pow 2).neg.div_const 2
      simp at this
      convert this using 1) (fun x h0 h1 => by
      have := hdn x j.T h0.le h1.le le_rfl
      rw [hok.atRest.2] at this; linarith)
  have hT2 : j.T = 2 := by
    have a1 := k1 0 (j.T / 2) le_rfl (by linarith) (by linarith)
    have a2 := k2 (j.T / 2) j.T (by linarith) (by linarith) le_rfl
    rw [hok.start] at a1
    rw [hok.finish, hL] at a2
    nlinarith
  rw [hT2] at k1 k2
  have hS : ∀ x, 1 ≤ x → x ≤ 2 → j.S x = 1 - (2 - x) ^ 2 / 2 := by
    intro x h1 h2
    have a1 := k1 0 1 le_rfl zero_le_one (by norm_num)
    have a2 := k2 1 x zero_le_one h1 h2
    have a3 := k2 x 2 (by linarith) h2 le_rfl
    have e : j.S 2 = 1 := by rw [← hL, ← hok.finish, hT2]
    rw [hok.start] at a1
    rw [e] at a3
    apply le_antisymm <;> nlinarith
  refine ⟨hL, hT2, hS, fun x h1 h2 => ?_⟩
  rcases h2.eq_or_lt with rfl | h2
  · rw [← hT2, hok.atRest.2, hT2]; norm_num
  · have d1 := hok.rate x (by linarith) (by linarith)
    have d2 : HasDerivAt (fun x : ℝ => 1 - (2 - x) ^ 2 / 2) (2 - x) x := by
      have := ((((hasDerivAt_id x).const_sub 2).pow 2).div_const 2).const_sub 1
      have e : -(((2 : ℕ) : ℝ) * (2 - id x) ^ (2 - 1) * -1 / 2) = 2 - x := by simp; ring
      rw [e] at this
      exact this
    refine d1.unique (d2.congr_of_eventuallyEq ?_)
    filter_upwards [Ioo_mem_nhds h1 h2] with y hy
    exact hS y hy.1.le hy.2.le

/-- C90 is violated: the motion of 1 mm is stopped while it slows down. After `start()` it never ends. -/
theorem resume_violated : ∃ c₁ log₁, (fresh machine.kit).run (([.configure 1 (fin (1 / 8000))] ++ (([request].map (push machine) ++
      [.start]) ++ List.replicate 12000 .calculate)) ++ (.stop :: List.replicate 4001 .calculate)) = some (c₁, log₁) ∧
    c₁.state = .stopped ∧ ∀ n, ∃ c₂ log₂, c₁.run (.start :: List.replicate n .calculate) = some (c₂, log₂) ∧
      c₂.state = .running ∧ c₂.buffer.level = 1 ∧ tickEvents log₂ = [] := by
  obtain ⟨c₁, log, hrun, -⟩ := motion_history_returns (K := machine.kit)
    (([.configure 1 (fin (1 / 8000))] ++ (([request].map (push machine) ++ [.start]) ++ List.replicate 12000 .calculate)) ++
      (.stop :: List.replicate 4001 .calculate))
  refine ⟨c₁, log, hrun, ?_⟩
  obtain ⟨c₀, log₀, log₁, hrun₀, hrun₁, -⟩ := run_split (K := machine.kit) _ _ hrun
  obtain ⟨cc, l₁, l₂, h1, h2, -⟩ := run_split (K := machine.kit) _ _ hrun₀
  obtain ⟨cs, l₃, l₄, h3, h4, -⟩ := run_split (K := machine.kit) _ _ h2
  simp only [run, call, Option.map_some, Option.some.injEq, Prod.mk.injEq] at h1
  obtain ⟨rfl, -⟩ := h1
  have hfeed : (fresh machine.kit |>.configure 1 (fin (1 / 8000))).overrides.feedOverride = fin 1 := rfl
  have hpos : (fresh machine.kit |>.configure 1 (fin (1 / 8000))).machinePosition = fun _ => 0 := rfl
  have hprog : ∀ n, program (M := machine) (fin 1) [request] (List.replicate n .calculate) = [(request, request.vFeed * fin 1)] := by
    intro n
    show [(request, request.vFeed * fin 1)] ++ requested (M := machine) _ _ = _
    rw [requested_calculate]; rfl
  have hf1 : request.vFeed * fin 1 = fin 2 := by show fin 2 * fin 1 = _; rw [fin_mul, mul_one]
  have hbrief : Brief machine (1 / 8000 / 4) request (request.vFeed * fin 1) := by
    refine ⟨1, 1, allowed (.inl rfl), by rw [hf1, le_fin]; norm_num, ?_, ?_⟩
    · show (1 : ℝ) ^ 2 ≤ 1 * 1; norm_num
    · show 2 * (1 : ℝ) / 1 + _ < _; norm_num
  have happ : ∀ n, appended (M := machine) (List.replicate n .calculate) = [] := by
    intro n; simp [appended, requestOf]
  have hp : Performs machine (1 / 8000) (fun _ => 0) ((fresh machine.kit).configure 1 (fin (1 / 8000))) [request]
      (List.replicate 12000 .calculate) c₀ l₄ := by
    refine ⟨machine_ok, ⟨by norm_num, by norm_num [machine], fun _ _ => by norm_num [machine],
      fun _ _ => by norm_num [travel, machine]⟩, idle_configured machine 1 (1 / 8000), by simp, by simp,
      by simpa using executable_request, ?_, ?_, ⟨cs, l₃, h3, feeds_calculate _ _, h4⟩, ?_, ?_⟩
    · intro r hr
      rw [List.mem_singleton.1 hr, hfeed, hf1]; norm_num [Num.Pos]
    · intro axis ha; rw [hpos]; norm_num [machine, travel]
    · rw [hfeed, hprog]
      exact ⟨fun axis ha => by rw [far_axis axis ha]; exact place_request 0, trivial⟩
    · rw [hfeed]
      intro x hx
      rw [hprog, List.mem_singleton] at hx
      rw [hx]
      exact ⟨long (.inl rfl) (by norm_num), brief (.inl rfl) (by norm_num), reachable (.inl rfl)⟩
  have o₁ : OneTick (K := machine.kit) ⟨fin 1, fin 1⟩ ((fresh machine.kit).configure 1 (fin (1 / 8000))) :=
    ⟨⟨rfl, by show 1 % 4294967296 < 4294967296; norm_num⟩, rfl, rfl⟩
  have e3 : cs = (((fresh machine.kit).configure 1 (fin (1 / 8000))).append request).start := by
    simp only [List.map_cons, List.map_nil, List.cons_append, List.nil_append, push, run, call, Option.map_some,
      Option.some.injEq, Prod.mk.injEq] at h3
    exact h3.1.symm
  have o₂ := (o₁.append request).start
  rw [← e3] at o₂
  obtain ⟨n₀, o₃⟩ := o₂.run _ h4
  have n₀' : ((ticksOf l₄).length : ℝ) * (1 / 8000) = 3 / 2 := by rw [n₀]; norm_num
  have f₀ : c₀.overrides.feedOverride = fin 1 := congrArg _ o₃.overrides
  have hrun₁' := hrun₁
  rw [run] at hrun₁'
  simp only [call, Option.map_eq_some_iff, Prod.exists, Prod.mk.injEq] at hrun₁'
  obtain ⟨c₁', g₁, h5, rfl, rfl⟩ := hrun₁'
  obtain ⟨n₁, o₄⟩ := o₃.stop.run _ h5
  have f₁ : c₁'.overrides.feedOverride = fin 1 := congrArg _ o₄.overrides
  generalize hlog₁ : (_ :: g₁ : Log machine.kit.Req (Option machine.kit.Req) machine.kit.Time machine.kit.Ovr) = log₁ at *
  have n₁' : ((ticksOf log₁).length : ℝ) * (1 / 8000) = 4001 / 8000 := by
    have : ticksOf log₁ = ticksOf g₁ := by rw [← hlog₁]; simp [ticksOf]
    rw [this, n₁]; norm_num
  obtain ⟨js, j1, j2, j4⟩ := resume_at_end_never_ends hp
    (by
      intro x hx
      rw [hfeed, hprog, List.mem_singleton] at hx
      rw [hx, f₀]; show (request.vFeed * fin 1).Pos; rw [hf1]; norm_num [Num.Pos])
    (by
      intro x hx
      rw [hfeed, hprog, List.mem_singleton] at hx
      rw [hx]; exact hbrief)
  rw [hfeed, hprog] at j1
  obtain ⟨j, rfl⟩ : ∃ j, js = [j] := List.length_eq_one_iff.1 (by simpa using congrArg List.length j1)
  simp only [List.map_cons, List.map_nil, List.cons.injEq, Prod.mk.injEq, and_true] at j1
  obtain ⟨hr, hf⟩ := j1
  rw [hf1] at hf
  have hok := j2 j List.mem_cons_self
  obtain ⟨hL, hT, hS, hV⟩ := request_law hok hr hf
  rw [n₀'] at j4
  have hrest : rest [j] (3 / 2) = ([j], 3 / 2) := by unfold rest; rw [if_pos (by rw [hT]; norm_num)]
  obtain ⟨k, hk, hgo⟩ := j4 hrest (.inr ⟨5 / 4, by norm_num, fun x y h0 h1 h2 => by
    rw [hT] at h2
    rw [hV x (by linarith) (by linarith), hV y (by linarith) h2]; linarith⟩)
  have hV' := hV (3 / 2) (by norm_num) (by norm_num)
  have hS' := hS (3 / 2) (by norm_num) (by norm_num)
  have hE : 1 / 2 ≤ k.E - 3 / 2 := by
    have := hk.law.slowDown 0 one_pos (3 / 2) k.E le_rfl hk.after le_rfl
    rw [hk.rest, hk.start.2, hV', hr, direction_request] at this
    norm_num [machine] at this ⊢
    linarith
  have hw := hk.within
  have hd := hk.distance
  rw [hV', hS'] at hd
  rw [hL] at hw
  have hEnd : k.S k.E = j.L := by rw [hL]; linarith
  have hE2 : k.E = 2 := by linarith
  have hwait : Waiting machine c₀.stop (List.replicate 4001 .calculate) := by
    have : ∀ (n : Nat) (c : MotionCtrl machine.kit), Waiting machine c (List.replicate n .calculate) := by
      intro n
      induction n with
      | zero => intro c; trivial
      | succ n ih => intro c; exact ⟨.inl rfl, fun c' x _ => ih c'⟩
    exact this _ _
  obtain ⟨hst, hnever⟩ := hgo hEnd hrun₁ hwait (happ _) (by rw [n₁', hE2]; norm_num)
    (by rw [hr, f₁]; show (request.vFeed * fin 1).Pos; rw [hf1]; norm_num [Num.Pos])
  refine ⟨hst, fun n => ?_⟩
  obtain ⟨c₂, log₂, hrun₂, -⟩ := o₄.inv.run (.start :: List.replicate n .calculate)
  exact ⟨c₂, log₂, hrun₂, hnever n c₂ log₂ hrun₂⟩

end ExecuteExample

end Moovr.Props
