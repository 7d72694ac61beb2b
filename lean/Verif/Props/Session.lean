import Verif.Lemmas.Session
import Verif.Props.StopExecute
/-!
# Programs that are stopped and started again, any number of times (C91)

The calls: calculations, changes of the overrides, motions appended while the queue has room, `start()` while the controller is
stopped or running, and `stop()` while it is running, each in any order and any number of times. The only restriction is on the
moments of `stop()` and of `start()` while running (`CanStop`, `CanStart`): the motion in progress must not be accelerating (the
planner would continue from a wrong speed, C37), and there must be room to stop before its end (a stop that ends at the very end of
the path can't be resumed, C90), or something left to plan.
-/
namespace Moovr.Props
open Num ExecSpec MotionCtrl MotionSpec

/-- A session: the calls and when they are made. -/
def Session (M : Machine) (c : MotionCtrl M.kit) : List (MCall M) → Prop
  | [] => True
  | k :: ks =>
    (k = .calculate ∨ (∃ o, k = .override o) ∨ (∃ r, k = push M r ∧ c.buffer.level < 32) ∨ (k = .start ∧ CanStart M c) ∨
      (k = .stop ∧ c.state = .running ∧ CanStop M c)) ∧
    ∀ c' x, c.call k = some (c', x) → Session M c' ks

/-- The motions are `rs`, of which `m` have been appended so far. The first `n` of them are over, the others are in the queue in
order, and the distance `s` of the first of these has been travelled: each axis is there, up to half a step, the hysteresis and the
travel within a tick. When all motions are over, the controller is idle. -/
structure OnWay (M : Machine) (δ : ℝ) (d : Nat → ℝ) (rs : List SimplifiedMotion) (m n : Nat) (s : ℝ) (c : MotionCtrl M.kit) :
    Prop where
  level : n + c.buffer.level = m
  queued : ∀ i, i < c.buffer.level → ∃ r, rs[n + i]? = some r ∧
    (c.buffer.cells ((c.buffer.head + i) % 32)).request = some r
  range : ∀ r, n < m → rs[n]? = some r → 0 ≤ s ∧ s ≤ val r.trajectory.length
  near : ∀ axis, axis < M.n →
    |along d rs n s axis * M.stepsPerMm axis - c.machinePosition axis| ≤ 1 / 2 + M.hysteresis + travel M δ axis
  idle : n = m → Idle M δ c

/-! ## Proof -/

section
variable {M : Machine} {δ : ℝ} {d : Nat → ℝ}

private theorem suited (hM : M.Ok) (hm : CanFollow M δ (1 / 2)) : Suited M δ (M.perTick δ) :=
  have hpos : ∀ axis, axis < M.n → 0 ≤ travel M δ axis := fun axis ha =>
    mul_nonneg (mul_nonneg (hM.vMax axis ha).le hm.width.le) (hm.steps axis ha)
  ⟨hm.width, hm.hysteresis, hm.steps, hpos, fun axis ha => le_rfl,
    fun axis ha => by have := hm.rate axis ha; unfold Machine.perTick; unfold travel at this; linarith⟩

private theorem idle_of_parked (hδ : 0 < δ) {done : List SimplifiedMotion} {c : MotionCtrl M.kit} (h : Parked M δ d done [] c) :
    Idle M δ c := by
  obtain ⟨off, o1, o2, o3⟩ := h.clock.base
  have hn : (0 : ℝ) ≤ c.time.sampleIndex * δ := by positivity
  have hoff : off = 0 := by linarith
  have hidx : (c.time.sampleIndex : ℝ) * δ = 0 := by linarith
  refine ⟨h.state, h.queue.level, h.queue.head, h.clock.width, h.clock.now, ?_, by rw [o1, hoff]⟩
  rcases mul_eq_zero.1 hidx with h | h
  · exact_mod_cast h
  · linarith

private theorem parked_of_idle {c : MotionCtrl M.kit} (h : Idle M δ c) (hn : ∀ axis, axis < M.n →
    |d axis * M.stepsPerMm axis - c.machinePosition axis| ≤ 1 / 2 + M.hysteresis + travel M δ axis) : Parked M δ d [] [] c :=
  ⟨h.state, ⟨h.head, h.level, by simp, fun k hk => by simp at hk⟩,
    ⟨h.width, h.now, 0, h.offset, le_rfl, by rw [h.index]; simp⟩, hn⟩

private theorem onWay (hM : M.Ok) (hδ : 0 < δ) {done todo later : List SimplifiedMotion} {s : ℝ} {c : MotionCtrl M.kit}
    (h : Stage M δ d done todo s c) (hexe : ∀ r ∈ todo, Executable M.n r) (hcon : Connected M.n d (done ++ todo ++ later)) :
    OnWay M δ d (done ++ todo ++ later) (done.length + todo.length) done.length s c := by
  have hget : ∀ k (hk : k < todo.length), (done ++ todo ++ later)[done.length + k]? = some todo[k] := by
    intro k hk
    rw [List.append_assoc, List.getElem?_append_right (by omega), List.getElem?_append_left (by omega)]
    simp [hk]
  cases h with
  | parked h =>
    refine ⟨by rw [h.queue.level], fun k hk => ?_, fun r hlt hr => ?_, fun axis ha => ?_, fun he => ?_⟩
    · rw [h.queue.level] at hk
      obtain ⟨_, _, hw⟩ := h.queue.cell k hk
      exact ⟨_, hget k hk, hw.1.request⟩
    · have := hget 0 (by omega)
      rw [add_zero, hr] at this
      have := (hexe r (by rw [Option.some.inj this]; exact List.getElem_mem _)).moves.pos
      exact ⟨le_rfl, this.le⟩
    · rw [List.append_assoc] at hcon ⊢
      rw [along_joint hcon axis ha]; exact h.near axis ha
    · have : todo = [] := List.length_eq_zero_iff.1 (by omega)
      subst this
      exact idle_of_parked hδ h
  | @moving _ j js u h =>
    have hlen : (j.r :: js.map Job.r).length = (j :: js).length := by simp
    refine ⟨by rw [h.queue.level, hlen], fun k hk => ?_, fun r hlt hr => ?_, fun axis ha => ?_, fun he => ?_⟩
    · rw [h.queue.level, ← hlen] at hk
      refine ⟨_, hget k hk, ?_⟩
      rw [(h.queue.cell k (by rw [← hlen]; exact hk)).request]
      congr 1
      simp only [← List.map_cons, List.getElem_map]
    · have := hget 0 (by simp)
      rw [add_zero, hr] at this
      obtain rfl : r = j.r := by simpa using this
      have hj := h.queue.getHead.ok
      have g1 := hj.forward 0 u le_rfl h.nonneg h.le
      have g2 := hj.forward u j.T h.nonneg h.le le_rfl
      rw [hj.start] at g1
      rw [hj.finish] at g2
      exact ⟨g1, g2⟩
    · rw [show done ++ j.r :: js.map Job.r ++ later = done ++ j.r :: (js.map Job.r ++ later) by simp, along_mid]
      exact (h.near axis ha).1
    · simp at he
  | @braking _ j rs u i l rr m t h hm =>
    refine ⟨by rw [h.tail.level]; rfl, fun k hk => ?_, fun r hlt hr => ?_, fun axis ha => ?_, fun he => ?_⟩
    · rw [h.tail.level] at hk
      refine ⟨_, hget k hk, ?_⟩
      cases k with
      | zero =>
        have := h.front.holds.request
        rw [MotionBuffer.getHead] at this
        rw [add_zero, Nat.mod_eq_of_lt h.tail.head]; exact this
      | succ k =>
        obtain ⟨_, _, hw⟩ := h.tail.waits k (by omega)
        exact hw.1.request
    · have := hget 0 (by simp)
      rw [add_zero, hr] at this
      obtain rfl : r = j.r := by simpa using this
      have hj := h.front.sound
      have hlaw := law_of_stop hM h.front.exe h.front.pos h.front.base h.front.plan h.front.vMax h.front.feed (max t (u + l.duration))
      rw [h.front.doneT] at hlaw
      have g1 := hj.forward 0 u le_rfl h.front.range.1 h.front.range.2
      have g2 := hlaw.forward u t le_rfl h.since (le_max_left _ _)
      have g3 := hlaw.forward t _ h.since (le_max_left _ _) le_rfl
      have e := stopS_start h.front.plan
      rw [h.front.doneT, h.front.doneL] at e
      rw [hj.start, ← e] at g1
      have e' := stopS_after h.front.plan (t := max t (u + l.duration)) (by rw [h.front.doneT]; exact le_max_right _ _)
      rw [e'] at g3
      have := h.front.length
      have := (stop_facts h.front.base h.front.plan).2.2.1
      exact ⟨g1.trans g2, by unfold Job.L at *; linarith⟩
    · rw [show done ++ j.r :: rs ++ later = done ++ j.r :: (rs ++ later) by simp, along_mid]
      exact (h.near (.inr hm) axis ha).1
    · simp at he

private theorem connected_left {n : Nat} {l l' : List SimplifiedMotion} : ∀ {d : Nat → ℝ}, Connected n d (l ++ l') → Connected n d l := by
  induction l with
  | nil => intro d _; trivial
  | cons a l ih => intro d h; exact ⟨h.1, ih h.2⟩

/-- One call. -/
private theorem session_step (hM : M.Ok) (hs : Suited M δ (M.perTick δ)) {k : MCall M} {done todo later : List SimplifiedMotion} {s : ℝ}
    {c c' : MotionCtrl M.kit} {x} (h : Stage M δ d done todo s c)
    (hk : k = .calculate ∨ (∃ o, k = .override o) ∨ (∃ r, k = push M r ∧ c.buffer.level < 32) ∨ (k = .start ∧ CanStart M c) ∨
      (k = .stop ∧ c.state = .running ∧ CanStop M c)) (hx : c.call k = some (c', x))
    (hall : ∀ r ∈ done ++ todo ++ (appended [k] ++ later), Sensible M δ r)
    (hfeed : ∀ r ∈ done ++ todo ++ (appended [k] ++ later), (r.vFeed * c.overrides.feedOverride).Pos)
    (hcon : Connected M.n d (done ++ todo ++ (appended [k] ++ later))) (hidx : c.time.sampleIndex + x.ticks.length < 2 ^ 32) :
    ∃ done' todo' s', done' ++ todo' = done ++ todo ++ appended [k] ∧ Stage M δ d done' todo' s' c' ∧
      Further done.length s done'.length s' ∧
      (∀ axis, axis < M.n → |along d (done ++ todo ++ (appended [k] ++ later)) done'.length s' axis -
        along d (done ++ todo ++ (appended [k] ++ later)) done.length s axis| ≤ M.vMax axis * (x.ticks.length * δ)) ∧
      c'.time.sampleIndex ≤ c.time.sampleIndex + x.ticks.length ∧
      c'.overrides.feedOverride = (overrideOf k).getD c.overrides.feedOverride := by
  have hsub : ∀ r ∈ todo, r ∈ done ++ todo ++ (appended [k] ++ later) := fun r hr => by simp [hr]
  have hzero : ∀ (a : ℝ) axis, |a - a| ≤ M.vMax axis * (((0 : Nat) : ℝ) * δ) := by intro a axis; simp
  rcases hk with rfl | ⟨o, rfl⟩ | ⟨r, rfl, hl⟩ | ⟨rfl, hst⟩ | ⟨rfl, hst, hc⟩
  · simp only [call, calcNext, Option.map_eq_some_iff, Prod.exists, Prod.mk.injEq] at hx
    obtain ⟨c₀, e, ts, h2, rfl, rfl⟩ := hx
    have e0 : appended [(Call.calculate : MCall M)] = [] := rfl
    rw [e0] at *
    obtain ⟨done', todo', s', b1, b2, b3, b4, b5⟩ := h.calcLoop hM hs (rs := done ++ todo) (later := later)
      (fun r hr => hall r (List.mem_append_left _ hr)) hcon _ rfl h2 hidx
    exact ⟨done', todo', s', by simpa using b1, b2, b3, b4, b5, congrArg _ (calcLoop_overrides _ h2)⟩
  · simp only [call, Option.some.injEq, Prod.mk.injEq] at hx
    obtain ⟨rfl, rfl⟩ := hx
    exact ⟨done, todo, s, (List.append_nil _).symm, h.overrides o, .refl _ _, fun axis _ => hzero _ axis, le_rfl, rfl⟩
  · simp only [push, call, Option.some.injEq, Prod.mk.injEq] at hx
    obtain ⟨rfl, rfl⟩ := hx
    have hm : r ∈ done ++ todo ++ (appended [push M r] ++ later) := by simp [appended, push, requestOf]
    obtain ⟨a1, a2, a3⟩ := h.append hM (hall r hm).exe (hfeed r hm) hl
    exact ⟨done, todo ++ [r], s, (List.append_assoc _ _ _).symm, a1, .refl _ _, fun axis _ => hzero _ axis,
      by rw [a2]; exact le_rfl, congrArg _ a3⟩
  · simp only [call, Option.some.injEq, Prod.mk.injEq] at hx
    obtain ⟨rfl, rfl⟩ := hx
    have e0 : appended [(Call.start : MCall M)] = [] := rfl
    rw [e0] at *
    by_cases hne : todo = []
    · subst hne
      have : c.start = c := by
        have hl := (onWay hM hs.width h (by simp) hcon).level
        unfold MotionCtrl.start
        have : c.buffer.isEmpty = true := by
          unfold MotionBuffer.isEmpty
          simp at hl; simp [hl]
        simp [this]
      rw [this]
      exact ⟨done, [], s, (List.append_nil _).symm, h, .refl _ _, fun axis _ => hzero _ axis, le_rfl, rfl⟩
    · obtain ⟨j, js, u, a1, rfl, rfl, a4, a5, -⟩ := h.begin hM hst hne (connected_left hcon) (fun r hr => (hall r (hsub r hr)).exe)
        (fun r hr => hfeed r (hsub r hr))
      exact ⟨done, _, _, (List.append_nil _).symm, .moving a1, .refl _ _, fun axis _ => hzero _ axis, by rw [a4]; exact le_rfl, congrArg _ a5⟩
  · simp only [call, Option.some.injEq, Prod.mk.injEq] at hx
    obtain ⟨rfl, rfl⟩ := hx
    have e0 : appended [(Call.stop : MCall M)] = [] := rfl
    rw [e0] at *
    obtain ⟨a1, a2, a3⟩ := h.stop hM hs.width hst hc (fun r hr => hfeed r (hsub r hr))
    exact ⟨done, todo, s, (List.append_nil _).symm, a1, .refl _ _, fun axis _ => hzero _ axis, by rw [a2]; exact le_rfl, congrArg _ a3⟩

/-- All calls. -/
private theorem session_run (hM : M.Ok) (hs : Suited M δ (M.perTick δ)) (ks : List (MCall M)) :
    ∀ {rs done todo : List SimplifiedMotion} {s₀ : ℝ} {c c' : MotionCtrl M.kit} {log}, rs = done ++ todo ++ appended ks →
      Stage M δ d done todo s₀ c → Session M c ks → c.run ks = some (c', log) → (∀ r ∈ rs, Sensible M δ r) →
      (∀ r ∈ rs, ∀ o ∈ c.overrides.feedOverride :: ks.filterMap overrideOf, (r.vFeed * o).Pos) → Connected M.n d rs →
      c.time.sampleIndex + (ticksOf log).length < 2 ^ 32 →
      (∃ n : Nat → Nat, ∃ s : Nat → ℝ, n 0 = done.length ∧ s 0 = s₀ ∧
        (∀ {k c₁ log₁}, k ≤ ks.length → c.run (ks.take k) = some (c₁, log₁) →
          OnWay M δ d rs (done.length + todo.length + (appended (ks.take k)).length) (n k) (s k) c₁) ∧
        ∀ {k k'}, k ≤ k' → k' ≤ ks.length → Further (n k) (s k) (n k') (s k') ∧ ∀ axis, axis < M.n →
          |along d rs (n k') (s k') axis - along d rs (n k) (s k) axis| ≤
            M.vMax axis * ((ticksOf ((log.take k').drop k)).length * δ)) ∧
      ∃ done' todo' s', done' ++ todo' = rs ∧ Stage M δ d done' todo' s' c' ∧
        c'.time.sampleIndex ≤ c.time.sampleIndex + (ticksOf log).length ∧
        c'.overrides.feedOverride ∈ c.overrides.feedOverride :: ks.filterMap overrideOf := by
  induction ks with
  | nil =>
    intro rs done todo s₀ c c' log hrs h _ hrun hall hfeed hcon hidx
    simp only [run, Option.some.injEq, Prod.mk.injEq] at hrun
    obtain ⟨rfl, rfl⟩ := hrun
    have hrs' : rs = done ++ todo ++ [] := hrs
    refine ⟨⟨fun _ => done.length, fun _ => s₀, rfl, rfl, fun {k c₁ log₁} hk h1 => ?_, fun {k k'} hk hk' => ⟨.refl _ _, fun axis _ => ?_⟩⟩,
      done, todo, s₀, by simpa using hrs'.symm, h, Nat.le_add_right _ _, List.mem_cons_self⟩
    · simp only [List.take_nil, run, Option.some.injEq, Prod.mk.injEq] at h1
      obtain ⟨rfl, rfl⟩ := h1
      rw [hrs'] at hcon hall ⊢
      simpa [appended] using onWay hM hs.width h (fun r hr => (hall r (by simp [hr])).exe) hcon
    · rw [sub_self, abs_zero]; simp [ticksOf]
  | cons k ks ih =>
    intro rs done todo s₀ c c' log hrs h hses hrun hall hfeed hcon hidx
    rw [run] at hrun
    split at hrun
    · simp at hrun
    rename_i c₁ x hx
    simp only [Option.map_eq_some_iff, Prod.exists, Prod.mk.injEq] at hrun
    obtain ⟨c₂, g, hrun', rfl, rfl⟩ := hrun
    have hticks : ∀ g : Log M.kit.Req (Option M.kit.Req) M.kit.Time M.kit.Ovr,
      (ticksOf ((k, x) :: g)).length = x.ticks.length + (ticksOf g).length := by intro g; simp [ticksOf]
    have happ : ∀ l : List (MCall M), appended (k :: l) = appended [k] ++ appended l := by
      intro l; unfold appended; rw [← List.filterMap_append]; rfl
    rw [hticks] at hidx
    rw [happ] at hrs
    subst hrs
    obtain ⟨done', todo', s', b1, b2, b3, b4, b5, b6⟩ := session_step hM hs h hses.1 hx hall
      (fun r hr => hfeed r hr _ List.mem_cons_self) hcon (by omega)
    have hov : ∀ o ∈ c₁.overrides.feedOverride :: ks.filterMap overrideOf,
        o ∈ c.overrides.feedOverride :: (k :: ks).filterMap overrideOf := by
      intro o ho
      rw [b6] at ho
      cases hk : overrideOf k with
      | none => rw [hk] at ho; rw [List.filterMap_cons_none hk]; exact ho
      | some y => rw [hk] at ho; rw [List.filterMap_cons_some hk]; exact List.mem_cons_of_mem _ ho
    obtain ⟨⟨n, s, n0, s0, a1, a2⟩, done'', todo'', s'', e1, e2, e3, e4⟩ := ih (rs := done ++ todo ++ (appended [k] ++ appended ks))
      (by rw [b1]; simp [List.append_assoc]) b2 (hses.2 c₁ x hx) hrun' hall (fun r hr o ho => hfeed r hr o (hov o ho)) hcon (by omega)
    have hlen : done'.length + todo'.length = done.length + todo.length + (appended [k]).length := by
      have := congrArg List.length b1
      rw [List.length_append, List.length_append, List.length_append] at this; exact this
    refine ⟨⟨fun i => match i with | 0 => done.length | i + 1 => n i, fun i => match i with | 0 => s₀ | i + 1 => s i, rfl, rfl,
      fun {i c₃ log₃} hi h3 => ?_, fun {i i'} hi hi' => ?_⟩, done'', todo'', s'', e1, e2, by rw [hticks]; omega, hov _ e4⟩
    · cases i with
      | zero =>
        simp only [List.take_zero, run, Option.some.injEq, Prod.mk.injEq] at h3
        obtain ⟨rfl, rfl⟩ := h3
        exact onWay hM hs.width h (fun r hr => (hall r (by simp [hr])).exe) hcon
      | succ i =>
        rw [List.take_succ_cons, run, hx] at h3
        simp only [Option.map_eq_some_iff, Prod.exists, Prod.mk.injEq] at h3
        obtain ⟨c₄, g', h4, rfl, rfl⟩ := h3
        have := a1 (by simpa using hi) h4
        have e : (appended (k :: ks.take i)).length = (appended [k]).length + (appended (ks.take i)).length := by
          rw [happ, List.length_append]
        rw [List.take_succ_cons, e, ← add_assoc, ← hlen]; exact this
    · cases i' with
      | zero =>
        obtain rfl : i = 0 := by omega
        exact ⟨.refl _ _, fun axis _ => by rw [sub_self, abs_zero]; simp [ticksOf]⟩
      | succ i' =>
        have hi'' : i' ≤ ks.length := by simpa using hi'
        cases i with
        | zero =>
          obtain ⟨f1, f2⟩ := a2 (Nat.zero_le i') hi''
          rw [n0, s0] at f1 f2
          refine ⟨b3.trans f1, fun axis ha => ?_⟩
          have g1 := b4 axis ha
          have g2 := f2 axis ha
          rw [List.drop_zero] at g2
          rw [List.take_succ_cons, List.drop_zero, hticks]
          push_cast
          rw [abs_le] at *
          have e : M.vMax axis * (((x.ticks.length : ℝ) + (ticksOf (g.take i')).length) * δ) =
            M.vMax axis * (x.ticks.length * δ) + M.vMax axis * ((ticksOf (g.take i')).length * δ) := by ring
          rw [e]
          constructor <;> linarith [g1.1, g1.2, g2.1, g2.2]
        | succ i => exact a2 (by omega) hi''

private theorem due_run (hs : Suited M δ (M.perTick δ)) {rs : List SimplifiedMotion} (hall : ∀ r ∈ rs, Sensible M δ r)
    (hcon : Connected M.n d rs) (n : Nat) : ∀ {X : ℝ} {c c' : MotionCtrl M.kit} {log}, Due M δ d rs X c →
      c.run (List.replicate n .calculate) = some (c', log) → c.time.sampleIndex + (ticksOf log).length < 2 ^ 32 →
      Due M δ d rs (X - (ticksOf log).length * δ) c' := by
  induction n with
  | zero =>
    intro X c c' log h hrun _
    simp only [List.replicate_zero, run, Option.some.injEq, Prod.mk.injEq] at hrun
    obtain ⟨rfl, rfl⟩ := hrun
    simpa [ticksOf] using h
  | succ n ih =>
    intro X c c' log h hrun hidx
    rw [List.replicate_succ, run] at hrun
    split at hrun
    · simp at hrun
    rename_i c₁ x hx
    simp only [Option.map_eq_some_iff, Prod.exists, Prod.mk.injEq] at hrun
    obtain ⟨c₂, g, hrun', rfl, rfl⟩ := hrun
    have hticks : (ticksOf (((.calculate : MCall M), x) :: g)).length = x.ticks.length + (ticksOf g).length := by simp [ticksOf]
    rw [hticks] at hidx ⊢
    simp only [call, calcNext, Option.map_eq_some_iff, Prod.exists, Prod.mk.injEq] at hx
    obtain ⟨c₀, e, ts, h2, rfl, rfl⟩ := hx
    simp only at hidx ⊢
    obtain ⟨b1, b2⟩ := h.calcLoop hs hall hcon _ h2 (by omega)
    have := ih b1 hrun' (by omega)
    push_cast
    rwa [show X - ((ts.length : ℝ) + (ticksOf g).length) * δ = X - ts.length * δ - (ticksOf g).length * δ by ring]

end

/-! ## Theorems -/

/-- A session that begins with an idle controller near the position `d`. -/
structure InSession (M : Machine) (δ : ℝ) (d : Nat → ℝ) (c : MotionCtrl M.kit) (ks : List (MCall M)) (c' : MotionCtrl M.kit)
    (log : Log M.kit.Req (Option M.kit.Req) M.kit.Time M.kit.Ovr) : Prop where
  machine : M.Ok
  follow : CanFollow M δ (1 / 2)
  idle : Idle M δ c
  near : ∀ axis, axis < M.n → |d axis * M.stepsPerMm axis - c.machinePosition axis| ≤ 1 / 2 + M.hysteresis + travel M δ axis
  run : c.run ks = some (c', log)
  session : Session M c ks
  sensible : ∀ r ∈ appended ks, Sensible M δ r
  feed : ∀ r ∈ appended ks, ∀ o ∈ c.overrides.feedOverride :: ks.filterMap overrideOf, (r.vFeed * o).Pos
  connected : Connected M.n d (appended ks)

/-- **C91** (partial: stops and restarts during the acceleration, and those that end at the very end of a path, are excluded). `n k` motions are
over after the first `k` calls, and the distance `s k` of the next one has been travelled. -/
theorem session_partial {M : Machine} {δ : ℝ} {d : Nat → ℝ} {c c' : MotionCtrl M.kit} {ks log} (h : InSession M δ d c ks c' log)
    (hticks : (ticksOf log).length < 2 ^ 32) :
    ∃ n : Nat → Nat, ∃ s : Nat → ℝ, n 0 = 0 ∧ s 0 = 0 ∧
      (∀ {k c₁ log₁}, k ≤ ks.length → c.run (ks.take k) = some (c₁, log₁) →
        OnWay M δ d (appended ks) (appended (ks.take k)).length (n k) (s k) c₁) ∧
      ∀ {k k'}, k ≤ k' → k' ≤ ks.length → Further (n k) (s k) (n k') (s k') ∧ ∀ axis, axis < M.n →
        |along d (appended ks) (n k') (s k') axis - along d (appended ks) (n k) (s k) axis| ≤
          M.vMax axis * ((ticksOf ((log.take k').drop k)).length * δ) := by
  obtain ⟨⟨n, s, n0, s0, h1, h2⟩, -⟩ := session_run h.machine (suited h.machine h.follow) ks (rs := appended ks) (done := []) (todo := [])
    (by simp) (.parked (parked_of_idle h.idle h.near)) h.session h.run h.sensible h.feed h.connected (by rw [h.idle.index, zero_add]; exact hticks)
  exact ⟨n, s, n0, s0, fun hk hr => by simpa using h1 hk hr, h2⟩

/-- **C91**: whatever has happened before, after a `start()` (when it may be called) all motions come to their end, in the time that
they may take. -/
theorem session_ends_partial {M : Machine} {δ τ : ℝ} {d : Nat → ℝ} {c c' c'' : MotionCtrl M.kit} {ks log n log'}
    (h : InSession M δ d c ks c' log) (hst : CanStart M c')
    (hrun : c'.run (.start :: List.replicate n .calculate) = some (c'', log'))
    (hticks : (ticksOf (log ++ log')).length < 2 ^ 32)
    (hw : ∀ r ∈ appended ks, Within M r (r.vFeed * c'.overrides.feedOverride) τ) (hτ : 0 ≤ τ) (hn : (appended ks).length * τ < n * δ) :
    Idle M δ c'' ∧ ∀ axis, axis < M.n →
      |endOf d (appended ks) axis * M.stepsPerMm axis - c''.machinePosition axis| ≤ 1 / 2 + M.hysteresis + travel M δ axis := by
  have hs := suited h.machine h.follow
  have hδ := h.follow.width
  rw [ticks_append, List.length_append] at hticks
  obtain ⟨-, done, todo, s, e1, e2, e3, e4⟩ := session_run h.machine hs ks (rs := appended ks) (done := []) (todo := [])
    (by simp) (.parked (parked_of_idle h.idle h.near)) h.session h.run h.sensible h.feed h.connected (by rw [h.idle.index]; omega)
  rw [h.idle.index] at e3
  have hge := ticks_ge _ hrun
  have hcount : (Call.start :: List.replicate n (Call.calculate : MCall M)).countP Call.isCalculate = n := by
    rw [List.countP_cons, List.countP_replicate]; simp [Call.isCalculate]
  rw [hcount] at hge
  rw [run] at hrun
  simp only [call, Option.map_eq_some_iff, Prod.exists, Prod.mk.injEq] at hrun
  obtain ⟨c₂, g, hrun', rfl, rfl⟩ := hrun
  have hlog : ∀ o : Ret (Option M.kit.Req), o.ticks = [] → (ticksOf (((Call.start : MCall M), o) :: g)) = ticksOf g := by
    intro o h; simp [ticksOf, h]
  rw [hlog _ rfl] at hticks hge
  have hcon : Connected M.n d (done ++ todo) := by rw [e1]; exact h.connected
  have hsub : ∀ r ∈ todo, r ∈ appended ks := fun r hr => by rw [← e1]; exact List.mem_append_right _ hr
  have hge' : (n : ℝ) * δ ≤ (ticksOf g).length * δ := mul_le_mul_of_nonneg_right (by exact_mod_cast hge) hδ.le
  have hlen : (todo.length : ℝ) * τ ≤ (appended ks).length * τ := by
    refine mul_le_mul_of_nonneg_right ?_ hτ
    rw [← e1]; simp
  have hdue : Due M δ d (appended ks) (todo.length * τ) c'.start ∧ c'.start.time = c'.time := by
    by_cases hne : todo = []
    · subst hne
      have hl := (onWay h.machine hδ (later := []) e2 (by simp) (by simpa using hcon)).level
      have : c'.start = c' := by
        unfold MotionCtrl.start
        have : c'.buffer.isEmpty = true := by unfold MotionBuffer.isEmpty; simp at hl; simp [hl]
        simp [this]
      rw [this]
      cases e2 with
      | parked h => rw [List.append_nil] at e1; exact ⟨.inr (e1 ▸ h), rfl⟩
    · obtain ⟨j, js, u, a1, rfl, rfl, a4, a5, a6⟩ := e2.begin h.machine hst hne hcon (fun r hr => (h.sensible r (hsub r hr)).exe)
        (fun r hr => h.feed r (hsub r hr) _ e4)
      exact ⟨.inl ⟨done, j, js, u, e1, a1, a6 τ fun r hr => hw r (hsub r hr)⟩, a4⟩
  have := (due_run hs h.sensible h.connected n hdue.1 hrun' (by rw [hdue.2]; omega)).over (by linarith)
  exact ⟨idle_of_parked hδ this, this.near⟩

/-- While a program is executed (C74), there is room to stop (`CanStop`) whenever the acceleration is over and what is left of the
path is longer than what is needed to come to rest. -/
theorem program_can_stop {M : Machine} {δ : ℝ} {d : Nat → ℝ} {c c' : MotionCtrl M.kit} {rs ks log}
    (h : Performs M δ d c rs ks c' log) :
    ∃ js : List Job, js.map (fun j => (j.r, j.f)) = program c.overrides.feedOverride rs ks ∧ (∀ j ∈ js, j.Ok M) ∧
      ∀ {j js' u}, rest js ((ticksOf log).length * δ) = (j :: js', u) → c'.state = .running ∧
        (j.Settled u → ∀ v a, Allowed M j.r v a → j.V u * max (√(j.V u / M.jMax)) (j.V u / a) < j.L - j.S u → CanStop M c') := by
  obtain ⟨c₀, log₀, h₀, hf, hrun⟩ := h.run
  have hM := h.machine
  have hs := suited hM h.follow
  obtain ⟨-, js, h1, h2, -, h4, -, h5⟩ := executed hM hs h.idle h.some h.fit h.executable h.feed h.near h₀ hf hrun
  have hmem : ∀ j ∈ js, (j.r, j.f) ∈ program c.overrides.feedOverride rs ks := fun j hj => by
    rw [← h1]; exact List.mem_map_of_mem (f := fun j : Job => (j.r, j.f)) hj
  have hmap : js.map Job.r = (program c.overrides.feedOverride rs ks).map Prod.fst := by
    rw [← h1, List.map_map]; rfl
  have hg : Good M δ (M.perTick δ) d js := ⟨fun j hj => ⟨Job.short_of (h2 j hj) (h.motions _ (hmem j hj)).2.1,
    (h.motions _ (hmem j hj)).2.2⟩, by rw [hmap]; exact h.connected,
    .inr ⟨fun _ _ => rfl, fun j hj => Job.long_of (h2 j hj).toSound (h.motions _ (hmem j hj)).1⟩⟩
  refine ⟨js, h1, h2, fun {j js' u} hrest => ?_⟩
  have hex := h5 hg
  unfold Exec at hex
  rw [hrest] at hex
  simp only at hex
  have hr := hex.queue.getHead
  refine ⟨hex.state, fun hset v a hall hroom => ⟨?_, j.r, j.S u, j.V u, v, a, hr.request, ?_, ?_, hall, hroom⟩⟩ <;> rw [hex.clock.now]
  · exact hr.pastLeft (rested hM h.idle h.some h.fit h.executable h.feed h₀ hf hrun (by rw [hex.queue.level]; simp)) hex.nonneg hex.le hset
  · exact hr.s u hex.line.begun
  · exact hr.v u hex.line.begun

/-- A session in two parts. -/
theorem session_append {M : Machine} (ks₁ ks₂ : List (MCall M)) : ∀ {c : MotionCtrl M.kit}, Session M c ks₁ →
    (∀ c' log, c.run ks₁ = some (c', log) → Session M c' ks₂) → Session M c (ks₁ ++ ks₂) := by
  induction ks₁ with
  | nil => intro c _ h; exact h c [] rfl
  | cons k ks ih =>
    intro c h1 h2
    refine ⟨h1.1, fun c' x hx => ih (h1.2 c' x hx) fun c'' log hrun => h2 c'' ((k, x) :: log) ?_⟩
    rw [run, hx]; simp [hrun]

theorem session_calculate {M : Machine} (n : Nat) : ∀ c : MotionCtrl M.kit, Session M c (List.replicate n .calculate) := by
  induction n with
  | zero => intro c; trivial
  | succ n ih => intro c; exact ⟨.inl rfl, fun c' _ _ => ih c'⟩

/-! ## Example -/

namespace ExecuteExample
open Example

theorem within_far : Within machine far (far.vFeed * fin 1) 20 :=
  ⟨1, 1, allowed_far, by rw [feed_far, le_fin]; norm_num, by rw [length_far]; norm_num, by rw [length_far]; norm_num⟩

/-- C91: a session with the motion of 10 mm at 1 mm/s and 8000 ticks per second. `stop()` is called after 3 seconds, at a moment that
`CanStop` allows; after the session the controller is stopped with the motion in the queue, and after `start()` it gets to 10 mm. -/
example : ∃ c' c'' log log', InSession machine (1 / 8000) (fun _ => 0) ((fresh machine.kit).configure 1 (fin (1 / 8000)))
      ((([far].map (push machine) ++ [.start]) ++ List.replicate 24000 .calculate) ++ (.stop :: List.replicate 16001 .calculate)) c' log ∧
    (ticksOf log).length = 40001 ∧ c'.state = .stopped ∧ c'.buffer.level = 1 ∧
    c'.run (.start :: List.replicate 160001 .calculate) = some (c'', log') ∧ Idle machine (1 / 8000) c'' ∧
    1999 ≤ c''.machinePosition 0 ∧ c''.machinePosition 0 ≤ 2001 := by
  obtain ⟨c'', l, hrun, -⟩ := motion_history_returns (K := machine.kit)
    ([.configure 1 (fin (1 / 8000))] ++ (((([far].map (push machine) ++ [.start]) ++ List.replicate 24000 .calculate) ++
      (.stop :: List.replicate 16001 .calculate)) ++ (.start :: List.replicate 160001 .calculate)))
  obtain ⟨cc, l₁, l₂, h1, h2, -⟩ := run_split (K := machine.kit) _ _ hrun
  simp only [run, call, Option.map_some, Option.some.injEq, Prod.mk.injEq] at h1
  obtain ⟨rfl, -⟩ := h1
  obtain ⟨c', log, log', hses, hend, -⟩ := run_split (K := machine.kit) _ _ h2
  obtain ⟨c₀, log₀, log₁, hrun₀, hrun₁, elog⟩ := run_split (K := machine.kit) _ _ hses
  obtain ⟨cs, l₃, l₄, h3, h4, elog₀⟩ := run_split (K := machine.kit) _ _ hrun₀
  have hfeed : (fresh machine.kit |>.configure 1 (fin (1 / 8000))).overrides.feedOverride = fin 1 := rfl
  have hpos : (fresh machine.kit |>.configure 1 (fin (1 / 8000))).machinePosition = fun _ => 0 := rfl
  have hprog : ∀ n, program (M := machine) (fin 1) [far] (List.replicate n .calculate) = [(far, far.vFeed * fin 1)] := by
    intro n
    show [(far, far.vFeed * fin 1)] ++ requested (M := machine) _ _ = _
    rw [requested_calculate]; rfl
  have hfpos : (far.vFeed * fin 1).Pos := by rw [feed_far]; norm_num [Num.Pos]
  have hfollow : CanFollow machine (1 / 8000) (1 / 2) := ⟨by norm_num, by norm_num [machine], fun _ _ => by norm_num [machine],
      fun _ _ => by norm_num [travel, machine]⟩
  have hnear : ∀ axis, axis < machine.n → |(0 : ℝ) * machine.stepsPerMm axis -
      ((fresh machine.kit |>.configure 1 (fin (1 / 8000))).machinePosition axis : ℝ)| ≤
        1 / 2 + machine.hysteresis + travel machine (1 / 8000) axis := by
    intro axis ha; rw [hpos]; norm_num [machine, travel]
  have hconn : Connected machine.n (fun _ => 0) [far] := ⟨fun axis ha => by rw [far_axis axis ha]; exact place_far 0, trivial⟩
  have hp : Performs machine (1 / 8000) (fun _ => 0) ((fresh machine.kit).configure 1 (fin (1 / 8000))) [far]
      (List.replicate 24000 .calculate) c₀ l₄ := by
    refine ⟨machine_ok, hfollow, idle_configured machine 1 (1 / 8000), by simp, by simp,
      by simpa using executable_far, ?_, hnear, ⟨cs, l₃, h3, feeds_calculate _ _, h4⟩, ?_, ?_⟩
    · intro r hr
      rw [List.mem_singleton.1 hr, hfeed]; exact hfpos
    · rw [hfeed, hprog]; exact hconn
    · rw [hfeed]
      intro x hx
      rw [hprog, List.mem_singleton] at hx
      rw [hx]
      exact ⟨long_far (by norm_num), brief_far (by norm_num), reachable_far⟩
  -- one tick per call
  have o₁ : OneTick (K := machine.kit) ⟨fin 1, fin 1⟩ ((fresh machine.kit).configure 1 (fin (1 / 8000))) :=
    ⟨⟨rfl, by show 1 % 4294967296 < 4294967296; norm_num⟩, rfl, rfl⟩
  have e3 : cs = (((fresh machine.kit).configure 1 (fin (1 / 8000))).append far).start ∧ ticksOf l₃ = [] := by
    simp only [List.map_cons, List.map_nil, List.cons_append, List.nil_append, push, run, call, Option.map_some,
      Option.some.injEq, Prod.mk.injEq] at h3
    refine ⟨h3.1.symm, ?_⟩
    rw [← h3.2]; rfl
  have o₂ := (o₁.append far).start
  rw [← e3.1] at o₂
  obtain ⟨n₀, o₃⟩ := o₂.run _ h4
  have n₀' : ((ticksOf l₄).length : ℝ) * (1 / 8000) = 3 := by rw [n₀]; norm_num
  have hrun₁' := hrun₁
  rw [run] at hrun₁'
  simp only [call, Option.map_eq_some_iff, Prod.exists, Prod.mk.injEq] at hrun₁'
  obtain ⟨c₁', g₁, h5, rfl, hlog₁⟩ := hrun₁'
  obtain ⟨n₁, o₄⟩ := o₃.stop.run _ h5
  have n₁' : (ticksOf log₁).length = 16001 := by rw [← hlog₁, ← n₁]; simp [ticksOf]
  have hend' := hend
  rw [run] at hend'
  simp only [call, Option.map_eq_some_iff, Prod.exists, Prod.mk.injEq] at hend'
  obtain ⟨c₂', g₂, h6, rfl, hlog₂⟩ := hend'
  obtain ⟨n₂, -⟩ := o₄.start.run _ h6
  have n₂' : (ticksOf log').length = 160001 := by rw [← hlog₂, ← n₂]; simp [ticksOf]
  have n₃ : (ticksOf log).length = 40001 := by
    rw [elog, elog₀, ticks_append, ticks_append, e3.2, List.length_append, List.length_append, n₀, n₁']; rfl
  -- the stop
  obtain ⟨js, j1, j2, j3⟩ := program_can_stop hp
  rw [hfeed, hprog] at j1
  obtain ⟨j, rfl⟩ : ∃ j, js = [j] := List.length_eq_one_iff.1 (by simpa using congrArg List.length j1)
  simp only [List.map_cons, List.map_nil, List.cons.injEq, Prod.mk.injEq, and_true] at j1
  obtain ⟨hr, hf⟩ := j1
  rw [feed_far] at hf
  have hok := j2 j List.mem_cons_self
  have hL : j.L = 10 := by unfold Job.L; rw [hr]; exact length_far
  have hT : 10 ≤ j.T := by
    have := hok.feed 1 hf 0 j.T le_rfl hok.pos.le le_rfl
    rw [hok.start, hok.finish, hL] at this; linarith
  rw [n₀'] at j3
  obtain ⟨hst, hcan⟩ := j3 (show rest [j] 3 = ([j], 3) by unfold rest; rw [if_pos (by linarith)])
  have hV : j.V 3 ≤ 1 := hok.toLaw.v_le hf zero_le_one (by norm_num) (by linarith)
  have hS : j.S 3 ≤ 3 := by
    have := hok.feed 1 hf 0 3 le_rfl (by norm_num) (by linarith)
    rw [hok.start] at this; linarith
  have hm : max (√(j.V 3 / machine.jMax)) (j.V 3 / 1) ≤ 1 :=
    max_le (Real.sqrt_le_one.2 (by simpa [machine] using hV)) (by linarith)
  have hcan := hcan (hok.settled (hr ▸ allowed_far) hf zero_le_one machine_ok.jMax (by norm_num [machine])) 1 1 (hr ▸ allowed_far) (by
    rw [hL]
    have h0 : 0 ≤ max (√(j.V 3 / machine.jMax)) (j.V 3 / 1) := (Real.sqrt_nonneg _).trans (le_max_left _ _)
    nlinarith)
  have happ : appended (M := machine) ((([far].map (push machine) ++ [.start]) ++ List.replicate 24000 .calculate) ++
      (.stop :: List.replicate 16001 .calculate)) = [far] := by
    have h0 : ∀ n, appended (M := machine) (List.replicate n .calculate) = [] := by intro n; simp [appended, requestOf]
    unfold appended at h0 ⊢
    rw [List.filterMap_append, List.filterMap_append, h0, List.append_nil, List.filterMap_cons_none (f := requestOf) rfl, h0]
    rfl
  have hovr : List.filterMap overrideOf ((([far].map (push machine) ++ [.start]) ++ List.replicate 24000 .calculate) ++
      (.stop :: List.replicate 16001 .calculate)) = [] := by
    have h0 : ∀ n, List.filterMap (overrideOf (M := machine)) (List.replicate n .calculate) = [] := by intro n; simp [overrideOf]
    rw [List.filterMap_append, List.filterMap_append, h0, List.append_nil, List.filterMap_cons_none (f := overrideOf) rfl, h0]
    rfl
  have hses' : InSession machine (1 / 8000) (fun _ => 0) ((fresh machine.kit).configure 1 (fin (1 / 8000)))
      ((([far].map (push machine) ++ [.start]) ++ List.replicate 24000 .calculate) ++ (.stop :: List.replicate 16001 .calculate))
      c₁' log := by
    refine ⟨machine_ok, hfollow, idle_configured machine 1 (1 / 8000), hnear, hses, ?_, ?_, ?_, ?_⟩
    · refine session_append _ _ (session_append _ _ ?_ fun c _ _ => session_calculate _ c) fun c log hc => ?_
      · refine ⟨.inr (.inr (.inl ⟨far, rfl, by show (0 : Nat) < 32; norm_num⟩)), fun c x hx => ⟨.inr (.inr (.inr (.inl ⟨rfl, .inl ?_⟩))),
          fun _ _ _ => trivial⟩⟩
        simp only [push, call, Option.some.injEq, Prod.mk.injEq] at hx
        rw [← hx.1]
        rfl
      · rw [hrun₀] at hc
        simp only [Option.some.injEq, Prod.mk.injEq] at hc
        rw [← hc.1]
        exact ⟨.inr (.inr (.inr (.inr ⟨rfl, hst, hcan⟩))), fun c _ _ => session_calculate _ c⟩
    · rw [happ]; intro r hr; rw [List.mem_singleton.1 hr]; exact ⟨executable_far, long_far (by norm_num), reachable_far⟩
    · rw [happ, hfeed, hovr]
      intro r hr o ho
      rw [List.mem_singleton.1 hr, List.mem_singleton.1 ho]; exact hfpos
    · rw [happ]; exact hconn
  -- how it ends
  obtain ⟨hstop, hlevel⟩ : c₁'.state = .stopped ∧ c₁'.buffer.level = 1 := by
    obtain ⟨js, j1, j2, -, j4⟩ := program_stops_and_resumes_partial hp
      (by
        intro x hx
        rw [hfeed, hprog, List.mem_singleton] at hx
        have : c₀.overrides.feedOverride = fin 1 := congrArg _ o₃.overrides
        rw [hx, this]; exact hfpos)
      (by
        intro x hx
        rw [hfeed, hprog, List.mem_singleton] at hx
        rw [hx]; exact brief_far (by norm_num))
    rw [hfeed, hprog] at j1
    obtain ⟨j, rfl⟩ : ∃ j, js = [j] := List.length_eq_one_iff.1 (by simpa using congrArg List.length j1)
    simp only [List.map_cons, List.map_nil, List.cons.injEq, Prod.mk.injEq, and_true] at j1
    obtain ⟨hr, hf⟩ := j1
    rw [feed_far] at hf
    have hok := j2 j List.mem_cons_self
    have hL : j.L = 10 := by unfold Job.L; rw [hr]; exact length_far
    have hT : 10 ≤ j.T := by
      have := hok.feed 1 hf 0 j.T le_rfl hok.pos.le le_rfl
      rw [hok.start, hok.finish, hL] at this; linarith
    rw [n₀'] at j4
    obtain ⟨k, hk, hstop⟩ := j4 (show rest [j] 3 = ([j], 3) by unfold rest; rw [if_pos (by linarith)])
      (hok.settled (hr ▸ allowed_far) hf zero_le_one machine_ok.jMax (by norm_num [machine]))
    have hw : ∀ (n : Nat) (c : MotionCtrl machine.kit), Waiting machine c (List.replicate n .calculate) := by
      intro n
      induction n with
      | zero => intro c; trivial
      | succ n ih => intro c; exact ⟨.inl rfl, fun c' x _ => ih c'⟩
    obtain ⟨hh, -, -⟩ := hstop hrun₁ (hw _ _)
    have hV : j.V 3 ≤ 1 := hok.toLaw.v_le hf zero_le_one (by norm_num) (by linarith)
    have hE : k.E ≤ 5 := by
      have := hk.quick 1 1 (hr ▸ allowed_far)
      have m1 : max (√(j.V 3 / machine.jMax)) (j.V 3 / 1) ≤ 1 :=
        max_le (Real.sqrt_le_one.2 (by simpa [machine] using hV)) (by linarith)
      linarith
    refine ⟨(hh.stopped (by rw [n₁']; norm_num; linarith)).1, ?_⟩
    have := hh.level
    have e : ∀ n, appended (M := machine) (List.replicate n .calculate) = [] := by intro n; simp [appended, requestOf]
    rw [e] at this
    exact this
  obtain ⟨hi, hn⟩ := session_ends_partial (τ := 20) hses' (.inl hstop) hend (by rw [ticks_append, List.length_append, n₃, n₂']; norm_num)
    (by
      rw [happ]
      intro r hr
      have : c₁'.overrides.feedOverride = fin 1 := congrArg _ o₄.overrides
      rw [List.mem_singleton.1 hr, this]
      exact within_far) (by norm_num) (by rw [happ]; norm_num)
  refine ⟨c₁', c₂', log, log', hses', n₃, hstop, hlevel, hend, hi, ?_⟩
  have := hn 0 one_pos
  rw [happ] at this
  change |place far 0 10 * _ - _| ≤ _ at this
  rw [place_far, abs_le] at this
  norm_num [machine, travel] at this
  have h3 : ((1998 : Int) : ℝ) < c₂'.machinePosition 0 := by push_cast; linarith [this.2]
  have h4 : (c₂'.machinePosition 0 : ℝ) < ((2002 : Int) : ℝ) := by push_cast; linarith [this.1]
  have h3 := Int.cast_lt.1 h3
  have h4 := Int.cast_lt.1 h4
  omega

end ExecuteExample

end Moovr.Props
