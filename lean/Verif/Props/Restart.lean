import Verif.Props.Session
/-!
# A new feed override takes effect at the next `start()` (C123)

The overrides are read by the planner only. A motion in progress has been planned with the override at the time it was appended or
started; `start()` plans the whole queue again, also while the controller is running.
-/
namespace Moovr.Props
open Num ExecSpec MotionCtrl MotionSpec

/-- The overrides `o` are set in the state `c`, while the motion `j` is in progress since the time `u` and the motions `rs` wait
behind it; then `start()` is called. The motion in progress goes on with the new feed rate, and then the motions behind it are made
with theirs, and those appended later. (The hypotheses on the motions are those of C74, with the new override, and with half the time
that the tick counter allows.) -/
def Adapts (M : Machine) (δ : ℝ) (j : Job) (rs : List SimplifiedMotion) (u : ℝ) (o : Overrides) (c : MotionCtrl M.kit) : Prop :=
  ∃ j' js, Replans M j u (j.r.vFeed * o.feedOverride) j' ∧
    js.map (fun j => (j.r, j.f)) = rs.map (fun r => (r, r.vFeed * o.feedOverride)) ∧ (∀ j ∈ js, j.Ok M) ∧
    ∀ {ks : List (MCall M)} {c' log}, c.run (.override o :: .start :: ks) = some (c', log) →
      Feeds M (MotionCtrl.start (K := M.kit) { c with overrides := o }) ks →
      Connected M.n (fun axis => place j.r axis 0) (j.r :: rs ++ appended ks) →
      (∀ x ∈ program o.feedOverride (j.r :: rs) ks, Long M δ x.1 ∧ Brief M (δ / 2) x.1 x.2 ∧ Reachable M x.1) →
      ∃ js', js'.map (fun j => (j.r, j.f)) = requested o.feedOverride ks ∧ (∀ j ∈ js', j.Ok M) ∧
        Executes M δ (fun axis => place j.r axis 0) (j' :: js ++ js') (u + (ticksOf log).length * δ) c' ∧
        (total (j' :: js ++ js') < u + ks.countP Call.isCalculate * δ → Idle M δ c' ∧ ∀ axis, axis < M.n →
          |endOf (fun axis => place j.r axis 0) (j.r :: rs ++ appended ks) axis * M.stepsPerMm axis - c'.machinePosition axis| ≤
            1 / 2 + M.hysteresis + travel M δ axis)

/-! ## Proof -/

private theorem adapts {M : Machine} {δ : ℝ} (hM : M.Ok) (hs : Suited M δ (travel M δ)) {c : MotionCtrl M.kit} {j : Job} {js₀ : List Job}
    {u : ℝ} (h : Running M δ (travel M δ) j js₀ u c) (hpl : c.buffer.getHead.prof.PastLeft (fin u)) (hroom : j.S u < j.L)
    (hr : ∀ r ∈ js₀.map Job.r, Executable M.n r) {o : Overrides}
    (ho : ∀ r ∈ j.r :: js₀.map Job.r, (r.vFeed * o.feedOverride).Pos) (hT : u + δ / 2 < 2 ^ 32 * (δ / 2)) :
    Adapts M δ j (js₀.map Job.r) u o c := by
  obtain ⟨c₁, hc₁⟩ : ∃ c₁ : MotionCtrl M.kit, c₁ = { c with overrides := o } := ⟨_, rfl⟩
  have hov : c₁.overrides.feedOverride = o.feedOverride := by rw [hc₁]
  have hrun₁ : Running M δ (travel M δ) j js₀ u c₁ := by
    rw [hc₁]; exact ⟨h.state, h.line, h.clock, h.nonneg, h.le, h.near⟩
  obtain ⟨j', js, g1, g2, g3, g4, g5, -⟩ := restart hrun₁ (by rw [hc₁]; exact hpl) hroom hr (by rw [hov]; exact ho)
  rw [hov] at g1 g2
  have hj := h.queue.getHead.ok
  generalize js₀.map Job.r = rs at *
  refine ⟨j', js, g1, g2, g3, fun {ks c' log} hrun hf hcon hall => ?_⟩
  have hδ := hs.width
  rw [run] at hrun
  simp only [call, Option.map_eq_some_iff, Prod.exists, Prod.mk.injEq] at hrun
  obtain ⟨c₂, g₀, hrun, rfl, rfl⟩ := hrun
  rw [← hc₁] at hrun hf
  rw [run] at hrun
  simp only [call, Option.map_eq_some_iff, Prod.exists, Prod.mk.injEq] at hrun
  obtain ⟨c₃, g, hrun, rfl, rfl⟩ := hrun
  have hgr := g1.request
  have hstart : Exec M δ (travel M δ) (fun axis => place j.r axis 0) (j' :: js) u c₁.start := by
    unfold Exec
    rw [rest, if_pos g1.later.le]
    exact g4
  obtain ⟨js', a1, a2, a3, a4, -⟩ := exec_run hM hs ks (fun _ => hstart) hf hrun
  rw [g5, hov] at a1
  have hcount : ∀ ov, (requested (M := M) ov ks).map Prod.fst = appended ks := by
    clear hrun hf hcon hall a1
    induction ks with
    | nil => intro; rfl
    | cons k ks ih =>
      intro ov
      unfold requested appended
      cases hk : requestOf k with
      | none => simp only [List.filterMap_cons, hk]; exact ih _
      | some r => simp only [List.filterMap_cons, hk, List.map_cons]; rw [ih]; rfl
  have hmapr : js.map Job.r = rs := by
    have := congrArg (List.map Prod.fst) g2
    rw [List.map_map, List.map_map] at this
    simpa [Function.comp_def] using this
  have hmapr' : js'.map Job.r = appended ks := by
    rw [← hcount o.feedOverride, ← a1, List.map_map]; rfl
  have hlist : (j' :: js ++ js').map Job.r = j.r :: rs ++ appended ks := by
    simp [hmapr, hmapr', hgr]
  have e : (2 : ℝ) ^ 32 * δ = 2 ^ 32 * (δ / 2) + 2 ^ 32 * (δ / 2) := by ring
  have hfit : ∀ a ∈ j' :: js ++ js', Fits M δ a ∧ δ ≤ a.T := by
    intro a ha
    have hprog : ∀ y ∈ js ++ js', (y.r, y.f) ∈ program o.feedOverride (j.r :: rs) ks := by
      intro y hy
      unfold program
      rcases List.mem_append.1 hy with hy | hy
      · refine List.mem_append_left _ (List.mem_cons_of_mem _ ?_)
        rw [← g2]; exact List.mem_map_of_mem (f := fun j : Job => (j.r, j.f)) hy
      · refine List.mem_append_right _ ?_
        rw [← a1]; exact List.mem_map_of_mem (f := fun j : Job => (j.r, j.f)) hy
    have hok : ∀ y ∈ js ++ js', y.Ok M := fun y hy => (List.mem_append.1 hy).elim (g3 y) (a2 y)
    rw [List.cons_append] at ha
    rcases List.mem_cons.1 ha with rfl | ha
    · obtain ⟨b1, ⟨v, acc, c1, c2, c3, c4⟩, b3⟩ := hall (j.r, j.r.vFeed * o.feedOverride)
        (List.mem_append_left _ List.mem_cons_self)
      have h0 := hj.forward 0 u le_rfl h.nonneg h.le
      rw [hj.start] at h0
      have hsn := g1.soon h0 hroom c1 c2 c3
      change 2 * j.L / v + δ / 2 < 2 ^ 32 * (δ / 2) at c4
      refine ⟨⟨?_, ?_⟩, Job.long_of g1.sound (by rw [hgr]; exact b1)⟩
      · rw [e]; linarith
      · unfold Job.L; rw [hgr]; exact b3
    · obtain ⟨b1, b2, b3⟩ := hall _ (hprog a ha)
      refine ⟨⟨?_, b3⟩, Job.long_of (hok a ha).toSound b1⟩
      refine Job.short_of (hok a ha) ?_
      obtain ⟨v, acc, c1, c2, c3, c4⟩ := b2
      refine ⟨v, acc, c1, c2, c3, ?_⟩
      have : (0 : ℝ) < (2 ^ 32 - 1) * (δ / 2) := mul_pos (by norm_num) (by linarith)
      simp only at c4 ⊢
      rw [e]; linarith
  have hgood : Good M δ (travel M δ) (fun axis => place j.r axis 0) (j' :: js ++ js') :=
    ⟨fun a ha => (hfit a ha).1, by rw [hlist]; exact hcon, .inr ⟨fun _ _ => rfl, fun a ha => (hfit a ha).2⟩⟩
  have hTn : ∀ a ∈ j' :: js ++ js', 0 ≤ a.T := fun a ha => hδ.le.trans (hfit a ha).2
  have hlog : ∀ (k : MCall M) (o : Ret (Option M.kit.Req)) (g : Log M.kit.Req (Option M.kit.Req) M.kit.Time M.kit.Ovr), o.ticks = [] →
      (ticksOf ((k, o) :: g)) = ticksOf g := by
    intro k o g h; simp [ticksOf, h]
  have hex := executes_of_exec hs (by simp) hTn (a3 hgood)
  refine ⟨js', a1, a2, ?_, fun htot => ?_⟩
  · rw [hlog _ _ _ rfl, hlog _ _ _ rfl]; exact hex
  · have hge := ticks_ge ks hrun
    have ht' : total (j' :: js ++ js') < u + (ticksOf g).length * δ :=
      htot.trans_le (by
        have : (ks.countP Call.isCalculate : ℝ) * δ ≤ (ticksOf g).length * δ :=
          mul_le_mul_of_nonneg_right (by exact_mod_cast hge) hδ.le
        linarith)
    refine ⟨hex.done ht', fun axis ha => ?_⟩
    have := hex.near axis ha
    rw [placeAt_done ((rest_total (by simp) hTn).2 ht'), hlist] at this
    exact this

/-! ## C123 -/

/-- **C123** (partial: `start()` during the acceleration is excluded). -/
theorem program_adapts_partial {M : Machine} {δ : ℝ} {d : Nat → ℝ} {c c' : MotionCtrl M.kit} {rs ks log}
    (h : Performs M δ d c rs ks c' log) {o : Overrides}
    (hfeed : ∀ x ∈ program c.overrides.feedOverride rs ks, (x.1.vFeed * o.feedOverride).Pos)
    (hbrief : ∀ x ∈ program c.overrides.feedOverride rs ks, Brief M (δ / 2) x.1 x.2) :
    ∃ js : List Job, js.map (fun j => (j.r, j.f)) = program c.overrides.feedOverride rs ks ∧ (∀ j ∈ js, j.Ok M) ∧
      Executes M δ d js ((ticksOf log).length * δ) c' ∧
      ∀ {j js' u}, rest js ((ticksOf log).length * δ) = (j :: js', u) → j.Settled u → j.S u < j.L →
        Adapts M δ j (js'.map Job.r) u o c' := by
  obtain ⟨c₀, log₀, h₀, hf, hrun⟩ := h.run
  have hm := h.follow
  have hM := h.machine
  have hpos : ∀ axis, axis < M.n → 0 ≤ travel M δ axis := fun axis ha =>
    mul_nonneg (mul_nonneg (hM.vMax axis ha).le hm.width.le) (hm.steps axis ha)
  have hs : Suited M δ (travel M δ) := ⟨hm.width, hm.hysteresis, hm.steps, hpos, fun axis ha => le_rfl,
    fun axis ha => by have := hm.rate axis ha; unfold Machine.perTick; unfold travel at this ⊢; linarith⟩
  obtain ⟨-, js, h1, h2, h3, h4, -, h5⟩ := executed hM hs h.idle h.some h.fit h.executable h.feed h.near h₀ hf hrun
  have hmem : ∀ j ∈ js, (j.r, j.f) ∈ program c.overrides.feedOverride rs ks := fun j hj => by
    rw [← h1]; exact List.mem_map_of_mem (f := fun j : Job => (j.r, j.f)) hj
  have hmap : js.map Job.r = (program c.overrides.feedOverride rs ks).map Prod.fst := by
    rw [← h1, List.map_map]; rfl
  have hg : Good M δ (travel M δ) d js := ⟨fun j hj => ⟨Job.short_of (h2 j hj) (h.motions _ (hmem j hj)).2.1,
    (h.motions _ (hmem j hj)).2.2⟩, by rw [hmap]; exact h.connected,
    .inr ⟨fun _ _ => rfl, fun j hj => Job.long_of (h2 j hj).toSound (h.motions _ (hmem j hj)).1⟩⟩
  refine ⟨js, h1, h2, h3 hg, fun {j js' u} hrest hset hroom => ?_⟩
  have hex := h5 hg
  unfold Exec at hex
  rw [hrest] at hex
  simp only at hex
  have hsub : ∀ a ∈ j :: js', a ∈ js := fun a ha => rest_mem (t := (ticksOf log).length * δ) (by rw [hrest]; exact ha)
  have hj := hsub j List.mem_cons_self
  have hpl := hex.queue.getHead.pastLeft
    (rested hM h.idle h.some h.fit h.executable h.feed h₀ hf hrun (by rw [hex.queue.level]; simp)) hex.nonneg hex.le hset
  refine adapts hM hs hex hpl hroom ?_ ?_ ?_
  · intro r hr
    obtain ⟨a, ha, rfl⟩ := List.mem_map.1 hr
    exact h4 a (hsub a (List.mem_cons_of_mem _ ha))
  · intro r hr
    rw [← List.map_cons] at hr
    obtain ⟨a, ha, rfl⟩ := List.mem_map.1 hr
    exact hfeed _ (hmem a (hsub a ha))
  · have := Job.short_of (h2 j hj) (hbrief _ (hmem j hj))
    linarith [hex.le]

/-- While a program is executed (C74), `start()` may be called (`CanStart`, C91) whenever the acceleration is over and the end of the
motion is not yet reached. -/
theorem program_can_start {M : Machine} {δ : ℝ} {d : Nat → ℝ} {c c' : MotionCtrl M.kit} {rs ks log}
    (h : Performs M δ d c rs ks c' log) :
    ∃ js : List Job, js.map (fun j => (j.r, j.f)) = program c.overrides.feedOverride rs ks ∧ (∀ j ∈ js, j.Ok M) ∧
      ∀ {j js' u}, rest js ((ticksOf log).length * δ) = (j :: js', u) → c'.state = .running ∧
        (j.Settled u → j.S u < j.L → CanStart M c') := by
  obtain ⟨c₀, log₀, h₀, hf, hrun⟩ := h.run
  have hm := h.follow
  have hM := h.machine
  have hpos : ∀ axis, axis < M.n → 0 ≤ travel M δ axis := fun axis ha =>
    mul_nonneg (mul_nonneg (hM.vMax axis ha).le hm.width.le) (hm.steps axis ha)
  have hs : Suited M δ (travel M δ) := ⟨hm.width, hm.hysteresis, hm.steps, hpos, fun axis ha => le_rfl,
    fun axis ha => by have := hm.rate axis ha; unfold Machine.perTick; unfold travel at this ⊢; linarith⟩
  obtain ⟨-, js, h1, h2, -, h4, -, h5⟩ := executed hM hs h.idle h.some h.fit h.executable h.feed h.near h₀ hf hrun
  have hmem : ∀ j ∈ js, (j.r, j.f) ∈ program c.overrides.feedOverride rs ks := fun j hj => by
    rw [← h1]; exact List.mem_map_of_mem (f := fun j : Job => (j.r, j.f)) hj
  have hmap : js.map Job.r = (program c.overrides.feedOverride rs ks).map Prod.fst := by
    rw [← h1, List.map_map]; rfl
  have hg : Good M δ (travel M δ) d js := ⟨fun j hj => ⟨Job.short_of (h2 j hj) (h.motions _ (hmem j hj)).2.1,
    (h.motions _ (hmem j hj)).2.2⟩, by rw [hmap]; exact h.connected,
    .inr ⟨fun _ _ => rfl, fun j hj => Job.long_of (h2 j hj).toSound (h.motions _ (hmem j hj)).1⟩⟩
  refine ⟨js, h1, h2, fun {j js' u} hrest => ?_⟩
  have hex := h5 hg
  unfold Exec at hex
  rw [hrest] at hex
  simp only at hex
  have hr := hex.queue.getHead
  refine ⟨hex.state, fun hset hroom => .inr ⟨hex.state, ?_, j.r, j.S u, hr.request, ?_, hroom⟩⟩ <;> rw [hex.clock.now]
  · exact hr.pastLeft (rested hM h.idle h.some h.fit h.executable h.feed h₀ hf hrun (by rw [hex.queue.level]; simp)) hex.nonneg hex.le hset
  · exact hr.s u hex.line.begun

/-! ## Example -/

namespace ExecuteExample
open Example

/-- C123: the motion of 10 mm at 1 mm/s, with 8000 ticks per second. After 3 seconds the feed override is set to 50 % and `start()` is
called; 9 seconds later the machine has not got to 8.6 mm, but 40 seconds after the change it is at 10 mm. -/
example : ∃ c₀ c₁ c₂ log₀ log₁ log₂, ((fresh machine.kit).configure 1 (fin (1 / 8000))).run
      (([far].map (push machine) ++ [.start]) ++ List.replicate 24000 .calculate) = some (c₀, log₀) ∧ c₀.state = .running ∧
    c₀.run (.override (⟨fin (1 / 2), fin 1⟩ : Overrides) :: .start :: List.replicate 72000 .calculate) = some (c₁, log₁) ∧
    c₁.state = .running ∧ c₁.machinePosition 0 < 1720 ∧
    c₀.run (.override (⟨fin (1 / 2), fin 1⟩ : Overrides) :: .start :: List.replicate 320001 .calculate) = some (c₂, log₂) ∧
    c₂.state = .stopped ∧ c₂.buffer.level = 0 ∧ 1999 ≤ c₂.machinePosition 0 ∧ c₂.machinePosition 0 ≤ 2001 := by
  obtain ⟨c₁, l, hrun, -⟩ := motion_history_returns (K := machine.kit)
    ([.configure 1 (fin (1 / 8000))] ++ ((([far].map (push machine) ++ [.start]) ++ List.replicate 24000 .calculate) ++
      (.override (⟨fin (1 / 2), fin 1⟩ : Overrides) :: .start :: List.replicate 72000 .calculate)))
  obtain ⟨cc, l₁, l₂, h1, h2, -⟩ := run_split (K := machine.kit) _ _ hrun
  simp only [run, call, Option.map_some, Option.some.injEq, Prod.mk.injEq] at h1
  obtain ⟨rfl, -⟩ := h1
  obtain ⟨c₀, log₀, log₁, hrun₀, hrun₁, -⟩ := run_split (K := machine.kit) _ _ h2
  obtain ⟨c₂, l', hrun', -⟩ := motion_history_returns (K := machine.kit)
    ([.configure 1 (fin (1 / 8000))] ++ ((([far].map (push machine) ++ [.start]) ++ List.replicate 24000 .calculate) ++
      (.override (⟨fin (1 / 2), fin 1⟩ : Overrides) :: .start :: List.replicate 320001 .calculate)))
  obtain ⟨cc, l₁', l₂', h1', h2', -⟩ := run_split (K := machine.kit) _ _ hrun'
  simp only [run, call, Option.map_some, Option.some.injEq, Prod.mk.injEq] at h1'
  obtain ⟨rfl, -⟩ := h1'
  obtain ⟨c₀', log₀', log₂, hrun₀', hrun₂, -⟩ := run_split (K := machine.kit) _ _ h2'
  rw [hrun₀] at hrun₀'
  simp only [Option.some.injEq, Prod.mk.injEq] at hrun₀'
  obtain ⟨rfl, rfl⟩ := hrun₀'
  obtain ⟨cs, l₃, l₄, h3, h4, elog₀⟩ := run_split (K := machine.kit) _ _ hrun₀
  refine ⟨c₀, c₁, c₂, log₀, log₁, log₂, hrun₀, ?_⟩
  have hfeed : (fresh machine.kit |>.configure 1 (fin (1 / 8000))).overrides.feedOverride = fin 1 := rfl
  have hpos : (fresh machine.kit |>.configure 1 (fin (1 / 8000))).machinePosition = fun _ => 0 := rfl
  have hprog : ∀ n ov, program (M := machine) ov [far] (List.replicate n .calculate) = [(far, far.vFeed * ov)] := by
    intro n ov
    show [(far, far.vFeed * ov)] ++ requested (M := machine) _ _ = _
    rw [requested_calculate]; rfl
  have hhalf : far.vFeed * fin (1 / 2) = fin (1 / 2) := by show fin (1 * (1 / 2)) = _; norm_num
  have hslow : Brief machine (1 / 8000 / 2) far (fin (1 / 2)) :=
    ⟨1 / 2, 1, ⟨by norm_num, one_pos, fun axis ha => (mul_le_mul_of_nonneg_right (by norm_num) (abs_nonneg _)).trans
      (allowed_far.speed axis ha), allowed_far.acc, allowed_far.dec, fun axis ha hb => (by norm_num : (1 / 2 : ℝ) ^ 2 ≤ 1 ^ 2).trans
      (allowed_far.turn axis ha hb)⟩, by rw [le_fin]; norm_num, by rw [length_far]; norm_num, by rw [length_far]; norm_num⟩
  have happ : ∀ n, appended (M := machine) (List.replicate n .calculate) = [] := by
    intro n; simp [appended, requestOf]
  have hp : Performs machine (1 / 8000) (fun _ => 0) ((fresh machine.kit).configure 1 (fin (1 / 8000))) [far]
      (List.replicate 24000 .calculate) c₀ l₄ := by
    refine ⟨machine_ok, ⟨by norm_num, by norm_num [machine], fun _ _ => by norm_num [machine],
      fun _ _ => by norm_num [travel, machine]⟩, idle_configured machine 1 (1 / 8000), by simp, by simp,
      by simpa using executable_far, ?_, ?_, ⟨cs, l₃, h3, feeds_calculate _ _, h4⟩, ?_, ?_⟩
    · intro r hr
      rw [List.mem_singleton.1 hr, hfeed, feed_far]; norm_num [Num.Pos]
    · intro axis ha; rw [hpos]; norm_num [machine, travel]
    · rw [hfeed, hprog]
      exact ⟨fun axis ha => by rw [far_axis axis ha]; exact place_far 0, trivial⟩
    · rw [hfeed]
      intro x hx
      rw [hprog, List.mem_singleton] at hx
      rw [hx]
      exact ⟨long_far (by norm_num), brief_far (by norm_num), reachable_far⟩
  -- one tick per call
  have o₁ : OneTick (K := machine.kit) ⟨fin 1, fin 1⟩ ((fresh machine.kit).configure 1 (fin (1 / 8000))) :=
    ⟨⟨rfl, by show 1 % 4294967296 < 4294967296; norm_num⟩, rfl, rfl⟩
  have e3 : cs = (((fresh machine.kit).configure 1 (fin (1 / 8000))).append far).start := by
    simp only [List.map_cons, List.map_nil, List.cons_append, List.nil_append, push, run, call, Option.map_some,
      Option.some.injEq, Prod.mk.injEq] at h3
    exact h3.1.symm
  have o₂ := (o₁.append far).start
  rw [← e3] at o₂
  obtain ⟨n₀, o₃⟩ := o₂.run _ h4
  have n₀' : ((ticksOf l₄).length : ℝ) * (1 / 8000) = 3 := by rw [n₀]; norm_num
  have hcount : ∀ {n c' log}, c₀.run (.override (⟨fin (1 / 2), fin 1⟩ : Overrides) :: .start :: List.replicate n .calculate) = some (c', log) →
      (ticksOf log).length = n := by
    intro n c' log hrun
    rw [run] at hrun
    simp only [call, Option.map_eq_some_iff, Prod.exists, Prod.mk.injEq] at hrun
    obtain ⟨_, g₀, hrun, -, rfl⟩ := hrun
    rw [run] at hrun
    simp only [call, Option.map_eq_some_iff, Prod.exists, Prod.mk.injEq] at hrun
    obtain ⟨_, g, hrun, -, rfl⟩ := hrun
    have o₄ : OneTick (K := machine.kit) ⟨fin (1 / 2), fin 1⟩ { c₀ with overrides := (⟨fin (1 / 2), fin 1⟩ : Overrides) } :=
      ⟨⟨o₃.inv.ticks, o₃.inv.limit⟩, o₃.max, rfl⟩
    have := (o₄.start.run _ hrun).1
    rw [← this]; simp [ticksOf]
  -- the motion
  obtain ⟨js, j1, j2, j3, j4⟩ := program_adapts_partial hp (o := ⟨fin (1 / 2), fin 1⟩)
    (by
      intro x hx
      rw [hfeed, hprog, List.mem_singleton] at hx
      rw [hx]; show (far.vFeed * fin (1 / 2)).Pos; rw [hhalf]; norm_num [Num.Pos])
    (by
      intro x hx
      rw [hfeed, hprog, List.mem_singleton] at hx
      rw [hx]; exact brief_far (by norm_num))
  rw [hfeed, hprog] at j1
  obtain ⟨j, rfl⟩ : ∃ j, js = [j] := List.length_eq_one_iff.1 (by simpa using congrArg List.length j1)
  simp only [List.map_cons, List.map_nil, List.cons.injEq, Prod.mk.injEq, and_true] at j1
  obtain ⟨hr, hf⟩ := j1
  rw [feed_far] at hf
  have hok := j2 j List.mem_cons_self
  have hL : j.L = 10 := by unfold Job.L; rw [hr]; exact length_far
  have hT : 10 ≤ j.T := by
    have := hok.feed 1 hf 0 j.T le_rfl hok.pos.le le_rfl
    rw [hok.start, hok.finish, hL] at this; linarith
  rw [n₀'] at j3 j4
  have hrest : rest [j] 3 = ([j], 3) := by unfold rest; rw [if_pos (by linarith)]
  have hst := (j3.running (by simp [total]; linarith)).1
  have hS : j.S 3 ≤ 3 := by
    have := hok.feed 1 hf 0 3 le_rfl (by norm_num) (by linarith)
    rw [hok.start] at this; linarith
  have hS0 : 0 ≤ j.S 3 := by
    have := hok.forward 0 3 le_rfl (by norm_num) (by linarith)
    rwa [hok.start] at this
  have hV : j.V 3 ≤ 1 := hok.toLaw.v_le hf zero_le_one (by norm_num) (by linarith)
  obtain ⟨j', js', g1, g2, g3, g4⟩ := j4 hrest
    (hok.settled (hr ▸ allowed_far) hf zero_le_one machine_ok.jMax (by norm_num [machine])) (by rw [hL]; linarith)
  have hjs' : js' = [] := by simpa using congrArg List.length g2
  subst hjs'
  have hV0 : 0 ≤ j.V 3 := by
    obtain ⟨a, b, s1, s2, s3, s4, s5, s6, -⟩ := hok.shape
    have ha := s4 0 a le_rfl s1 le_rfl
    rw [hok.atRest.1] at ha
    rcases le_total 3 a with h | h
    · have := s4 0 3 le_rfl (by norm_num) h
      rwa [hok.atRest.1] at this
    · rcases le_total 3 b with h' | h'
      · rw [s5 3 h h']; exact ha
      · have := s6 3 j.T h' (by linarith) le_rfl
        rwa [hok.atRest.2] at this
  have hall : Allowed machine j.r (1 / 2) 1 := by
    rw [hr]
    exact ⟨by norm_num, one_pos, fun axis ha => (mul_le_mul_of_nonneg_right (by norm_num) (abs_nonneg _)).trans
      (allowed_far.speed axis ha), allowed_far.acc, allowed_far.dec, fun axis ha hb => (by norm_num : (1 / 2 : ℝ) ^ 2 ≤ 1 ^ 2).trans
      (allowed_far.turn axis ha hb)⟩
  have hf2 : j.r.vFeed * fin (1 / 2) = fin (1 / 2) := by rw [hr, hhalf]
  obtain ⟨e, a1, a2, a3, a4, a5, a6, a7, a8⟩ := g1.adapts
  have hVe : j'.V e = 1 / 2 := by
    refine le_antisymm ?_ (a8 (1 / 2) 1 hall (by rw [hf2, le_fin]; simp) (by rw [hL]; linarith))
    change (fin (j'.V e)).le (j.r.vFeed * fin (1 / 2)) = true at a6
    rw [hf2, le_fin] at a6
    simpa using a6
  have hd : |j'.V e - j.V 3| ≤ 1 := by rw [hVe, abs_le]; constructor <;> linarith
  have he : e ≤ 5 := by
    have := a4 (1 / 2) 1 hall
    have m1 : max (√(|j'.V e - j.V 3| / machine.jMax)) (|j'.V e - j.V 3| / 1) ≤ 1 :=
      max_le (Real.sqrt_le_one.2 (by simpa [machine] using hd)) (by simpa using hd)
    linarith
  have hS3 : j'.S 3 = j.S 3 := (g1.before 3 le_rfl).1
  have hSe : j'.S e - j'.S 3 ≤ 1 * (e - 3) := by
    refine (convex_Icc 3 e).image_sub_le_mul_sub_of_deriv_le (f := j'.S) (C := 1) g1.sound.smooth.continuousOn ?_ ?_
      3 (Set.left_mem_Icc.2 a1) e (Set.right_mem_Icc.2 a1) a1
    · intro t ht
      rw [interior_Icc] at ht
      exact (g1.sound.rate t (by linarith [ht.1]) (by linarith [ht.2])).differentiableAt.differentiableWithinAt
    · intro t ht
      rw [interior_Icc] at ht
      rw [(g1.sound.rate t (by linarith [ht.1]) (by linarith [ht.2])).deriv]
      refine (a3 t ht.1.le ht.2.le).2.trans (max_le hV ?_)
      rw [hVe]; norm_num
  have hSlate : ∀ x, e ≤ x → x ≤ 12 → x ≤ j'.T → j'.S x ≤ 17 / 2 := by
    intro x h1 h2 h3
    have := a7.feed (1 / 2) hf2 e x le_rfl h1 h3
    linarith
  have hT' : 12 ≤ j'.T := by
    by_contra hc
    have := hSlate j'.T a2 (by linarith) le_rfl
    have hfin := g1.sound.finish
    unfold Job.L at hfin hL
    rw [g1.request, hL] at hfin
    linarith
  have hTb : j'.T ≤ 43 := by
    have := g1.brisk (1 / 2) 1 hall (by rw [hf2, le_fin]; simp) (by rw [hL]; linarith)
    rw [hL] at this; linarith
  have hmotion : ∀ n, ∀ x ∈ program (M := machine) (fin (1 / 2)) (j.r :: List.map Job.r []) (List.replicate n .calculate),
      Long machine (1 / 8000) x.1 ∧ Brief machine (1 / 8000 / 2) x.1 x.2 ∧ Reachable machine x.1 := by
    intro n x hx
    rw [hr] at hx
    have hx : x ∈ program (M := machine) (fin (1 / 2)) [far] (List.replicate n .calculate) := hx
    rw [hprog, List.mem_singleton, hhalf] at hx
    rw [hx]
    exact ⟨long_far (by norm_num), hslow, reachable_far⟩
  have hcon : ∀ n, Connected machine.n (fun axis => place j.r axis 0)
      (j.r :: List.map Job.r [] ++ appended (M := machine) (List.replicate n .calculate)) := by
    intro n
    rw [happ]
    exact ⟨fun _ _ => rfl, trivial⟩
  obtain ⟨js₁, u1, u2, u3, -⟩ := g4 hrun₁ (feeds_calculate _ _) (hcon _) (hmotion _)
  obtain ⟨js₂, v1, v2, -, v4⟩ := g4 hrun₂ (feeds_calculate _ _) (hcon _) (hmotion _)
  rw [requested_calculate] at u1 v1
  obtain rfl : js₁ = [] := by simpa using congrArg List.length u1
  obtain rfl : js₂ = [] := by simpa using congrArg List.length v1
  have hticks : ((ticksOf log₁).length : ℝ) * (1 / 8000) = 9 := by rw [hcount hrun₁]; norm_num
  rw [hticks] at u3
  have u3 : Executes machine (1 / 8000) (fun axis => place j.r axis 0) [j'] (3 + 9) c₁ := u3
  refine ⟨hst, hrun₁, (u3.running (by simp [total]; linarith)).1, ?_, hrun₂, ?_⟩
  · have := u3.near 0 one_pos
    unfold placeAt at this
    rw [if_pos (by linarith), g1.request, hr, place_far, abs_le] at this
    have hb := hSlate (3 + 9) (by linarith) (by norm_num) (by linarith)
    norm_num [machine, travel] at this hb
    have h3 : (c₁.machinePosition 0 : ℝ) < ((1720 : Int) : ℝ) := by push_cast; linarith [this.1]
    exact Int.cast_lt.1 h3
  have hcalc : (List.replicate 320001 (Call.calculate : MCall machine)).countP Call.isCalculate = 320001 := by
    rw [List.countP_replicate]; simp [Call.isCalculate]
  obtain ⟨hi, hn⟩ := v4 (by
    rw [hcalc]
    show total [j'] < _
    simp [total]; linarith)
  refine ⟨hi.state, hi.level, ?_⟩
  have := hn 0 one_pos
  rw [happ, hr] at this
  change |place far 0 10 * _ - _| ≤ _ at this
  rw [place_far, abs_le] at this
  norm_num [machine, travel] at this
  have h3 : ((1998 : Int) : ℝ) < c₂.machinePosition 0 := by push_cast; linarith [this.2]
  have h4 : (c₂.machinePosition 0 : ℝ) < ((2002 : Int) : ℝ) := by push_cast; linarith [this.1]
  have h3 := Int.cast_lt.1 h3
  have h4 := Int.cast_lt.1 h4
  omega

end ExecuteExample

end Moovr.Props
