import Verif.Lemmas.Onward
import Verif.Props.Execute
/-!
# Programs that are stopped and started again, any number of times
-/
namespace Moovr
open Num ExecSpec MotionCtrl AccDec MotionSpec PulseSpec

/-! ## Along the path -/

theorem along_mid {d : Nat → ℝ} {done : List SimplifiedMotion} (r : SimplifiedMotion) (l : List SimplifiedMotion) (s : ℝ) :
    along d (done ++ r :: l) done.length s = fun axis => place r axis s := by
  induction done generalizing d with
  | nil => rfl
  | cons a done ih => exact ih

theorem along_end {d : Nat → ℝ} {done : List SimplifiedMotion} (s : ℝ) : along d done done.length s = endOf d done := by
  induction done generalizing d with
  | nil => rfl
  | cons a done ih => exact ih

theorem endOf_snoc {d : Nat → ℝ} {done : List SimplifiedMotion} (r : SimplifiedMotion) :
    endOf d (done ++ [r]) = fun axis => place r axis (val r.trajectory.length) := by
  induction done generalizing d with
  | nil => rfl
  | cons a done ih => exact ih

theorem connected_mid {n : Nat} {d : Nat → ℝ} {done : List SimplifiedMotion} {r : SimplifiedMotion} {l : List SimplifiedMotion}
    (h : Connected n d (done ++ r :: l)) : ∀ axis, axis < n → place r axis 0 = endOf d done axis := by
  induction done generalizing d with
  | nil => exact h.1
  | cons a done ih => exact ih h.2

/-- At a joint it does not matter which motion is meant. -/
theorem along_joint {n : Nat} {d : Nat → ℝ} {done l : List SimplifiedMotion} (h : Connected n d (done ++ l)) :
    ∀ axis, axis < n → along d (done ++ l) done.length 0 axis = endOf d done axis := by
  intro axis ha
  cases l with
  | nil => rw [List.append_nil, along_end]
  | cons r l => rw [along_mid]; exact connected_mid h axis ha

/-! ## The sample counter -/

theorem settle_index {K : MotionKit} (fuel : Nat) {c : MotionCtrl K} {r} (h : settle fuel c = some r) :
    r.1.time.sampleIndex ≤ c.time.sampleIndex := by
  induction fuel generalizing c with
  | zero => simp [settle] at h
  | succ fuel ih =>
    unfold settle at h
    split at h
    · split at h
      · exact (ih h).trans (Nat.zero_le _)
      · simp only [Option.some.injEq] at h; rw [← h]; exact Nat.zero_le _
    · simp only [Option.some.injEq] at h; rw [← h]; exact le_refl _

theorem tick_index_le {K : MotionKit} {c c' : MotionCtrl K} {t} (h : c.tick = some (c', t)) :
    c'.time.sampleIndex ≤ c.time.sampleIndex + 1 := by
  unfold MotionCtrl.tick at h
  simp only at h
  split at h
  · simp only [Option.map_eq_some_iff, Prod.exists, Prod.mk.injEq] at h
    obtain ⟨c₁, _, _, hs, rfl, -⟩ := h
    have h1 := settle_index _ hs
    have h2 : (sampleAndCheckStop { c with signals := c.signals.next }).time.sampleIndex = u32add c.time.sampleIndex 1 := by
      unfold sampleAndCheckStop
      simp only
      split <;> rfl
    rw [h2] at h1
    exact h1.trans (Nat.mod_le _ _)
  · simp only [Option.some.injEq, Prod.mk.injEq] at h
    rw [← h.1]; exact Nat.le_succ _

/-! ## Stages -/

/-- Nothing has begun since the first motions were done; the others are in the queue. -/
structure Parked (M : Machine) (δ : ℝ) (d : Nat → ℝ) (done todo : List SimplifiedMotion) (c : MotionCtrl M.kit) : Prop where
  state : c.state = .stopped
  queue : Queue (Waits M) c.buffer todo
  clock : Clock M δ c.time 0
  near : ∀ axis, axis < M.n →
    |endOf d done axis * M.stepsPerMm axis - c.machinePosition axis| ≤ 1 / 2 + M.hysteresis + M.perTick δ axis

/-- The motions `done` are over, the motions `todo` are in the queue, and the distance `s` of the first of them has been
travelled. -/
inductive Stage (M : Machine) (δ : ℝ) (d : Nat → ℝ) : List SimplifiedMotion → List SimplifiedMotion → ℝ → MotionCtrl M.kit → Prop
  | parked {done todo c} : Parked M δ d done todo c → Stage M δ d done todo 0 c
  | moving {done c j js u} : Running M δ (M.perTick δ) j js u c → Stage M δ d done (j.r :: js.map Job.r) (j.S u) c
  | braking {done c j rs u i l rr m t} : Braking M δ (M.perTick δ) j rs u i l rr m t c → 0 < m →
      Stage M δ d done (j.r :: rs) (stopS i l t) c

/-- What is required of a motion: it can be executed, takes longer than a tick, and all its positions fit the position counter. -/
structure Sensible (M : Machine) (δ : ℝ) (r : SimplifiedMotion) : Prop where
  exe : Executable M.n r
  long : Long M δ r
  range : Props.Reachable M r

section
variable {M : Machine} {δ : ℝ} {d : Nat → ℝ}

theorem Stage.signals {done todo s} {c : MotionCtrl M.kit} (h : Stage M δ d done todo s c) (x) :
    Stage M δ d done todo s { c with signals := x } := by
  cases h with
  | parked h => exact .parked ⟨h.state, h.queue, h.clock, h.near⟩
  | moving h => exact .moving ⟨h.state, h.line, h.clock, h.nonneg, h.le, h.near⟩
  | braking h hm => exact .braking ⟨h.front, h.tail, h.clock, h.since, h.phase, h.near⟩ hm

theorem Stage.overrides {done todo s} {c : MotionCtrl M.kit} (h : Stage M δ d done todo s c) (x) :
    Stage M δ d done todo s { c with overrides := x } := by
  cases h with
  | parked h => exact .parked ⟨h.state, h.queue, h.clock, h.near⟩
  | moving h => exact .moving ⟨h.state, h.line, h.clock, h.nonneg, h.le, h.near⟩
  | braking h hm => exact .braking ⟨h.front, h.tail, h.clock, h.since, h.phase, h.near⟩ hm

/-- How far the machine gets: `(n, s)` are the number of motions done and the distance travelled in the next one. -/
def Further (n : Nat) (s : ℝ) (n' : Nat) (s' : ℝ) : Prop := n < n' ∨ n = n' ∧ s ≤ s'

theorem Further.refl (n : Nat) (s : ℝ) : Further n s n s := .inr ⟨rfl, le_rfl⟩

theorem Further.trans {n n' n'' : Nat} {s s' s'' : ℝ} (h : Further n s n' s') (h' : Further n' s' n'' s'') : Further n s n'' s'' := by
  rcases h with h | ⟨rfl, h⟩ <;> rcases h' with h' | ⟨rfl, h'⟩
  · exact .inl (h.trans h')
  · exact .inl h
  · exact .inl h'
  · exact .inr ⟨rfl, h.trans h'⟩

theorem Stage.tick (hM : M.Ok) (hs : Suited M δ (M.perTick δ)) {done todo later : List SimplifiedMotion} {s : ℝ}
    {c c' : MotionCtrl M.kit} {x} (h : Stage M δ d done todo s c) (hall : ∀ r ∈ todo, Sensible M δ r)
    (hcon : Connected M.n d (done ++ todo ++ later)) (hidx : c.time.sampleIndex + 1 < 2 ^ 32) (ht : c.tick = some (c', x)) :
    ∃ done' todo' s', done' ++ todo' = done ++ todo ∧ Stage M δ d done' todo' s' c' ∧ Further done.length s done'.length s' ∧
      ∀ axis, axis < M.n → |along d (done ++ todo ++ later) done'.length s' axis -
        along d (done ++ todo ++ later) done.length s axis| ≤ M.vMax axis * δ := by
  have hδ := hs.width
  have hzero : ∀ axis, axis < M.n → (0 : ℝ) ≤ M.vMax axis * δ := fun axis ha => mul_nonneg (hM.vMax axis ha).le hδ.le
  cases h with
  | parked h =>
    have hn : c.isRunning = false := by simp [isRunning, h.state]
    unfold MotionCtrl.tick at ht
    simp only [hn, Bool.false_eq_true, if_false, Option.some.injEq, Prod.mk.injEq] at ht
    obtain ⟨rfl, -⟩ := ht
    exact ⟨done, todo, 0, rfl, .parked ⟨h.state, h.queue, h.clock, h.near⟩, .refl _ _, fun axis ha => by
      rw [sub_self, abs_zero]; exact hzero axis ha⟩
  | @moving _ j js u h =>
    have hcons : ∀ j' ∈ j :: js, j'.r ∈ j.r :: js.map Job.r := fun j' hj' => by
      rw [← List.map_cons]; exact List.mem_map_of_mem hj'
    have hsound : ∀ j' ∈ j :: js, j'.Sound M := by
      intro j' hj'
      obtain ⟨k, hk, rfl⟩ := List.getElem_of_mem hj'
      exact (h.queue.cell k hk).ok
    have hj := hsound j List.mem_cons_self
    have hcon' : Connected M.n d (done ++ j.r :: (js.map Job.r ++ later)) := by
      simpa [List.append_assoc] using hcon
    have hjoint : ∀ j' js', js = j' :: js' → ∀ axis, axis < M.n → place j'.r axis 0 = place j.r axis j.L := by
      rintro j' js' rfl axis ha
      have : Connected M.n d ((done ++ [j.r]) ++ j'.r :: (js'.map Job.r ++ later)) := by
        simpa [List.append_assoc] using hcon
      have := connected_mid this axis ha
      rw [this, endOf_snoc]; rfl
    have hfull : done ++ j.r :: js.map Job.r ++ later = done ++ j.r :: (js.map Job.r ++ later) := by simp
    rcases h.tick_index hs (fun j' hj' => (hall _ (hcons j' hj')).range) hidx
      (.inr ⟨fun _ _ => rfl, fun j' hj' => Job.long_of (hsound j' hj') (hall _ (hcons j' hj')).long⟩) ht hjoint with
      ⟨h1, h2⟩ | ⟨h1, j', js', rfl, h2⟩ | ⟨h1, rfl, h2⟩
    · refine ⟨done, j.r :: js.map Job.r, j.S (u + δ), rfl, .moving h2,
        .inr ⟨rfl, hj.forward u (u + δ) h.nonneg (by linarith) h1⟩, fun axis ha => ?_⟩
      rw [hfull, along_mid, along_mid]
      have := hj.speed axis ha u (u + δ) h.nonneg (by linarith) h1
      rwa [add_sub_cancel_left] at this
    · have hj' := hsound j' (by simp)
      refine ⟨done ++ [j.r], j'.r :: js'.map Job.r, j'.S (u + δ - j.T), by simp, .moving h2, .inl (by simp), fun axis ha => ?_⟩
      have e : done ++ j.r :: (j' :: js').map Job.r ++ later = (done ++ [j.r]) ++ j'.r :: (js'.map Job.r ++ later) := by simp
      have e' := along_mid (d := d) (done := done) j.r ((j' :: js').map Job.r ++ later) (j.S u)
      rw [hfull, e', ← hfull, e, along_mid]
      have g1 := hj.speed axis ha u j.T h.nonneg h.le le_rfl
      have g2 := hj'.speed axis ha 0 (u + δ - j.T) le_rfl h2.nonneg h2.le
      rw [hj.finish] at g1
      rw [hj'.start, hjoint j' js' rfl axis ha] at g2
      have : M.vMax axis * (j.T - u) + M.vMax axis * (u + δ - j.T - 0) = M.vMax axis * δ := by ring
      rw [abs_le] at *
      constructor <;> linarith [g1.1, g1.2, g2.1, g2.2]
    · refine ⟨done ++ [j.r], [], 0, by simp, .parked ⟨h2.state, ⟨h2.queue.head, h2.queue.level, by simp, fun k hk => by simp at hk⟩,
        h2.clock, fun axis ha => ?_⟩, .inl (by simp), fun axis ha => ?_⟩
      · rw [endOf_snoc]; exact h2.near axis ha
      · have e : done ++ j.r :: ([] : List Job).map Job.r ++ later = (done ++ [j.r]) ++ later := by simp
        have e' := along_mid (d := d) (done := done) j.r (([] : List Job).map Job.r ++ later) (j.S u)
        rw [hfull, e', ← hfull, e, along_joint (by rw [← e]; exact hcon) axis ha, endOf_snoc]
        have g1 := hj.speed axis ha u j.T h.nonneg h.le le_rfl
        rw [hj.finish] at g1
        refine g1.trans (mul_le_mul_of_nonneg_left (by linarith) (hM.vMax axis ha).le)
  | @braking _ j rs u i l rr m t h hm =>
    obtain ⟨b1, -⟩ := h.tick_index hM hs (hall _ List.mem_cons_self).range (fun _ => hidx) ht
    refine ⟨done, j.r :: rs, _, rfl, .braking b1 hm, .inr ⟨rfl, ?_⟩, fun axis ha => ?_⟩
    · split
      · have hlaw := law_of_stop hM h.front.exe h.front.pos h.front.base h.front.plan h.front.vMax h.front.feed (t + δ)
        rw [h.front.doneT] at hlaw
        exact hlaw.forward t (t + δ) h.since (by linarith) le_rfl
      · exact le_rfl
    · have e : done ++ j.r :: rs ++ later = done ++ j.r :: (rs ++ later) := by simp
      rw [e, along_mid, along_mid]
      split
      · have hlaw := law_of_stop hM h.front.exe h.front.pos h.front.base h.front.plan h.front.vMax h.front.feed (t + δ)
        rw [h.front.doneT] at hlaw
        have := hlaw.speed axis ha t (t + δ) h.since (by linarith) le_rfl
        rwa [add_sub_cancel_left] at this
      · rw [sub_self, abs_zero]; exact hzero axis ha

theorem Stage.calcLoop (hM : M.Ok) (hs : Suited M δ (M.perTick δ)) {rs later : List SimplifiedMotion}
    (hall : ∀ r ∈ rs, Sensible M δ r) (hcon : Connected M.n d (rs ++ later)) (fuel : Nat) :
    ∀ {done todo : List SimplifiedMotion} {s : ℝ} {c c' : MotionCtrl M.kit} {e ts}, done ++ todo = rs → Stage M δ d done todo s c →
      MotionCtrl.calcLoop fuel c = some (c', e, ts) → c.time.sampleIndex + ts.length < 2 ^ 32 →
      ∃ done' todo' s', done' ++ todo' = rs ∧ Stage M δ d done' todo' s' c' ∧ Further done.length s done'.length s' ∧
        (∀ axis, axis < M.n → |along d (rs ++ later) done'.length s' axis - along d (rs ++ later) done.length s axis| ≤
          M.vMax axis * (ts.length * δ)) ∧ c'.time.sampleIndex ≤ c.time.sampleIndex + ts.length := by
  induction fuel with
  | zero => intro _ _ _ _ _ _ _ _ _ h; simp [MotionCtrl.calcLoop] at h
  | succ fuel ih =>
    intro done todo s c c' e ts hrs h hc hidx
    unfold MotionCtrl.calcLoop at hc
    split at hc
    · simp at hc
    · rename_i c₁ x hx
      have hsub : ∀ r ∈ todo, Sensible M δ r := fun r hr => hall r (by rw [← hrs]; exact List.mem_append_right _ hr)
      have hi := tick_index_le hx
      split at hc
      · simp only [Option.some.injEq, Prod.mk.injEq] at hc
        obtain ⟨rfl, rfl, rfl⟩ := hc
        obtain ⟨done', todo', s', a1, a2, a3, a4⟩ := h.tick hM hs hsub (by rw [hrs]; exact hcon) (by simpa using hidx) hx
        rw [hrs] at a1 a4
        exact ⟨done', todo', s', a1, a2.signals _, a3, by simpa using a4, by simpa using hi⟩
      · simp only [Option.map_eq_some_iff, Prod.exists, Prod.mk.injEq] at hc
        obtain ⟨c₂, e₂, ts₂, h2, rfl, rfl, rfl⟩ := hc
        rw [List.length_cons] at hidx
        obtain ⟨done', todo', s', a1, a2, a3, a4⟩ := h.tick hM hs hsub (by rw [hrs]; exact hcon) (by omega) hx
        rw [hrs] at a1 a4
        obtain ⟨done'', todo'', s'', b1, b2, b3, b4, b5⟩ := ih a1 a2 h2 (by omega)
        refine ⟨done'', todo'', s'', b1, b2, a3.trans b3, fun axis ha => ?_, by rw [List.length_cons]; omega⟩
        have g1 := a4 axis ha
        have g2 := b4 axis ha
        have : M.vMax axis * (((x :: ts₂).length : ℕ) * δ) = M.vMax axis * (ts₂.length * δ) + M.vMax axis * δ := by
          rw [List.length_cons]; push_cast; ring
        rw [this]
        rw [abs_le] at *
        constructor <;> linarith [g1.1, g1.2, g2.1, g2.2]

/-! ## Calls -/

theorem Stage.append (hM : M.Ok) {done todo s} {c : MotionCtrl M.kit} (h : Stage M δ d done todo s c) {r : SimplifiedMotion}
    (hr : Executable M.n r) (ho : (r.vFeed * c.overrides.feedOverride).Pos) (hl : c.buffer.level < 32) :
    Stage M δ d done (todo ++ [r]) s (c.append r) ∧ (c.append r).time = c.time ∧ (c.append r).overrides = c.overrides := by
  cases h with
  | parked h =>
    obtain ⟨q1, -, -, -, q5, q6, q7, q8, -⟩ := append_queue hM h.queue hr.moves ho (by rw [← h.queue.level]; exact hl)
    exact ⟨.parked ⟨q6.trans h.state, q1, q5 ▸ h.clock, fun axis ha => by rw [q8]; exact h.near axis ha⟩, q5, q7⟩
  | @moving _ j js u h =>
    obtain ⟨-, -, -, -, -, -, q7, -, -⟩ := append_cells hM h.queue.head hr.moves ho hl
    obtain ⟨j₁, hj₁, -, -, hline, hhead, q5, q6, q8⟩ := h.line.append hM hr ho h.state hl
    have hrun : Running M δ (M.perTick δ) j (js ++ [j₁]) u (c.append r) := by
      refine ⟨q6.trans h.state, hline, q5 ▸ h.clock, h.nonneg, h.le, fun axis ha => ?_⟩
      rw [hhead, q8]; exact h.near axis ha
    have := Stage.moving (d := d) (done := done) hrun
    rw [List.map_append, List.map_singleton, hj₁] at this
    exact ⟨this, q5, q7⟩
  | @braking _ j rs u i l rr m t h hm =>
    obtain ⟨a1, a2, a3, a4, a5, a6, -⟩ := h.tail.append hM hr ho hl
    refine ⟨.braking (rs := rs ++ [r]) ⟨a2 ▸ h.front, a1, a3 ▸ h.clock, h.since, a4 ▸ h.phase, fun hm axis ha => ?_⟩ hm, a3, a6⟩
    rw [a2, a5]; exact h.near hm axis ha

theorem within_of_ok {j : Job} (h : j.Ok M) {τ : ℝ} (hw : Within M j.r j.f τ) : j.T ≤ τ := by
  obtain ⟨v, a, h1, h2, h3, h4⟩ := hw
  have := h.brisk v a h1 h2 h3
  have : j.T ≤ 2 * j.L / v := by rw [le_div_iff₀ h1.v0]; linarith
  exact this.trans h4

theorem total_le_of {js : List Job} {τ : ℝ} (h : ∀ j ∈ js, j.T ≤ τ) : total js ≤ js.length * τ := by
  induction js with
  | nil => simp [total]
  | cons a js ih =>
    rw [total_cons, List.length_cons]
    push_cast
    have := h a List.mem_cons_self
    have := ih fun j hj => h j (List.mem_cons_of_mem _ hj)
    linarith

/-- `start()` while the controller is stopped and the queue is not empty. -/
theorem Stage.start (hM : M.Ok) {done todo s} {c : MotionCtrl M.kit} (h : Stage M δ d done todo s c) (hst : c.state = .stopped)
    (hne : todo ≠ []) (hcon : Connected M.n d (done ++ todo)) (hr : ∀ r ∈ todo, Executable M.n r)
    (ho : ∀ r ∈ todo, (r.vFeed * c.overrides.feedOverride).Pos) :
    ∃ j js u, Running M δ (M.perTick δ) j js u c.start ∧ todo = j.r :: js.map Job.r ∧ s = j.S u ∧ c.start.time = c.time ∧
      c.start.overrides = c.overrides ∧
      ∀ τ, (∀ r ∈ todo, Within M r (r.vFeed * c.overrides.feedOverride) τ) → j.T - u + total js ≤ todo.length * τ := by
  cases h with
  | parked h =>
    obtain ⟨s1, s2, s3, s4, s5, -⟩ := start_queue hne h.queue ho h.clock.now
    obtain ⟨js, hjs, hjq, hok, hwait⟩ := Props.queue_jobs s1 hr
    have hjne : js ≠ [] := by rintro rfl; simp at hjs; exact hne hjs
    obtain ⟨j, js', rfl⟩ := List.exists_cons_of_ne_nil hjne
    have hj := hok j List.mem_cons_self
    have hmap : todo = j.r :: js'.map Job.r := by
      have := congrArg (List.map Prod.fst) hjs
      rw [List.map_map, List.map_map] at this
      simpa [Function.comp_def] using this.symm
    have hline : Line M c.start.buffer j js' 0 := by
      refine ⟨hjq, ?_, fun k hk => ?_⟩
      · have := (hwait 0 (by simp)).begun
        rw [Nat.add_zero, Nat.mod_eq_of_lt hjq.head] at this
        show (c.start.buffer.cells c.start.buffer.head).prof.doneDuration.le (fin 0) = true
        rw [this, le_fin]; simp
      · have := hwait (k + 1) (by simp; omega)
        simpa using this
    refine ⟨j, js', 0, ⟨s3, hline, s2 ▸ h.clock, le_rfl, hj.pos.le, fun axis ha => ⟨?_, fun h0 => absurd h0 (lt_irrefl _)⟩⟩, hmap,
      hj.start.symm, s2, s4, fun τ hw => ?_⟩
    · rw [hj.start, connected_mid (by rw [← hmap]; exact hcon) axis ha, s5]
      exact h.near axis ha
    · have hT : ∀ a ∈ j :: js', a.T ≤ τ := by
        intro a ha
        have : (a.r, a.f) ∈ todo.map (fun r => (r, r.vFeed * c.overrides.feedOverride)) := by
          rw [← hjs]; exact List.mem_map_of_mem (f := fun j : Job => (j.r, j.f)) ha
        obtain ⟨r, h1, h2⟩ := List.mem_map.1 this
        simp only [Prod.mk.injEq] at h2
        refine within_of_ok (hok a ha) ?_
        rw [← h2.1, ← h2.2]; exact hw r h1
      have := total_le_of hT
      rw [total_cons] at this
      have e : todo.length = (j :: js').length := by rw [hmap]; simp
      rw [e]; linarith
  | moving h => rw [h.state] at hst; simp at hst
  | @braking _ j rs u i l rr m t h hm =>
    obtain ⟨j', js, g1, g2, g3, g4, g5, -⟩ := resume hM h hst hm (fun r h => hr r (List.mem_cons_of_mem _ h)) ho
    have hmapr : js.map Job.r = rs := by
      have := congrArg (List.map Prod.fst) g2
      rw [List.map_map, List.map_map] at this
      simpa [Function.comp_def] using this
    have ht : u + l.duration < t := by
      rcases h.phase with ⟨-, h2⟩ | ⟨h1, -, -⟩
      · rw [h2] at hst; simp at hst
      · exact h1
    have hSE : (brakeOf i l).S (brakeOf i l).E = i.doneL + l.length := stopS_after h.front.plan le_rfl
    have htime : c.start.time = c.time := by
      unfold MotionCtrl.start
      split
      · exact (sameButProf_optimize _).time
      · rfl
    refine ⟨j', js, t, g4, by rw [g1.request, hmapr], ?_, htime, g5, fun τ hw => ?_⟩
    · rw [(g1.still t (by show i.doneT + l.duration ≤ t; rw [h.front.doneT]; exact ht.le) le_rfl).1, hSE]
      exact stopS_after h.front.plan (by rw [h.front.doneT]; exact ht.le)
    · have hT : ∀ a ∈ js, a.T ≤ τ := by
        intro a ha
        have : (a.r, a.f) ∈ rs.map (fun r => (r, r.vFeed * c.overrides.feedOverride)) := by
          rw [← g2]; exact List.mem_map_of_mem (f := fun j : Job => (j.r, j.f)) ha
        obtain ⟨r, h1, h2⟩ := List.mem_map.1 this
        simp only [Prod.mk.injEq] at h2
        refine within_of_ok (g3 a ha) ?_
        rw [← h2.1, ← h2.2]; exact hw r (List.mem_cons_of_mem _ h1)
      have h1 := total_le_of hT
      obtain ⟨v, a, w1, w2, w3, w4⟩ := hw j.r List.mem_cons_self
      have hs0 : 0 ≤ (brakeOf i l).S (brakeOf i l).E := by
        rw [hSE, h.front.doneL]
        have h7 := h.front.sound.forward 0 u le_rfl h.front.range.1 h.front.range.2
        rw [h.front.sound.start] at h7
        have := (stop_facts h.front.base h.front.plan).2.2.2.1
        linarith
      have hsl : (brakeOf i l).S (brakeOf i l).E < j.L := by
        rw [hSE]
        have := stops_end h.front.plan h.front.base.vE
        have := h.front.length
        linarith
      have h2 := g1.soon hs0 hsl w1 w2 w3
      change 2 * j.L / v ≤ τ at w4
      have e : (j.r :: rs).length = js.length + 1 := by rw [← hmapr]; simp
      rw [e]; push_cast; linarith

/-- The motion in progress can be planned again: its acceleration is over, and its end is not yet reached. -/
def CanReplan (M : Machine) (c : MotionCtrl M.kit) : Prop :=
  c.buffer.getHead.prof.PastLeft c.time.timeInMotion ∧ ∃ r s, c.buffer.getHead.request = some r ∧
    c.buffer.getHead.prof.s c.time.timeInMotion = fin s ∧ s < val r.trajectory.length

/-- When `start()` may be called: while the controller is stopped, or while the motion in progress can be planned again. -/
def CanStart (M : Machine) (c : MotionCtrl M.kit) : Prop := c.state = .stopped ∨ c.state = .running ∧ CanReplan M c

/-- `start()` while the queue is not empty. -/
theorem Stage.begin (hM : M.Ok) {done todo s} {c : MotionCtrl M.kit} (h : Stage M δ d done todo s c) (hst : CanStart M c)
    (hne : todo ≠ []) (hcon : Connected M.n d (done ++ todo)) (hr : ∀ r ∈ todo, Executable M.n r)
    (ho : ∀ r ∈ todo, (r.vFeed * c.overrides.feedOverride).Pos) :
    ∃ j js u, Running M δ (M.perTick δ) j js u c.start ∧ todo = j.r :: js.map Job.r ∧ s = j.S u ∧ c.start.time = c.time ∧
      c.start.overrides = c.overrides ∧
      ∀ τ, (∀ r ∈ todo, Within M r (r.vFeed * c.overrides.feedOverride) τ) → j.T - u + total js ≤ todo.length * τ := by
  rcases hst with hst | ⟨hst, hpl, r, x, e1, e2, hx⟩
  · exact h.start hM hst hne hcon hr ho
  cases h with
  | parked h => rw [h.state] at hst; simp at hst
  | braking h hm => rcases h.phase with ⟨-, h2⟩ | ⟨-, -, h2⟩ <;> · rw [h2] at hst; simp at hst
  | @moving _ j js u h =>
    rw [h.clock.now] at hpl e2
    have hrn := h.queue.getHead
    obtain rfl : r = j.r := by rw [hrn.request] at e1; exact (Option.some.inj e1).symm
    obtain rfl : x = j.S u := (Num.fin.inj ((hrn.s u h.line.begun).symm.trans e2)).symm
    obtain ⟨j', js', g1, g2, g3, g4, g5, -⟩ := restart h hpl hx (fun r h => hr r (List.mem_cons_of_mem _ h)) ho
    have hmapr : js'.map Job.r = js.map Job.r := by
      have := congrArg (List.map Prod.fst) g2
      rw [List.map_map, List.map_map] at this
      simpa [Function.comp_def] using this
    have htime : c.start.time = c.time := by
      unfold MotionCtrl.start
      split
      · exact (sameButProf_optimize _).time
      · rfl
    refine ⟨j', js', u, g4, by rw [g1.request, hmapr], (g1.before u le_rfl).1.symm, htime, g5, fun τ hw => ?_⟩
    have hT : ∀ a ∈ js', a.T ≤ τ := by
      intro a ha
      have : (a.r, a.f) ∈ (js.map Job.r).map (fun r => (r, r.vFeed * c.overrides.feedOverride)) := by
        rw [← g2]; exact List.mem_map_of_mem (f := fun j : Job => (j.r, j.f)) ha
      obtain ⟨r, h1, h2⟩ := List.mem_map.1 this
      simp only [Prod.mk.injEq] at h2
      refine within_of_ok (g3 a ha) ?_
      rw [← h2.1, ← h2.2]; exact hw r (List.mem_cons_of_mem _ h1)
    have h1 := total_le_of hT
    obtain ⟨v, a, w1, w2, w3, w4⟩ := hw j.r List.mem_cons_self
    have h0 := hrn.ok.forward 0 u le_rfl h.nonneg h.le
    rw [hrn.ok.start] at h0
    have h2 := g1.soon h0 hx w1 w2 w3
    change 2 * j.L / v ≤ τ at w4
    have e : (j.r :: js.map Job.r).length = js'.length + 1 := by rw [← hmapr]; simp
    rw [e]; push_cast; linarith

/-- There is room to stop: the acceleration of the motion in progress is over, and the rest of its path is longer than what is
needed to come to rest, with the jerk of the machine and some deceleration that is allowed. -/
def CanStop (M : Machine) (c : MotionCtrl M.kit) : Prop :=
  c.buffer.getHead.prof.PastLeft c.time.timeInMotion ∧ ∃ r s v v₁ a, c.buffer.getHead.request = some r ∧
    c.buffer.getHead.prof.s c.time.timeInMotion = fin s ∧ c.buffer.getHead.prof.v c.time.timeInMotion = fin v ∧
    Allowed M r v₁ a ∧ v * max (√(v / M.jMax)) (v / a) < val r.trajectory.length - s

theorem Stage.stop (hM : M.Ok) (hδ : 0 < δ) {done todo s} {c : MotionCtrl M.kit} (h : Stage M δ d done todo s c) (hst : c.state = .running)
    (hc : CanStop M c) (ho : ∀ r ∈ todo, (r.vFeed * c.overrides.feedOverride).Pos) :
    Stage M δ d done todo s c.stop ∧ c.stop.time = c.time ∧ c.stop.overrides = c.overrides := by
  cases h with
  | parked h => rw [h.state] at hst; simp at hst
  | braking h hm => rcases h.phase with ⟨-, h2⟩ | ⟨-, -, h2⟩ <;> · rw [h2] at hst; simp at hst
  | @moving _ j js u h =>
    obtain ⟨hpl, r, s, v, v₁, a, e1, e2, e3, hall, hroom⟩ := hc
    rw [h.clock.now] at hpl
    have hrn := h.queue.getHead
    have hr : r = j.r := by rw [hrn.request] at e1; exact (Option.some.inj e1).symm
    subst hr
    have hs : s = j.S u := by
      rw [h.clock.now] at e2
      have := (hrn.s u h.line.begun).symm.trans e2
      exact (Num.fin.inj this).symm
    have hv : v = j.V u := by
      rw [h.clock.now] at e3
      have := (hrn.v u h.line.begun).symm.trans e3
      exact (Num.fin.inj this).symm
    subst hs hv
    obtain ⟨⟨i, l, rr, m, s1⟩, s2, s3, s4, s5, s6, -, s8⟩ := stop_line h.line h.clock h.nonneg h.le hpl (by
      rw [List.map_cons]; exact ho)
    have hk := s1.brake hM
    have hl := (stop_facts s1.base s1.plan).1
    have hSE : (brakeOf i l).S (brakeOf i l).E = i.doneL + l.length := stopS_after s1.plan le_rfl
    have hm : 0 < m := by
      have hd := hk.distance
      have hq := hk.quick _ _ hall
      have hend := stops_end s1.plan s1.base.vE
      have hlen := s1.length
      have haft := hk.after
      rw [hSE] at hd
      change _ < j.L - _ at hroom
      rcases le_or_gt 0 (j.V u) with hV | hV
      · have := mul_le_mul_of_nonneg_left hq hV
        nlinarith
      · have hz : max (√(j.V u / M.jMax)) (j.V u / a) = 0 := by
          rw [Real.sqrt_eq_zero_of_nonpos (div_nonpos_of_nonpos_of_nonneg hV.le hM.jMax.le), max_eq_left]
          exact div_nonpos_of_nonpos_of_nonneg hV.le hall.a0.le
        rw [hz, mul_zero] at hroom
        nlinarith
    have e := stopS_start s1.plan
    rw [s1.doneT, s1.doneL] at e
    refine ⟨?_, s3, s6⟩
    rw [← e]
    refine .braking ⟨s1, s2, s3 ▸ h.clock, le_rfl, .inl ⟨by linarith, s4⟩, fun _ axis ha => ?_⟩ hm
    rw [e, s5, s8]
    exact h.near axis ha

/-! ## Getting to the end -/

/-- All motions will be over within the time `X`, or they are. -/
def Due (M : Machine) (δ : ℝ) (d : Nat → ℝ) (rs : List SimplifiedMotion) (X : ℝ) (c : MotionCtrl M.kit) : Prop :=
  (∃ done j js u, done ++ j.r :: js.map Job.r = rs ∧ Running M δ (M.perTick δ) j js u c ∧ j.T - u + total js ≤ X) ∨
    Parked M δ d rs [] c

theorem Due.signals {rs : List SimplifiedMotion} {X : ℝ} {c : MotionCtrl M.kit} (h : Due M δ d rs X c) (x) :
    Due M δ d rs X { c with signals := x } := by
  rcases h with ⟨done, j, js, u, h1, h2, h3⟩ | h
  · exact .inl ⟨done, j, js, u, h1, ⟨h2.state, h2.line, h2.clock, h2.nonneg, h2.le, h2.near⟩, h3⟩
  · exact .inr ⟨h.state, h.queue, h.clock, h.near⟩

theorem Due.tick (hs : Suited M δ (M.perTick δ)) {rs : List SimplifiedMotion} {X : ℝ} {c c' : MotionCtrl M.kit} {x}
    (h : Due M δ d rs X c) (hall : ∀ r ∈ rs, Sensible M δ r) (hcon : Connected M.n d rs)
    (hidx : c.time.sampleIndex + 1 < 2 ^ 32) (ht : c.tick = some (c', x)) : Due M δ d rs (X - δ) c' := by
  rcases h with ⟨done, j, js, u, rfl, h, hX⟩ | h
  · have hcons : ∀ j' ∈ j :: js, j'.r ∈ done ++ j.r :: js.map Job.r := fun j' hj' => by
      rw [← List.map_cons]; exact List.mem_append_right _ (List.mem_map_of_mem hj')
    have hsound : ∀ j' ∈ j :: js, j'.Sound M := by
      intro j' hj'
      obtain ⟨k, hk, rfl⟩ := List.getElem_of_mem hj'
      exact (h.queue.cell k hk).ok
    have hjoint : ∀ j' js', js = j' :: js' → ∀ axis, axis < M.n → place j'.r axis 0 = place j.r axis j.L := by
      rintro j' js' rfl axis ha
      have : Connected M.n d ((done ++ [j.r]) ++ j'.r :: js'.map Job.r) := by
        simpa [List.append_assoc] using hcon
      have := connected_mid this axis ha
      rw [this, endOf_snoc]; rfl
    rcases h.tick_index hs (fun j' hj' => (hall _ (hcons j' hj')).range) hidx
      (.inr ⟨fun _ _ => rfl, fun j' hj' => Job.long_of (hsound j' hj') (hall _ (hcons j' hj')).long⟩) ht hjoint with
      ⟨h1, h2⟩ | ⟨h1, j', js', rfl, h2⟩ | ⟨h1, rfl, h2⟩
    · exact .inl ⟨done, j, js, u + δ, rfl, h2, by linarith⟩
    · refine .inl ⟨done ++ [j.r], j', js', u + δ - j.T, by simp, h2, ?_⟩
      rw [total_cons] at hX
      linarith
    · refine .inr ⟨h2.state, ⟨h2.queue.head, h2.queue.level, by simp, fun k hk => by simp at hk⟩, h2.clock, fun axis ha => ?_⟩
      have e : done ++ j.r :: ([] : List Job).map Job.r = done ++ [j.r] := rfl
      rw [e, endOf_snoc]; exact h2.near axis ha
  · have hn : c.isRunning = false := by simp [isRunning, h.state]
    unfold MotionCtrl.tick at ht
    simp only [hn, Bool.false_eq_true, if_false, Option.some.injEq, Prod.mk.injEq] at ht
    obtain ⟨rfl, -⟩ := ht
    exact .inr ⟨h.state, h.queue, h.clock, h.near⟩

theorem Due.calcLoop (hs : Suited M δ (M.perTick δ)) {rs : List SimplifiedMotion} (hall : ∀ r ∈ rs, Sensible M δ r)
    (hcon : Connected M.n d rs) (fuel : Nat) : ∀ {X : ℝ} {c c' : MotionCtrl M.kit} {e ts}, Due M δ d rs X c →
      MotionCtrl.calcLoop fuel c = some (c', e, ts) → c.time.sampleIndex + ts.length < 2 ^ 32 →
      Due M δ d rs (X - ts.length * δ) c' ∧ c'.time.sampleIndex ≤ c.time.sampleIndex + ts.length := by
  induction fuel with
  | zero => intro _ _ _ _ _ _ h; simp [MotionCtrl.calcLoop] at h
  | succ fuel ih =>
    intro X c c' e ts h hc hidx
    unfold MotionCtrl.calcLoop at hc
    split at hc
    · simp at hc
    · rename_i c₁ x hx
      have hi := tick_index_le hx
      split at hc
      · simp only [Option.some.injEq, Prod.mk.injEq] at hc
        obtain ⟨rfl, rfl, rfl⟩ := hc
        have := h.tick hs hall hcon (by simpa using hidx) hx
        exact ⟨by simpa using this.signals _, by simpa using hi⟩
      · simp only [Option.map_eq_some_iff, Prod.exists, Prod.mk.injEq] at hc
        obtain ⟨c₂, e₂, ts₂, h2, rfl, rfl, rfl⟩ := hc
        rw [List.length_cons] at hidx
        have h1 := h.tick hs hall hcon (by omega) hx
        obtain ⟨b1, b2⟩ := ih h1 h2 (by omega)
        rw [List.length_cons]
        refine ⟨?_, by omega⟩
        push_cast
        rwa [show X - ((ts₂.length : ℝ) + 1) * δ = X - δ - ts₂.length * δ by ring]

theorem Due.over {rs : List SimplifiedMotion} {X : ℝ} {c : MotionCtrl M.kit} (h : Due M δ d rs X c) (hX : X < 0) :
    Parked M δ d rs [] c := by
  rcases h with ⟨done, j, js, u, -, h, h3⟩ | h
  · have : 0 ≤ total js := total_nonneg fun j' hj' => by
      obtain ⟨k, hk, rfl⟩ := List.getElem_of_mem (List.mem_cons_of_mem j hj')
      exact (h.queue.cell k hk).ok.pos.le
    linarith [h.le]
  · exact h

end

end Moovr
