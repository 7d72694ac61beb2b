import Verif.Lemmas.Homing32
/-! Helper lemmas: the queue holds the trajectories of its requests, for any motion arithmetic; the ticks while one motion is made. -/
namespace Moovr

namespace MotionCtrl
open MotionSpec
variable {K : MotionKit}

/-- Each place of the queue that has a request holds its trajectory, and the head is a place of the queue. -/
structure Owned (c : MotionCtrl K) : Prop where
  queue : ∀ i r, (c.buffer.cells i).request = some r → ∃ x p, (c.buffer.cells i).traj = K.setTraj x p r
  head : c.buffer.head < 32

private theorem owned_upd {b : MotionBuffer K} (h : ∀ i r, (b.cells i).request = some r → ∃ x p, (b.cells i).traj = K.setTraj x p r)
    (j : Nat) (f : Motion K → K.Prof) :
    ∀ i r, ((b.updProf j f).cells i).request = some r → ∃ x p, ((b.updProf j f).cells i).traj = K.setTraj x p r := by
  intro i r
  have := h i r
  simp only [MotionBuffer.updProf]
  by_cases hi : i = j
  · subst hi; simpa using this
  · simpa [hi] using this

private theorem owned_pair {c : MotionCtrl K} (h : ∀ i r, (c.buffer.cells i).request = some r → ∃ x p, (c.buffer.cells i).traj = K.setTraj x p r)
    (j : Nat) : ∀ i r, ((c.optimizePair j).buffer.cells i).request = some r →
      ∃ x p, ((c.optimizePair j).buffer.cells i).traj = K.setTraj x p r := by
  unfold MotionCtrl.optimizePair
  simp only
  refine owned_upd (owned_upd ?_ _ _) _ _
  split
  · exact owned_upd (owned_upd (owned_upd h _ _) _ _) _ _
  · exact owned_upd (owned_upd h _ _) _ _

theorem owned_optimize {c : MotionCtrl K} (h : Owned c) : Owned c.optimize := by
  refine ⟨?_, by rw [(sameButProf_optimize c).head]; exact h.head⟩
  have hf : ∀ (l : List Nat) (c : MotionCtrl K),
      (∀ i r, (c.buffer.cells i).request = some r → ∃ x p, (c.buffer.cells i).traj = K.setTraj x p r) →
      ∀ i r, ((l.foldl MotionCtrl.optimizePair c).buffer.cells i).request = some r →
        ∃ x p, ((l.foldl MotionCtrl.optimizePair c).buffer.cells i).traj = K.setTraj x p r := by
    intro l
    induction l with
    | nil => exact fun _ h => h
    | cons j l ih => exact fun c h => ih _ (owned_pair h j)
  unfold MotionCtrl.optimize
  split
  · exact h.queue
  · split
    · exact owned_upd h.queue c.buffer.head fun m => K.optimizeAt c.overrides c.strategy c.time.timeInMotion m.traj m.prof
    · split <;> exact hf _ _ h.queue

theorem owned_start {c : MotionCtrl K} (h : Owned c) : Owned c.start := by
  unfold start
  split
  · exact owned_optimize ⟨h.queue, h.head⟩
  · exact h

theorem owned_stop {c : MotionCtrl K} (h : Owned c) : Owned c.stop := owned_optimize ⟨h.queue, h.head⟩

theorem owned_flush {c : MotionCtrl K} (h : Owned c) : Owned c.flushMotionBuffer := by
  unfold flushMotionBuffer
  split
  · exact ⟨h.queue, by simp [MotionBuffer.flush]⟩
  · exact h

theorem owned_append {c : MotionCtrl K} (h : Owned c) (r : K.Req) : Owned (c.append r) := by
  unfold append
  split
  · refine ⟨fun i q => ?_, h.head⟩
    simp only
    by_cases hi : i = c.buffer.push.2
    · rw [if_pos hi]
      rintro hq
      simp only [Option.some.injEq] at hq
      subst hq
      exact ⟨_, _, rfl⟩
    · rw [if_neg hi]; exact h.queue i q
  · exact ⟨h.queue, h.head⟩

theorem owned_settle (fuel : Nat) : ∀ {c : MotionCtrl K} {r}, Owned c → settle fuel c = some r → Owned r.1 := by
  induction fuel with
  | zero => intro c r _ h; simp [settle] at h
  | succ fuel ih =>
    intro c r hc h
    unfold settle at h
    split at h
    · split at h
      · exact ih (c := c.nextMotion) ⟨hc.queue, Nat.mod_lt _ (by decide)⟩ h
      · simp only [Option.some.injEq] at h
        subst h
        exact ⟨hc.queue, Nat.mod_lt _ (by decide)⟩
    · simp only [Option.some.injEq] at h
      subst h
      exact ⟨hc.queue, hc.head⟩

theorem owned_tick {c c' : MotionCtrl K} {t} (hc : Owned c) (h : c.tick = some (c', t)) : Owned c' := by
  unfold tick at h
  simp only at h
  split at h
  · simp only [Option.map_eq_some_iff, Prod.mk.injEq] at h
    obtain ⟨x, hx, rfl, -⟩ := h
    refine owned_settle _ ?_ hx
    unfold sampleAndCheckStop
    simp only
    split <;> exact ⟨hc.queue, hc.head⟩
  · simp only [Option.some.injEq, Prod.mk.injEq] at h
    obtain ⟨rfl, -⟩ := h
    exact ⟨hc.queue, hc.head⟩

theorem owned_calc {c : MotionCtrl K} {r} (hc : Owned c) (h : c.calcNext = some r) : Owned r.1 :=
  (calcLoop_inv (P := fun _ c => Owned c) (fun _ _ _ h => ⟨h.queue, h.head⟩) (fun _ _ _ _ h h' => owned_tick h h') _
    (k := 0) hc h).1

/-- A property that each tick preserves and that gives a property of the tick. -/
theorem calcLoop_each {P : MotionCtrl K → Prop} {Q : Tick (Option K.Req) → Prop} (hsig : ∀ c s, P c → P { c with signals := s })
    (htick : ∀ c c' t, P c → c.tick = some (c', t) → P c' ∧ Q t) (fuel : Nat) :
    ∀ {c c' : MotionCtrl K} {e ts}, P c → calcLoop fuel c = some (c', e, ts) → P c' ∧ ∀ t ∈ ts, Q t := by
  induction fuel with
  | zero => intro c c' e ts _ h; simp [calcLoop] at h
  | succ fuel ih =>
    intro c c' e ts hP h
    unfold calcLoop at h
    split at h
    · simp at h
    · rename_i c₁ x hx
      have h1 := htick _ _ _ hP hx
      split at h
      · simp only [Option.some.injEq, Prod.mk.injEq] at h
        obtain ⟨rfl, -, rfl⟩ := h
        exact ⟨hsig _ _ h1.1, by simpa using h1.2⟩
      · simp only [Option.map_eq_some_iff, Prod.exists, Prod.mk.injEq] at h
        obtain ⟨c₂, e₂, ts₂, h2, rfl, rfl, rfl⟩ := h
        have := ih h1.1 h2
        refine ⟨this.1, fun t ht => ?_⟩
        rcases List.mem_cons.1 ht with rfl | ht
        · exact h1.2
        · exact this.2 t ht

theorem run_each {P : MotionCtrl K → Prop} {Q : Tick (Option K.Req) → Prop} (hsig : ∀ c s, P c → P { c with signals := s })
    (htick : ∀ c c' t, P c → c.tick = some (c', t) → P c' ∧ Q t) (n : Nat) :
    ∀ {c c' : MotionCtrl K} {log}, P c → c.run (List.replicate n .calculate) = some (c', log) → P c' ∧ ∀ t ∈ ticksOf log, Q t := by
  induction n with
  | zero =>
    intro c c' log hP h
    rw [List.replicate_zero, run] at h
    simp only [Option.some.injEq, Prod.mk.injEq] at h
    obtain ⟨rfl, rfl⟩ := h
    exact ⟨hP, by simp [ticksOf]⟩
  | succ n ih =>
    intro c c' log hP h
    rw [List.replicate_succ, run] at h
    split at h
    · simp at h
    · rename_i c₁ x hx
      simp only [Option.map_eq_some_iff, Prod.exists, Prod.mk.injEq] at h
      obtain ⟨c₂, l, h1, rfl, rfl⟩ := h
      simp only [call, calcNext, Option.map_eq_some_iff, Prod.exists, Prod.mk.injEq] at hx
      obtain ⟨c₀, e, ts, h2, rfl, rfl⟩ := hx
      have a := calcLoop_each hsig htick _ hP h2
      have b := ih a.1 h1
      refine ⟨b.1, fun t ht => ?_⟩
      simp only [ticksOf, List.flatMap_cons, List.mem_append] at ht
      rcases ht with ht | ht
      · exact a.2 t ht
      · exact b.2 t ht

/-- While one motion is made, no tick has a step on an axis that does not take part. -/
theorem single_still {b : MotionBuffer K} (hb : b.level = 1) {a : Nat} (ha : K.isMoving b.getHead.traj a = false)
    {c c' : MotionCtrl K} {n : Nat} {log} (hc : c.state ≠ .stopped → c.buffer = b)
    (h : c.run (List.replicate n .calculate) = some (c', log)) : ∀ t ∈ ticksOf log, t.cmd a = none := by
  refine (run_each (P := fun c => c.state ≠ .stopped → c.buffer = b) (Q := fun t => t.cmd a = none) (fun _ _ h => h) ?_ n hc h).2
  intro c c' t hc h
  have h1 := (single_tick hb ha (x := c.machinePosition a) ⟨hc, rfl⟩ h)
  refine ⟨h1.queue, ?_⟩
  have h2 := tick_pos c c' t h a
  rw [h1.pos] at h2
  rcases ht : t.cmd a with _ | (_ | _)
  · rfl
  all_goals simp [ht, stepsOf] at h2

end MotionCtrl

namespace Board
open MotionCtrl
variable {K : MotionKit}

theorem fill_owned (k : Nat) : ∀ {b b' : Board K}, Owned b.ctrl → b.fill k = some b' → Owned b'.ctrl := by
  induction k with
  | zero =>
    intro b b' hb h
    simp only [fill, Option.some.injEq] at h
    subst h
    exact hb
  | succ k ih =>
    intro b b' hb h
    unfold fill at h
    split at h
    · cases h
    · rename_i r hr
      exact ih (by rw [withCtrl_ctrl]; exact owned_calc hb hr) h

theorem exec_owned (t : Target K) {b : Board K} (hb : Owned b.ctrl) (x : HomingAct) : Owned (exec t b x).ctrl := by
  cases x <;> simp only [exec]
  case push e => exact hb
  case stop => rw [withCtrl_ctrl]; exact owned_stop hb
  case flush => rw [withCtrl_ctrl]; exact owned_flush hb
  case append m => rw [withCtrl_ctrl]; exact owned_append hb _
  case go => rw [withCtrl_ctrl]; exact owned_start hb
  all_goals exact hb

theorem withHomer_owned (t : Target K) {b : Board K} (hb : Owned b.ctrl) (r : Homer × List HomingAct) :
    Owned (b.withHomer t r).ctrl := by
  unfold withHomer
  have : ∀ (l : List HomingAct) (b : Board K), Owned b.ctrl → Owned (l.foldl (exec t) b).ctrl := by
    intro l
    induction l with
    | nil => exact fun _ h => h
    | cons x l ih => exact fun b h => ih _ (exec_owned t h x)
  exact this _ _ hb

theorem loop_owned (t : Target K) {b b' : Board K} {r : Round} (hb : Owned b.ctrl) (h : b.loop t r = some b') : Owned b'.ctrl := by
  unfold loop at h
  split at h
  · cases h
  · rename_i b₁ h₁
    simp only [Option.some.injEq] at h
    subst h
    have h1 := fill_owned _ hb h₁
    have h2 : Owned (if r.expired then b₁.sample r.ports else b₁).ctrl := by
      split
      · rw [sample_ctrl]; exact h1
      · exact h1
    generalize (if r.expired then b₁.sample r.ports else b₁) = b₂ at h2
    unfold handle
    simp only
    split
    · exact withHomer_owned t (b := (b₂.onQueue .hasEvents).onQueue .pop) h2 _
    · exact h2

theorem loops_owned (t : Target K) (rs : List Round) : ∀ {b b' : Board K}, Owned b.ctrl → b.loops t rs = some b' → Owned b'.ctrl := by
  induction rs with
  | nil =>
    intro b b' hb h
    simp only [loops, Option.some.injEq] at h
    subst h
    exact hb
  | cons r rs ih =>
    intro b b' hb h
    unfold loops at h
    split at h
    · cases h
    · rename_i b₁ h₁
      exact ih (loop_owned t hb h₁) h

theorem setup_owned (t : Target K) (p : Ports) : Owned (setup t p).ctrl := by
  unfold setup
  simp only
  refine withHomer_owned t ?_ _
  rw [withCtrl_ctrl, withCtrl_ctrl]
  exact ⟨fun i r h => (nomatch h), show 0 < 32 by decide⟩

end Board
end Moovr
