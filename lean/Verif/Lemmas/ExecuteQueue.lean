import Verif.Lemmas.Execute
/-!
# Filling the queue and starting it
-/
namespace Moovr
open Num ExecSpec MotionCtrl

/-- The queue holds motions related to the elements of a list, in order. -/
structure Queue {K : MotionKit} {α : Type} (R : Motion K → α → Prop) (b : MotionBuffer K) (l : List α) : Prop where
  head : b.head < 32
  level : b.level = l.length
  max : l.length ≤ 32
  cell : ∀ k (h : k < l.length), R (b.cells ((b.head + k) % 32)) l[k]

theorem Queue.mono {K : MotionKit} {α : Type} {R R' : Motion K → α → Prop} {b : MotionBuffer K} {l : List α}
    (h : Queue R b l) (hR : ∀ x a, a ∈ l → R x a → R' x a) : Queue R' b l :=
  ⟨h.head, h.level, h.max, fun k hk => hR _ _ (List.getElem_mem hk) (h.cell k hk)⟩

theorem append_cells {M : Machine} (hM : M.Ok) {c : MotionCtrl M.kit} (hh : c.buffer.head < 32)
    {r : SimplifiedMotion} (hr : Moves M.n r (val r.trajectory.length))
    (ho : (r.vFeed * c.overrides.feedOverride).Pos) (hl : c.buffer.level < 32) :
    (c.append r).buffer.level = c.buffer.level + 1 ∧
    (∀ k, k < c.buffer.level → (c.append r).buffer.cells (((c.append r).buffer.head + k) % 32) =
      c.buffer.cells ((c.buffer.head + k) % 32)) ∧
    Ready M c.overrides.feedOverride c.strategy
      ((c.append r).buffer.cells (((c.append r).buffer.head + c.buffer.level) % 32)) r ∧
    (c.append r).buffer.head = c.buffer.head ∧
    (c.append r).time = c.time ∧ (c.append r).state = c.state ∧ (c.append r).overrides = c.overrides ∧
    (c.append r).machinePosition = c.machinePosition ∧ (c.append r).events = c.events := by
  have hnf : (!c.buffer.isFull) = true := by
    simp [MotionBuffer.isFull, MotionBuffer.length, hl]
  have e : c.append r = { c with buffer := { c.buffer with
      level := u32add c.buffer.level 1
      cells := fun j => if j = (c.buffer.head + c.buffer.level) % 32 then
        ⟨some r, M.kit.setTraj (c.buffer.cells ((c.buffer.head + c.buffer.level) % 32)).traj
            (c.buffer.cells ((c.buffer.head + c.buffer.level) % 32)).prof r,
          M.kit.setProf (c.buffer.cells ((c.buffer.head + c.buffer.level) % 32)).traj
            (c.buffer.cells ((c.buffer.head + c.buffer.level) % 32)).prof r c.overrides c.strategy⟩
        else c.buffer.cells j } } := by
    unfold append
    rw [if_pos hnf]
    rfl
  have hold : ∀ k, k < c.buffer.level → (c.buffer.head + k) % 32 ≠ (c.buffer.head + c.buffer.level) % 32 := by
    intro k hk; omega
  have hnew : Ready M c.overrides.feedOverride c.strategy ⟨some r, M.kit.setTraj (c.buffer.cells ((c.buffer.head + c.buffer.level) % 32)).traj
            (c.buffer.cells ((c.buffer.head + c.buffer.level) % 32)).prof r,
          M.kit.setProf (c.buffer.cells ((c.buffer.head + c.buffer.level) % 32)).traj
            (c.buffer.cells ((c.buffer.head + c.buffer.level) % 32)).prof r c.overrides c.strategy⟩ r := by
    refine ⟨⟨rfl, hr.type, ?_⟩, restPlan_set hM hr _ _ _ ho _⟩
    show (MotionItem.setPath _ r).trajectory = _
    have ht := hr.type
    unfold MotionItem.setPath; rcases h : r.type <;> simp_all [MotionType.moves]
  rw [e]
  refine ⟨u32add_of_lt (by omega), ?_, ?_, rfl, rfl, rfl, rfl, rfl, rfl⟩
  · intro k hk
    simp only [if_neg (hold k hk)]
  · simp only [if_true]
    exact hnew

theorem append_queue {M : Machine} (hM : M.Ok) {c : MotionCtrl M.kit} {rs : List SimplifiedMotion}
    (h : Queue (Waits M) c.buffer rs) {r : SimplifiedMotion} (hr : Moves M.n r (val r.trajectory.length))
    (ho : (r.vFeed * c.overrides.feedOverride).Pos) (hl : rs.length < 32) :
    Queue (Waits M) (c.append r).buffer (rs ++ [r]) ∧
    (∀ k, k < rs.length → (c.append r).buffer.cells (((c.append r).buffer.head + k) % 32) =
      c.buffer.cells ((c.buffer.head + k) % 32)) ∧
    Ready M c.overrides.feedOverride c.strategy ((c.append r).buffer.cells (((c.append r).buffer.head + rs.length) % 32)) r ∧
    (c.append r).buffer.head = c.buffer.head ∧
    (c.append r).time = c.time ∧ (c.append r).state = c.state ∧ (c.append r).overrides = c.overrides ∧
    (c.append r).machinePosition = c.machinePosition ∧ (c.append r).events = c.events := by
  have hlv := h.level
  obtain ⟨q0, q2, q3, q4, q5⟩ := append_cells hM h.head hr ho (by omega)
  rw [hlv] at q0 q2 q3
  refine ⟨⟨by rw [q4]; exact h.head, by rw [q0]; simp, by simp; omega, fun k hk => ?_⟩, q2, q3, q4, q5⟩
  simp only [List.length_append, List.length_singleton] at hk
  rcases Nat.lt_or_ge k rs.length with hk' | hk'
  · rw [q2 k hk', List.getElem_append_left hk']
    exact h.cell k hk'
  · have : k = rs.length := by omega
    subst this
    simp only [List.getElem_append_right le_rfl, Nat.sub_self, List.getElem_singleton]
    exact ⟨_, _, q3⟩

/-- The cells after `optimizePair`. -/
theorem optimizePair_cells {K : MotionKit} (c : MotionCtrl K) (j : Nat)
    (hne : (c.buffer.head + j) % 32 ≠ (c.buffer.head + j + 1) % 32) (i : Nat) :
    (c.optimizePair j).buffer.cells i =
      if i = (c.buffer.head + j + 1) % 32 then
        { c.buffer.cells i with
          prof := K.optimize c.overrides c.strategy (c.buffer.cells i).traj (K.startAtRest (c.buffer.cells i).prof) }
      else if i = (c.buffer.head + j) % 32 then
        { c.buffer.cells i with
          prof := K.optimize c.overrides c.strategy (c.buffer.cells i).traj
            (if j = 0 then
              K.optimizeAt c.overrides c.strategy c.time.timeInMotion (c.buffer.cells i).traj (K.endAtRest (c.buffer.cells i).prof)
            else K.endAtRest (c.buffer.cells i).prof) }
      else c.buffer.cells i := by
  unfold optimizePair
  simp only [MotionBuffer.length]
  generalize (c.buffer.head + j) % 32 = A at *
  generalize (c.buffer.head + j + 1) % 32 = B at *
  by_cases hj : 0 = j
  · subst hj
    simp only [if_true, MotionBuffer.updProf]
    by_cases h1 : i = B
    · subst h1
      simp [hne, Ne.symm hne]
    · by_cases h2 : i = A
      · subst h2
        simp [hne]
      · simp [h1, h2]
  · have hj' : j ≠ 0 := fun h => hj h.symm
    simp only [if_neg hj, if_neg hj', MotionBuffer.updProf]
    by_cases h1 : i = B
    · subst h1
      simp [Ne.symm hne]
    · by_cases h2 : i = A
      · subst h2
        simp [hne]
      · simp [h1, h2]

theorem Holds.withProf {M : Machine} {r : SimplifiedMotion} {x : Motion M.kit} (h : Holds M r x) (p : Profile) :
    Holds M r { x with prof := p } := ⟨h.request, h.type, h.traj⟩

theorem Holds.length {M : Machine} {r : SimplifiedMotion} {x : Motion M.kit} (h : Holds M r x) :
    x.traj.trajectory.length = r.trajectory.length := by rw [h.traj]; rfl

/-- Re-planning a pair of waiting motions. -/
theorem optimizePair_queue {M : Machine} {c : MotionCtrl M.kit} {rs : List SimplifiedMotion}
    (h : Queue (Waits M) c.buffer rs) (ho : ∀ r ∈ rs, (r.vFeed * c.overrides.feedOverride).Pos)
    (ht : c.time.timeInMotion = fin 0) {j : Nat} (hj : j + 1 < rs.length) :
    Queue (Waits M) (c.optimizePair j).buffer rs ∧
    ∀ k (hk : k < rs.length), (k = j ∨ k = j + 1 ∨ Ready M c.overrides.feedOverride c.strategy (c.buffer.cells ((c.buffer.head + k) % 32)) rs[k]) →
      Ready M c.overrides.feedOverride c.strategy ((c.optimizePair j).buffer.cells (((c.optimizePair j).buffer.head + k) % 32)) rs[k] := by
  have hs := sameButProf_pair c j
  have hmax := h.max; have hhd := h.head
  have hne : (c.buffer.head + j) % 32 ≠ (c.buffer.head + j + 1) % 32 := by omega
  have key : ∀ k (hk : k < rs.length),
      let x := c.buffer.cells ((c.buffer.head + k) % 32)
      let y := (c.optimizePair j).buffer.cells (((c.optimizePair j).buffer.head + k) % 32)
      ((k = j ∨ k = j + 1) ∧ Ready M c.overrides.feedOverride c.strategy y rs[k]) ∨ (¬ (k = j ∨ k = j + 1) ∧ y = x) := by
    intro k hk x y
    have hk32 : k < 32 := by omega
    obtain ⟨ov, st, hh, hp⟩ := h.cell k hk
    have hok := ho _ (List.getElem_mem hk)
    have ey : y = (c.optimizePair j).buffer.cells ((c.buffer.head + k) % 32) := by
      show (c.optimizePair j).buffer.cells _ = _
      rw [hs.head]
    rw [optimizePair_cells c j hne] at ey
    by_cases h1 : k = j + 1
    · left
      refine ⟨.inr h1, ?_⟩
      subst h1
      rw [if_pos (by rw [Nat.add_assoc])] at ey
      rw [ey]
      refine ⟨hh.withProf _, ?_⟩
      show RestPlan M _ _ _ (MotionItem.optimize M _ _ _ (M.kit.startAtRest _))
      rw [hp.startAtRest]
      exact hp.optimize hh.type hh.length hok _
    · rw [if_neg (by omega)] at ey
      by_cases h2 : k = j
      · left
        refine ⟨.inl h2, ?_⟩
        subst h2
        rw [if_pos rfl] at ey
        by_cases hk0 : k = 0
        · rw [if_pos hk0] at ey
          rw [ey]
          refine ⟨hh.withProf _, ?_⟩
          show RestPlan M _ _ _ (MotionItem.optimize M _ _ _ (MotionItem.optimizeAt M _ _ _ _ (M.kit.endAtRest _)))
          rw [hp.endAtRest, ht]
          exact (hp.optimizeAt hh.type hh.length hok c.strategy).optimize hh.type hh.length hok _
        · rw [if_neg hk0] at ey
          rw [ey]
          refine ⟨hh.withProf _, ?_⟩
          show RestPlan M _ _ _ (MotionItem.optimize M _ _ _ (M.kit.endAtRest _))
          rw [hp.endAtRest]
          exact hp.optimize hh.type hh.length hok _
      · right
        rw [if_neg (by omega)] at ey
        exact ⟨by omega, ey⟩
  refine ⟨⟨by rw [hs.head]; exact h.head, by rw [hs.level]; exact h.level, h.max, fun k hk => ?_⟩, ?_⟩
  · rcases key k hk with ⟨-, hr⟩ | ⟨-, e⟩
    · exact ⟨_, _, hr⟩
    · rw [e]; exact h.cell k hk
  · intro k hk hc
    rcases key k hk with ⟨-, hr⟩ | ⟨hn, e⟩
    · exact hr
    · rw [e]
      rcases hc with hc | hc | hc
      · exact absurd (.inl hc) hn
      · exact absurd (.inr hc) hn
      · exact hc

theorem MotionCtrl.SameButProf.strategy {K : MotionKit} {c c' : MotionCtrl K} (h : SameButProf c c') : c'.strategy = c.strategy := by
  unfold MotionCtrl.strategy; rw [h.state]

theorem optimizePairs_queue {M : Machine} (js : List Nat) {c : MotionCtrl M.kit} {rs : List SimplifiedMotion}
    (h : Queue (Waits M) c.buffer rs) (ho : ∀ r ∈ rs, (r.vFeed * c.overrides.feedOverride).Pos)
    (ht : c.time.timeInMotion = fin 0) (hj : ∀ j ∈ js, j + 1 < rs.length) :
    Queue (Waits M) (js.foldl optimizePair c).buffer rs ∧
    ∀ k (hk : k < rs.length), ((∃ j ∈ js, k = j ∨ k = j + 1) ∨
        Ready M c.overrides.feedOverride c.strategy (c.buffer.cells ((c.buffer.head + k) % 32)) rs[k]) →
      Ready M c.overrides.feedOverride c.strategy ((js.foldl optimizePair c).buffer.cells (((js.foldl optimizePair c).buffer.head + k) % 32)) rs[k] := by
  induction js generalizing c with
  | nil => exact ⟨h, fun k hk hc => hc.elim (fun ⟨_, h, _⟩ => by simp at h) id⟩
  | cons j js ih =>
    have hs := sameButProf_pair c j
    obtain ⟨h1, h2⟩ := optimizePair_queue h ho ht (hj j List.mem_cons_self)
    have est := hs.strategy
    obtain ⟨i1, i2⟩ := ih (c := c.optimizePair j) h1 (by rw [hs.ovr]; exact ho) (by rw [hs.time]; exact ht)
      (fun j' hj' => hj j' (List.mem_cons_of_mem _ hj'))
    rw [est, hs.ovr] at i2
    refine ⟨i1, fun k hk hc => i2 k hk ?_⟩
    by_cases hjs : ∃ j ∈ js, k = j ∨ k = j + 1
    · exact .inl hjs
    · refine .inr (h2 k hk ?_)
      rcases hc with ⟨j', hj', hc⟩ | hc
      · rcases List.mem_cons.1 hj' with rfl | hj'
        · exact hc.elim .inl (fun h => .inr (.inl h))
        · exact absurd ⟨j', hj', hc⟩ hjs
      · exact .inr (.inr hc)

/-- Starting a queue of waiting motions plans all of them at maximum speed. -/
theorem start_queue {M : Machine} {c : MotionCtrl M.kit} {rs : List SimplifiedMotion} (hne : rs ≠ [])
    (h : Queue (Waits M) c.buffer rs) (ho : ∀ r ∈ rs, (r.vFeed * c.overrides.feedOverride).Pos)
    (ht : c.time.timeInMotion = fin 0) :
    Queue (Ready M c.overrides.feedOverride .maximizeSpeed) c.start.buffer rs ∧ c.start.time = c.time ∧ c.start.state = .running ∧
    c.start.overrides = c.overrides ∧ c.start.machinePosition = c.machinePosition ∧
    c.start.events = c.events ++ [.motionStarted] := by
  have hlen : 0 < rs.length := List.length_pos_iff.2 hne
  have hemp : (!c.buffer.isEmpty) = true := by
    simp [MotionBuffer.isEmpty, h.level]; omega
  obtain ⟨c₁, hc₁⟩ : ∃ c₁, c₁ = ({ c.pushEvent .motionStarted with state := .running } : MotionCtrl M.kit) := ⟨_, rfl⟩
  have e : c.start = c₁.optimize := by rw [hc₁]; unfold start; rw [if_pos hemp]
  have hb : c₁.buffer = c.buffer := by rw [hc₁]; rfl
  have ho₁ : c₁.overrides = c.overrides := by rw [hc₁]; rfl
  have ht₁ : c₁.time = c.time := by rw [hc₁]; rfl
  have hst : c₁.strategy = .maximizeSpeed := by rw [hc₁]; rfl
  have hs := sameButProf_optimize c₁
  rw [e]
  refine ⟨?_, by rw [hs.time, ht₁], by rw [hs.state, hc₁], by rw [hs.ovr, ho₁], by rw [hs.pos, hc₁]; rfl,
    by rw [hs.events, hc₁]; rfl⟩
  rw [← hb] at h
  rw [← ho₁] at ho ⊢
  rw [← ht₁] at ht
  have hmax := h.max
  refine ⟨by rw [hs.head]; exact h.head, by rw [hs.level]; exact h.level, h.max, fun k hk => ?_⟩
  unfold MotionCtrl.optimize
  rw [if_neg (by rw [h.level]; omega)]
  by_cases h1 : c₁.buffer.level = 1
  · rw [if_pos h1]
    have hk0 : k = 0 := by rw [h.level] at h1; omega
    subst hk0
    obtain ⟨ov, st, hh, hp⟩ := h.cell 0 hk
    have hhd : (c₁.buffer.head + 0) % 32 = c₁.buffer.head := by have := h.head; omega
    simp only [MotionBuffer.updProf]
    rw [hhd] at hh hp ⊢
    rw [if_pos rfl]
    refine ⟨hh.withProf _, ?_⟩
    show RestPlan M _ _ _ (MotionItem.optimizeAt M _ _ _ _ _)
    rw [ht, hst]
    exact hp.optimizeAt hh.type hh.length (ho _ (List.getElem_mem hk)) _
  · rw [if_neg h1, hst]
    simp only
    have hjn : junctions c₁.buffer.level = rs.length - 1 := by
      rw [h.level]; unfold junctions; rw [if_pos (by omega)]
    have := (optimizePairs_queue (List.range (junctions c₁.buffer.level)).reverse h ho ht (by
      intro j hj; rw [hjn] at hj; simp at hj; omega)).2 k hk
    rw [hst] at this
    refine this (.inl ?_)
    rw [hjn]
    have hl2 : rs.length ≠ 1 := by rw [← h.level]; exact h1
    rcases Nat.eq_zero_or_pos k with h0 | h0
    · exact ⟨0, by simp; omega, .inl h0⟩
    · exact ⟨k - 1, by simp; omega, .inr (by omega)⟩

end Moovr
