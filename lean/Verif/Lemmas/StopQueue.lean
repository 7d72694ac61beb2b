import Verif.Lemmas.Brake
import Verif.Lemmas.ExecuteRun
/-!
# Stopping and resuming a queue of motions
-/
namespace Moovr
open Num ExecSpec MotionCtrl AccDec

/-! ## The queue behind the motion in progress -/

/-- The motions behind the first one. -/
structure Tail (M : Machine) (b : MotionBuffer M.kit) (rs : List SimplifiedMotion) : Prop where
  head : b.head < 32
  level : b.level = rs.length + 1
  max : rs.length < 32
  waits : ∀ k (hk : k < rs.length), Waits M (b.cells ((b.head + (k + 1)) % 32)) rs[k]

theorem Line.tail {M : Machine} {b : MotionBuffer M.kit} {j : Job} {js : List Job} {u : ℝ} (h : Line M b j js u) :
    Tail M b (js.map Job.r) := by
  have := h.queue.max
  refine ⟨h.queue.head, by rw [h.queue.level]; simp, by simp at this ⊢; omega, fun k hk => ?_⟩
  rw [List.getElem_map]
  exact h.waits k (by simpa using hk)

/-- What `optimizePair` does to the motion in progress. -/
noncomputable def replan {K : MotionKit} (c : MotionCtrl K) (x : Motion K) : Motion K :=
  { x with
    prof := K.optimize c.overrides c.strategy x.traj
      (K.optimizeAt c.overrides c.strategy c.time.timeInMotion x.traj (K.endAtRest x.prof)) }

/-- What `optimize` does to the only motion in the queue. -/
noncomputable def replan₁ {K : MotionKit} (c : MotionCtrl K) (x : Motion K) : Motion K :=
  { x with prof := K.optimizeAt c.overrides c.strategy c.time.timeInMotion x.traj x.prof }

theorem optimizePair_tail {M : Machine} {c : MotionCtrl M.kit} {rs : List SimplifiedMotion}
    (h : Tail M c.buffer rs) (ho : ∀ r ∈ rs, (r.vFeed * c.overrides.feedOverride).Pos) {j : Nat} (hj : j < rs.length) :
    Tail M (c.optimizePair j).buffer rs ∧
    (∀ k (hk : k < rs.length), (k + 1 = j ∨ k = j ∨
        Ready M c.overrides.feedOverride c.strategy (c.buffer.cells ((c.buffer.head + (k + 1)) % 32)) rs[k]) →
      Ready M c.overrides.feedOverride c.strategy
        ((c.optimizePair j).buffer.cells (((c.optimizePair j).buffer.head + (k + 1)) % 32)) rs[k]) ∧
    (c.optimizePair j).buffer.getHead = if j = 0 then replan c c.buffer.getHead else c.buffer.getHead := by
  have hs := sameButProf_pair c j
  have hmax := h.max; have hhd := h.head
  have hne : (c.buffer.head + j) % 32 ≠ (c.buffer.head + j + 1) % 32 := by omega
  have key : ∀ k (hk : k < rs.length),
      let x := c.buffer.cells ((c.buffer.head + (k + 1)) % 32)
      let y := (c.optimizePair j).buffer.cells (((c.optimizePair j).buffer.head + (k + 1)) % 32)
      ((k + 1 = j ∨ k = j) ∧ Ready M c.overrides.feedOverride c.strategy y rs[k]) ∨ (¬ (k + 1 = j ∨ k = j) ∧ y = x) := by
    intro k hk x y
    obtain ⟨ov, st, hh, hp⟩ := h.waits k hk
    have hok := ho _ (List.getElem_mem hk)
    have ey : y = (c.optimizePair j).buffer.cells ((c.buffer.head + (k + 1)) % 32) := by
      show (c.optimizePair j).buffer.cells _ = _
      rw [hs.head]
    rw [optimizePair_cells c j hne] at ey
    by_cases h1 : k = j
    · left
      refine ⟨.inr h1, ?_⟩
      subst h1
      rw [if_pos (by rw [Nat.add_assoc])] at ey
      rw [ey]
      refine ⟨hh.withProf _, ?_⟩
      show RestPlan M _ _ _ (MotionItem.optimize M _ _ _ (M.kit.startAtRest _))
      rw [hp.startAtRest]
      exact hp.optimize hh.type hh.length hok _
    · rw [if_neg (by omega)] at ey
      by_cases h2 : k + 1 = j
      · left
        refine ⟨.inl h2, ?_⟩
        subst h2
        rw [if_pos rfl, if_neg (by omega)] at ey
        rw [ey]
        refine ⟨hh.withProf _, ?_⟩
        show RestPlan M _ _ _ (MotionItem.optimize M _ _ _ (M.kit.endAtRest _))
        rw [hp.endAtRest]
        exact hp.optimize hh.type hh.length hok _
      · right
        rw [if_neg (by omega)] at ey
        exact ⟨by omega, ey⟩
  refine ⟨⟨by rw [hs.head]; exact h.head, by rw [hs.level]; exact h.level, h.max, fun k hk => ?_⟩, ?_, ?_⟩
  · rcases key k hk with ⟨-, hr⟩ | ⟨-, e⟩
    · exact ⟨_, _, hr⟩
    · rw [e]; exact h.waits k hk
  · intro k hk hc
    rcases key k hk with ⟨-, hr⟩ | ⟨hn, e⟩
    · exact hr
    · rw [e]
      rcases hc with hc | hc | hc
      · exact absurd (.inl hc) hn
      · exact absurd (.inr hc) hn
      · exact hc
  · show (c.optimizePair j).buffer.cells (c.optimizePair j).buffer.head = _
    rw [hs.head, optimizePair_cells c j hne, if_neg (by omega)]
    by_cases h0 : j = 0
    · subst h0
      rw [if_pos (by omega), if_pos rfl, if_pos rfl]
      rfl
    · rw [if_neg (by omega), if_neg h0]; rfl

theorem optimizePairs_tail {M : Machine} (js : List Nat) {c : MotionCtrl M.kit} {rs : List SimplifiedMotion}
    (h : Tail M c.buffer rs) (ho : ∀ r ∈ rs, (r.vFeed * c.overrides.feedOverride).Pos) (hj : ∀ j ∈ js, j < rs.length) :
    Tail M (js.foldl optimizePair c).buffer rs ∧
    (∀ k (hk : k < rs.length), ((∃ j ∈ js, k + 1 = j ∨ k = j) ∨
        Ready M c.overrides.feedOverride c.strategy (c.buffer.cells ((c.buffer.head + (k + 1)) % 32)) rs[k]) →
      Ready M c.overrides.feedOverride c.strategy
        ((js.foldl optimizePair c).buffer.cells (((js.foldl optimizePair c).buffer.head + (k + 1)) % 32)) rs[k]) ∧
    (js.foldl optimizePair c).buffer.getHead = (replan c)^[js.count 0] c.buffer.getHead := by
  induction js generalizing c with
  | nil => exact ⟨h, fun k hk hc => hc.elim (fun ⟨_, h, _⟩ => by simp at h) id, rfl⟩
  | cons j js ih =>
    have hs := sameButProf_pair c j
    obtain ⟨h1, h2, h3⟩ := optimizePair_tail h ho (hj j List.mem_cons_self)
    have est := hs.strategy
    obtain ⟨i1, i2, i3⟩ := ih (c := c.optimizePair j) h1 (by rw [hs.ovr]; exact ho)
      (fun j' hj' => hj j' (List.mem_cons_of_mem _ hj'))
    rw [est, hs.ovr] at i2
    have erep : replan (c.optimizePair j) = replan c := by
      unfold replan; rw [hs.ovr, est, hs.time]
    refine ⟨i1, fun k hk hc => i2 k hk ?_, ?_⟩
    · by_cases hjs : ∃ j ∈ js, k + 1 = j ∨ k = j
      · exact .inl hjs
      · refine .inr (h2 k hk ?_)
        rcases hc with ⟨j', hj', hc⟩ | hc
        · rcases List.mem_cons.1 hj' with rfl | hj'
          · exact hc.elim .inl (fun h => .inr (.inl h))
          · exact absurd ⟨j', hj', hc⟩ hjs
        · exact .inr (.inr hc)
    · rw [List.foldl_cons, i3, erep, h3]
      by_cases h0 : j = 0
      · subst h0
        rw [if_pos rfl, List.count_cons_self, Function.iterate_succ_apply]
      · rw [if_neg h0, List.count_cons_of_ne h0]

/-- Re-planning the whole queue, the first motion of which is in progress. -/
theorem optimize_tail {M : Machine} {c : MotionCtrl M.kit} {rs : List SimplifiedMotion}
    (h : Tail M c.buffer rs) (ho : ∀ r ∈ rs, (r.vFeed * c.overrides.feedOverride).Pos) :
    Tail M c.optimize.buffer rs ∧
    (∀ k (hk : k < rs.length), Ready M c.overrides.feedOverride c.strategy
        (c.optimize.buffer.cells ((c.optimize.buffer.head + (k + 1)) % 32)) rs[k]) ∧
    c.optimize.buffer.getHead = if rs = [] then
        replan₁ c c.buffer.getHead
      else replan c c.buffer.getHead := by
  have hlv := h.level
  have hs := sameButProf_optimize c
  by_cases h0 : rs = []
  · subst h0
    simp only [List.length_nil, Nat.zero_add] at hlv
    refine ⟨⟨by rw [hs.head]; exact h.head, by rw [hs.level]; exact h.level, h.max, fun k hk => by simp at hk⟩,
      fun k hk => by simp at hk, ?_⟩
    rw [if_pos rfl]
    show c.optimize.buffer.cells c.optimize.buffer.head = _
    rw [hs.head]
    unfold MotionCtrl.optimize
    rw [if_neg (by omega), if_pos hlv]
    simp only [MotionBuffer.updProf, if_true]
    rfl
  · have hpos : 0 < rs.length := List.length_pos_iff.2 h0
    have hmax := h.max
    have hjn : junctions c.buffer.level = rs.length := by
      rw [hlv]; unfold junctions; rw [if_pos (by omega)]; omega
    have fin : ∀ js : List Nat, (∀ j, j ∈ js ↔ j < rs.length) → js.count 0 = 1 → c.optimize = js.foldl optimizePair c →
        Tail M c.optimize.buffer rs ∧
        (∀ k (hk : k < rs.length), Ready M c.overrides.feedOverride c.strategy
            (c.optimize.buffer.cells ((c.optimize.buffer.head + (k + 1)) % 32)) rs[k]) ∧
        c.optimize.buffer.getHead = if rs = [] then
            replan₁ c c.buffer.getHead
          else replan c c.buffer.getHead := by
      intro js hjs hcnt e
      obtain ⟨t1, t2, t3⟩ := optimizePairs_tail js h ho (fun j hj => (hjs j).1 hj)
      rw [← e] at t1 t2 t3
      refine ⟨t1, fun k hk => t2 k hk (.inl ⟨k, (hjs k).2 hk, .inr rfl⟩), ?_⟩
      rw [if_neg h0, t3, hcnt]; rfl
    have hcnt : (List.range rs.length).count 0 = 1 :=
      List.count_eq_one_of_mem List.nodup_range (by simpa using hpos)
    rcases hst : c.strategy with _ | _
    · refine hst ▸ fin (List.range rs.length) (fun j => by simp) hcnt ?_
      unfold MotionCtrl.optimize
      rw [if_neg (by omega), if_neg (by omega), hst, hjn]
    · refine hst ▸ fin (List.range rs.length).reverse (fun j => by simp) (by rw [List.count_reverse]; exact hcnt) ?_
      unfold MotionCtrl.optimize
      rw [if_neg (by omega), if_neg (by omega), hst, hjn]

end Moovr
