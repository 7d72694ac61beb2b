import Verif.Lemmas.Stopping32
import Verif.Props.SingleRun
/-!
# Sampling a motion on a line, in single precision: how the axes follow
-/
namespace Moovr.Props
open Num Float32 Single MotionCtrl MotionSpec PulseSpec Straight32

/-- The computed position of an axis, in steps, after `k` of the samples from `K` on, of which `N` matter. -/
noncomputable def sampleAim (fpu : Fpu) (x d : Nat → ℝ) (L : ℝ) (H : ℝ → ℝ) (K N i k : Nat) : ℝ :=
  spot fpu x d L i (H (reading32 fpu width32 (K + min k N))) * 200

theorem slack_stop : 0 ≤ slack 62000 ∧ slack 62000 ≤ 74 / 10000 ∧ 739 / 100000 ≤ slack 62000 := by
  unfold slack; norm_num

/-- Points between the ends of the line. -/
theorem between_ends {x d : Nat → ℝ} {L s : ℝ} {i : Nat} (h : Straight32 x d L) (hi : i < 3) (s0 : 0 ≤ s) (s1 : s ≤ L) :
    |x i + d i * (s / L)| ≤ 300 := by
  have a := h.start i hi
  have b := h.stop i hi
  have hL := h.L_pos
  have q0 : 0 ≤ s / L := by positivity
  have q1 : s / L ≤ 1 := by rw [div_le_one hL]; exact s1
  rw [show x i + d i * (s / L) = (1 - s / L) * x i + (s / L) * (x i + d i) by ring]
  rw [abs_le] at a b ⊢
  constructor <;> nlinarith

/-- A motion along a line is sampled: the samples `K + 1` to `K + N` of the distance `H` are taken, then no more. -/
structure Sampled32 {fpu : Fpu} (r : SimplifiedMotion) (x d : Nat → ℝ) (L : ℝ) (H : ℝ → ℝ) (p : Profile32) (K N : Nat)
    (ts : List (Tick (Option SimplifiedMotion))) (C : Nat → MotionCtrl (cnc3axis32.kit32 fpu)) (X : Path32) : Prop where
  line : LineRequest r x d L
  law : ∀ u, p.s (num u) = num (H u)
  rate : ∀ k i, k < N → i < 3 →
    |spot fpu x d L i (H (reading32 fpu width32 (K + (k + 1)))) - spot fpu x d L i (H (reading32 fpu width32 (K + k)))| ≤ 49 / 10000
  falls : ∀ j k i, j ≤ k → k ≤ N → i < 3 →
    (0 ≤ dir d L i → spot fpu x d L i (H (reading32 fpu width32 (K + j))) ≤
      spot fpu x d L i (H (reading32 fpu width32 (K + k))) + 42 / 10 ^ 5) ∧
    (dir d L i ≤ 0 → spot fpu x d L i (H (reading32 fpu width32 (K + k))) ≤
      spot fpu x d L i (H (reading32 fpu width32 (K + j))) + 42 / 10 ^ 5)
  bound : ∀ k i, k ≤ N → i < 3 → |spot fpu x d L i (H (reading32 fpu width32 (K + k)))| ≤ 310
  ticks : Ticks (K := cnc3axis32.kit32 fpu) ts C
  path : X.trajectory = .ofReq r.trajectory
  active : ∀ k (hk : k < ts.length), k < N → (C (k + 1)).time.timeInMotion = num (reading32 fpu width32 (K + (k + 1))) ∧
        ts[k].active ≠ none ∧ (C (k + 1)).buffer.getHead.traj = X ∧ (C (k + 1)).buffer.getHead.prof = p
  over : ∀ k (hk : k < ts.length), N ≤ k → ts[k].active = none

namespace Sampled32
variable {fpu : Fpu} {r : SimplifiedMotion} {x d : Nat → ℝ} {L : ℝ} {H : ℝ → ℝ} {p : Profile32} {K N : Nat}
  {ts : List (Tick (Option SimplifiedMotion))} {C : Nat → MotionCtrl (cnc3axis32.kit32 fpu)} {X : Path32}

theorem follows (h : Sampled32 r x d L H p K N ts C X) {i : Nat} (hi : i < 3) (hd : dir d L i ≠ 0) :
    Follows32 cnc3axis32 fpu i ts.length C (nth ts) (sampleAim fpu x d L H K N i) 62000 := by
  refine ⟨?_, ?_, ?_, ?_, by norm_num, by norm_num, by have := hyst.1; linarith, by have := hyst.2; linarith⟩
  · intro k hk
    rw [h.ticks.tick k hk, nth_eq hk]; rfl
  · intro k hk ht
    have ht1 := ht.1
    rw [nth_eq hk] at ht1
    have hkN : k < N := by
      by_contra hc
      exact ht1 (h.over k hk (by omega))
    obtain ⟨a1, -, a2, a3⟩ := h.active k hk hkN
    refine ⟨_, ?_, rfl⟩
    unfold commanded32
    rw [a1, a2, a3, h.law, h.path, Nat.min_eq_left (show k + 1 ≤ N by omega)]
    exact position_eq h.line hi fpu _
  · intro k hk ht
    have hkN : N ≤ k := by
      by_contra hc
      push Not at hc
      obtain ⟨-, a1, a2, -⟩ := h.active k hk hc
      refine ht ⟨?_, hi, ?_⟩
      · rw [nth_eq hk]; exact a1
      · rw [a2, h.path]
        exact (isMoving_iff h.line hi).2 hd
    unfold sampleAim
    rw [Nat.min_eq_right (by omega), Nat.min_eq_right (by omega)]
  · intro k hk
    unfold sampleAim
    have := abs_le.1 (h.bound (min k N) i (min_le_right _ _) hi)
    rw [abs_le]
    constructor <;> linarith

theorem aim_rate (h : Sampled32 r x d L H p K N ts C X) {i : Nat} (hi : i < 3) (k : Nat) :
    |sampleAim fpu x d L H K N i (k + 1) - sampleAim fpu x d L H K N i k| ≤ 1 := by
  unfold sampleAim
  by_cases hk : k < N
  · rw [Nat.min_eq_left (show k + 1 ≤ N by omega), Nat.min_eq_left hk.le]
    have := abs_le.1 (h.rate k i hk hi)
    rw [abs_le]
    constructor <;> linarith
  · rw [Nat.min_eq_right (show N ≤ k + 1 by omega), Nat.min_eq_right (show N ≤ k by omega), sub_self, abs_zero]
    norm_num

theorem aim_falls (h : Sampled32 r x d L H p K N ts C X) {i : Nat} (hi : i < 3) {j k : Nat} (hjk : j ≤ k) :
    (0 ≤ dir d L i → sampleAim fpu x d L H K N i j ≤ sampleAim fpu x d L H K N i k + 84 / 1000) ∧
    (dir d L i ≤ 0 → sampleAim fpu x d L H K N i k ≤ sampleAim fpu x d L H K N i j + 84 / 1000) := by
  obtain ⟨a, c⟩ := h.falls (min j N) (min k N) i (by omega) (min_le_right _ _) hi
  unfold sampleAim
  norm_num at a c
  exact ⟨fun h => by have := a h; linarith, fun h => by have := c h; linarith⟩

/-- What happens on one axis. -/
theorem axis (h : Sampled32 r x d L H p K N ts C X) {i : Nat} (hi : i < 3)
    (h0 : d i ≠ 0 → |spot fpu x d L i (H (reading32 fpu width32 K)) * 200 - (C 0).machinePosition i| ≤
      1 / 2 + cnc3axis32.hysteresis + slack 62000) :
    (d i = 0 → (∀ k, k ≤ ts.length → (C k).machinePosition i = (C 0).machinePosition i) ∧ ∀ t ∈ ts, t.cmd i = none) ∧
    (d i ≠ 0 → ∀ k, k ≤ ts.length →
      |sampleAim fpu x d L H K N i k - (C k).machinePosition i| ≤ 1 / 2 + cnc3axis32.hysteresis + slack 62000) ∧
    (0 < d i → ts.Pairwise fun t t' => t.cmd i = some .forward → t'.cmd i ≠ some .backward) ∧
    (d i < 0 → ts.Pairwise fun t t' => t.cmd i = some .backward → t'.cmd i ≠ some .forward) := by
  have hh := hyst
  have hsl := slack_stop
  obtain ⟨z0, zp, zn⟩ := dir_zero h.line hi
  have track : dir d L i ≠ 0 → d i ≠ 0 → ∀ k, k ≤ ts.length →
      |sampleAim fpu x d L H K N i k - (C k).machinePosition i| ≤ 1 / 2 + cnc3axis32.hysteresis + slack 62000 := by
    intro hd hd'
    refine position_tracks_single (h.follows hi hd) ?_ fun k _ => h.aim_rate hi k
    unfold sampleAim
    rw [Nat.zero_min, Nat.add_zero]
    exact h0 hd'
  have hmZ : dir d L i ≠ 0 → d i ≠ 0 → ∀ k, k ≤ ts.length → |(C k).machinePosition i| ≤ 2 ^ 24 := by
    intro hd hd' k hk
    have a := abs_le.1 (track hd hd' k hk)
    have c := abs_le.1 ((h.follows hi hd).bound k hk)
    have hR : |((C k).machinePosition i : ℝ)| ≤ 2 ^ 24 := by
      rw [abs_le]; norm_num; constructor <;> linarith
    exact_mod_cast hR
  have hnone : d i = 0 → ∀ k (hk : k < ts.length), ts[k].cmd i = none := by
    intro hd k hk
    refine (one_step_per_tick_single (h.ticks.tick k hk) i).2.1 fun ht => ?_
    have hkN : k < N := by
      by_contra hcn
      exact ht.1 (h.over k hk (by omega))
    have := ht.2.2
    rw [(h.active k hk hkN).2.2.1, h.path] at this
    exact (isMoving_iff h.line hi).1 this (z0 hd)
  refine ⟨fun hd => ⟨?_, ?_⟩, fun hd => ?_, fun hd => ?_, fun hd => ?_⟩
  · have : ∀ k, k ≤ ts.length → (C k).machinePosition i = (C 0).machinePosition i := by
      intro k
      induction k with
      | zero => intro _; rfl
      | succ k ih =>
        intro hk
        have e := (tick_moves _ _ _ (h.ticks.tick k hk)).1 i
        have e' := hnone hd k hk
        change (C (k + 1)).machinePosition i = (C k).machinePosition i + stepsOf (ts[k].cmd i) at e
        rw [e', ih (by omega)] at e
        simpa [stepsOf] using e
    exact this
  · intro t ht
    obtain ⟨k, hk, rfl⟩ := List.getElem_of_mem ht
    exact hnone hd k hk
  · have hd' : dir d L i ≠ 0 := by
      rcases lt_or_gt_of_ne hd with hd | hd
      · exact (zn hd).ne
      · exact (zp hd).ne'
    exact track hd' hd
  · have hp := zp hd
    refine (one_way (close := False) (fun o => by cases o <;> simp) ?_ fun _ _ _ _ h => h).1
    intro l k hlk hk h1 h2 h3
    have := (no_chatter_bounded (h.follows hi hp.ne') (hmZ hp.ne' hd.ne') hlk hk h3).1 h1 h2
    have := (h.aim_falls hi (show l + 1 ≤ k + 1 by omega)).1 hp.le
    linarith
  · have hp := zn hd
    refine (one_way (close := False) (fun o => by cases o <;> simp) ?_ fun _ _ _ _ h => h).1
    intro l k hlk hk h1 h2 h3
    have := (no_chatter_bounded (h.follows hi hp.ne) (hmZ hp.ne hd.ne) hlk hk h3).2 h1 h2
    have := (h.aim_falls hi (show l + 1 ≤ k + 1 by omega)).2 hp.le
    linarith

end Sampled32

/-- A request and the calculations after it, as a sequence of ticks. -/
theorem request_run {K : MotionKit} {c c' : MotionCtrl K} {n : Nat} {log} {q : Call K.Req K.Time K.Ovr} {c₀ : MotionCtrl K}
    (hq : q.isCalculate = false) (hc : ∃ e, c.call q = some (c₀, ⟨e, none, []⟩))
    (hrun : c.run (q :: List.replicate n .calculate) = some (c', log)) :
    n ≤ (ticksOf log).length ∧ ∃ C : Nat → MotionCtrl K, Ticks (ticksOf log) C ∧ C 0 = c₀ ∧
      ∃ s, c' = (C (ticksOf log).length).withSignals s := by
  have hge := ticks_ge _ hrun
  have hcount : (q :: List.replicate n Call.calculate : List (Call K.Req K.Time K.Ovr)).countP Call.isCalculate = n := by
    rw [List.countP_cons, List.countP_replicate, hq]
    simp [Call.isCalculate]
  rw [hcount] at hge
  obtain ⟨c₁, log₁, log₂, h1, h2, rfl⟩ := run_split [q] (List.replicate n .calculate) hrun
  obtain ⟨e, hc⟩ := hc
  simp only [run, hc, Option.map_some, Option.some.injEq, Prod.mk.injEq] at h1
  have hl1 : ticksOf log₁ = [] := by rw [← h1.2]; rfl
  have hlog : ticksOf (log₁ ++ log₂) = ticksOf log₂ := by rw [ticks_append, hl1, List.nil_append]
  rw [hlog] at hge ⊢
  obtain ⟨C, hC, hC0, sg, hlast⟩ := run_ticks n h2
  exact ⟨hge, C, hC, hC0.trans h1.1.symm, sg, hlast⟩

theorem ticks_overrides {K : MotionKit} {ts : List (Tick (Option K.Req))} {C : Nat → MotionCtrl K} (hC : Ticks ts C) :
    ∀ k, k ≤ ts.length → (C k).overrides = (C 0).overrides := by
  intro k
  induction k with
  | zero => intro _; rfl
  | succ k ih => intro hk; rw [tick_overrides (hC.tick k hk), ih (by omega)]

end Moovr.Props
