import Batteries.Tactic.OpenPrivate
import Verif.Props.SingleRun

/-!
C132: between any two samplings of a straight motion with `float` arithmetic, an axis does not move further than the programmed
speed allows, up to two steps.
-/

namespace Moovr.Props
open Num Float32 Single MotionCtrl MotionSpec PulseSpec Straight32
open private planned_full states follows two_samples aim_zero axis_run begin_run aim from Verif.Props.SingleRun

/-! ## Proof -/

/-- The steps between two samplings. -/
theorem net_between {M : Machine} {fpu : Fpu} {ts : List (Tick (Option (M.kit32 fpu).Req))}
    {C : Nat → MotionCtrl (M.kit32 fpu)} (hC : Ticks ts C) (i k : Nat) :
    ∀ n, k + n ≤ ts.length → (C (k + n)).machinePosition i = (C k).machinePosition i + net i ((ts.drop k).take n) := by
  intro n
  induction n with
  | zero => intro _; simp [net]
  | succ n ih =>
    intro h
    have h1 := (one_step_per_tick_single (hC.tick (k + n) (by omega)) i).1
    have h2 : (ts.drop k).take (n + 1) = (ts.drop k).take n ++ [ts[k + n]] := by
      rw [List.take_succ_eq_append_getElem (by rw [List.length_drop]; omega), List.getElem_drop]
    have h3 : net i ((ts.drop k).take (n + 1)) = net i ((ts.drop k).take n) + stepsOf (ts[k + n].cmd i) := by
      rw [h2]; unfold net; rw [List.map_append, List.sum_append]; simp
    exact h1.trans (by rw [ih (by omega), h3, add_assoc])

/-- The rounded direction, times the planned speed: no more than what is programmed, and no more than the axis may do. -/
theorem rate_asked {r : SimplifiedMotion} {x d : Nat → ℝ} {L q g v : ℝ} (hr : LineRequest r x d L) (hg : Asked r L q g)
    (hv : Speed d L v) (hf : ∀ f, r.vFeed = fin f → v ≤ rnd (rnd f * q)) {i : Nat} (hi : i < 3) (hd : d i ≠ 0) :
    |dir d L i| * v ≤ (1 + 8 / 2 ^ 24) * 30 ∧
    ∀ f, r.vFeed = fin f → |dir d L i| * v ≤ (1 + 8 / 2 ^ 24) * (f * q * (|d i| / L)) := by
  have hs := hr.toStraight32
  have hL := hs.L_pos
  have hL2 := hs.L_le
  have hv0 : 0 < v := lt_of_lt_of_le (by norm_num) hv.ge
  have h126 : (2 : ℝ) ^ (-126 : ℤ) ≤ 1 / 2 ^ 110 := by rw [zpow_neg]; norm_num
  have h24 : (2 : ℝ) ^ (-24 : ℤ) = 1 / 2 ^ 24 := by rw [zpow_neg]; norm_num
  constructor
  · have h1 := (mul_le_mul_of_nonneg_right (dir_top (d := d) (L := L) hi) hv0.le)
    have ht0 := hs.top_pos
    have ht1 := hs.top_le
    have h30 : 30 ≤ 30 / top d L := by rw [le_div_iff₀ ht0]; linarith
    have h2 := rnd_scale (x := 30 / top d L) (X := 30 / top d L) (by rw [abs_of_nonneg (by linarith)])
      (h126.trans (by norm_num; linarith))
    rw [h24] at h2
    have h3 := (abs_le.1 h2).2
    have h4 : v ≤ (1 + 1 / 2 ^ 24) * (30 / top d L) := by have := hv.le; linarith
    have h5 := mul_le_mul_of_nonneg_left h4 ht0.le
    have h6 : top d L * ((1 + 1 / 2 ^ 24) * (30 / top d L)) = (1 + 1 / 2 ^ 24) * 30 := by field_simp
    rw [h6] at h5
    norm_num at *
    linarith
  · intro f hff
    have hv1 := hf f hff
    obtain ⟨hq0, hq4, hfq⟩ : 0 < q ∧ q ≤ 4 ∧ 1 / 10 ≤ f * q := by
      rcases hg with ⟨h, -, -⟩ | ⟨f', h, h1, h2, h3, -⟩
      · rw [h] at hff; cases hff
      · rw [h] at hff; cases hff; exact ⟨h1, h2, h3⟩
    have hf0 : 1 / 40 ≤ f := by nlinarith
    have hdi : 1 / 2 ^ 110 ≤ |d i| / L := by
      have := (hr.seen i hi).resolve_left hd
      rw [le_div_iff₀ hL]
      refine le_trans ?_ this
      norm_num
      linarith
    have h1 := rnd_scale (x := d i / L) (X := |d i| / L) (by rw [abs_div, abs_of_pos hL]) (h126.trans hdi)
    rw [h24] at h1
    have h2 : |dir d L i| ≤ (1 + 1 / 2 ^ 24) * (|d i| / L) := by
      have h3 := abs_add_le (rnd (d i / L) - d i / L) (d i / L)
      rw [sub_add_cancel, abs_div (d i), abs_of_pos hL] at h3
      unfold dir
      linarith
    have h3 := rnd_scale (x := f) (X := f) (by rw [abs_of_nonneg (by linarith)]) (h126.trans (by norm_num at *; linarith))
    rw [h24] at h3
    have h4 : rnd f ≤ (1 + 1 / 2 ^ 24) * f := by have := (abs_le.1 h3).2; linarith
    have h5 : 9 / 10 * f ≤ rnd f := by have := (abs_le.1 h3).1; linarith
    have h6 : rnd f * q ≤ (1 + 1 / 2 ^ 24) * (f * q) := by
      have := mul_le_mul_of_nonneg_right h4 hq0.le; linarith
    have h7 : 9 / 100 ≤ rnd f * q := by
      have := mul_le_mul_of_nonneg_right h5 hq0.le
      linarith
    have h8 := rnd_scale (x := rnd f * q) (X := rnd f * q) (by rw [abs_of_nonneg (by linarith)])
      (h126.trans (by norm_num at *; linarith))
    rw [h24] at h8
    have h9 : v ≤ (1 + 1 / 2 ^ 24) * ((1 + 1 / 2 ^ 24) * (f * q)) := by
      have := (abs_le.1 h8).2
      have := mul_le_mul_of_nonneg_left h6 (show (0 : ℝ) ≤ 1 + 1 / 2 ^ 24 by norm_num)
      linarith
    have hY : 0 ≤ |d i| / L := le_trans (by norm_num) hdi
    have h10 := mul_le_mul h2 h9 hv0.le (by positivity)
    have hZ : 0 ≤ f * q * (|d i| / L) := mul_nonneg (by linarith) hY
    refine h10.trans ?_
    have e : (1 + 1 / 2 ^ 24) * (|d i| / L) * ((1 + 1 / 2 ^ 24) * ((1 + 1 / 2 ^ 24) * (f * q))) =
        (1 + 1 / 2 ^ 24) ^ 3 * (f * q * (|d i| / L)) := by ring
    rw [e]
    exact mul_le_mul_of_nonneg_right (by norm_num) hZ

/-- **C132** Between any two samplings of a straight motion an axis moves no further than at the programmed speed along the line, and
no further than at the speed of the axis, up to two steps. -/
theorem straight_speed_single {fpu : Fpu} {c c' : MotionCtrl (cnc3axis32.kit32 fpu)} {r : SimplifiedMotion} {x d : Nat → ℝ}
    {L q g : ℝ} {m : Nat} {log} (hc : Idle32 width32 c) (hq : c.overrides.feedOverride = fin q) (hr : LineRequest r x d L)
    (hg : Asked r L q g) (hm : ∀ i, i < 3 → |200 * x i - c.machinePosition i| ≤ 1)
    (hrun : c.run (.append r :: .start :: List.replicate m .calculate) = some (c', log))
    {i k n : Nat} (hi : i < 3) (hk : k + n ≤ (ticksOf log).length) :
    (|net i (((ticksOf log).drop k).take n)| : ℝ) ≤ 200 * (30 * (n / 60000)) + 2 ∧
    ∀ f, r.vFeed = fin f →
      (|net i (((ticksOf log).drop k).take n)| : ℝ) ≤ 200 * (f * q * (|d i| / L) * (n / 60000)) + 2 := by
  obtain ⟨hge, C, hC, hC0, sg, hlast⟩ := begin_run hrun
  obtain ⟨X, p, v, D, S, hA, hm0, hX, hD, hS0, hS, hv, hgv, hl, -, hmov, hlen, hf, -⟩ := planned_full hc hq hr hg
  have hm1 : ∀ i, (C 0).machinePosition i = c.machinePosition i := fun i => by rw [hC0, hm0]
  rw [← hC0] at hA
  clear hC0 hm0 hrun hq hlast
  generalize ticksOf log = ts at *
  have hs := hr.toStraight32
  have hLf := hs.Lf
  have hDle := hl.duration_le hs hv
  have hD4 : D ≤ 10000 := by
    have : rnd L / v ≤ 521 / (9 / 100) := by
      refine div_le_div₀ (by norm_num) ?_ (by norm_num) hv.ge
      have := hs.L_le
      have := hLf.2
      unfold eps at this
      linarith
    linarith
  obtain ⟨N, hN1, hNle, ha, hb, alone, active, idle, over⟩ := states hC hA hD hS0 hl.pos hD4
  have hN2 := two_samples hs hv hl hN1 ha
  have hmono := reading32_mono fpu width32_pos.le
  have hfol := fun i (hi : i < 3) hd => follows hr hv hl hC hX hS hN1 hb alone active over hi hd
  have hfirst : ∀ i, i < 3 → dir d L i ≠ 0 → 0 < ts.length → TakesPart32 (C 1) (nth ts 0) i := by
    intro i hi hd h0
    refine ⟨?_, hi, ?_⟩
    · rw [nth_eq h0]; exact (active 0 h0 hN2).2
    · rw [(alone 1 h0 hN2).traj, hX]; exact (isMoving_iff hr hi).2 hd
  obtain ⟨a1, a2, -⟩ := axis_run (fpu := fpu) (N := N) hr hv hl hC hb hi (by rw [hm1]; exact hm i hi)
    (hfol i hi) (hfirst i hi)
    (fun hd k hk => by
      refine (one_step_per_tick_single (hC.tick k hk) i).2.1 fun ht => ?_
      have hkN : k + 1 < N := by
        by_contra hcn
        exact ht.1 (over k hk (by omega))
      have := ht.2.2
      rw [(alone (k + 1) hk hkN).traj, hX] at this
      exact (isMoving_iff hr hi).1 this hd)
  have hnet := net_between hC i k n hk
  have hnet' : (net i ((ts.drop k).take n) : ℝ) = (C (k + n)).machinePosition i - (C k).machinePosition i := by
    rw [hnet]; push_cast; rw [add_sub_cancel_left]
  have hk' : k + n ≤ @List.length (Tick (Option SimplifiedMotion)) ts := hk
  rcases Nat.eq_zero_or_pos n with rfl | hn
  · simp [net]
  by_cases hd : d i = 0
  · have : net i ((ts.drop k).take n) = 0 := by
      have h1 := a1 hd k (by omega)
      have h2 := a1 hd (k + n) hk
      rw [h1, h2] at hnet
      exact left_eq_add.1 hnet
    rw [this]
    constructor
    · simp; positivity
    · intro f _; simp [hd]
  have hv0 : 0 < v := lt_of_lt_of_le (by norm_num) hv.ge
  have hw0 := width32_pos
  have hdv : 0 ≤ |dir d L i| * v := mul_nonneg (abs_nonneg _) hv0.le
  have hend : |aim fpu x d L S N i (k + n) - (C (k + n)).machinePosition i| ≤ 5572 / 10000 := a2 hd (k + n) (by omega) hk
  have hbeg : |aim fpu x d L S N i k - (C k).machinePosition i| ≤ 1004 / 1000 := by
    rcases Nat.eq_zero_or_pos k with rfl | hk1
    · have h0 := abs_le.1 (aim_zero (fpu := fpu) (N := N) hs hl hi)
      have hm' := abs_le.1 (hm i hi)
      rw [← hm1] at hm'
      rw [abs_le]; constructor <;> linarith
    · exact (a2 hd k hk1 (by omega)).trans (by norm_num)
  obtain ⟨j, hj⟩ : ∃ j, j = min k (N - 1) := ⟨_, rfl⟩
  obtain ⟨j', hj'⟩ : ∃ j, j = min (k + n) (N - 1) := ⟨_, rfl⟩
  have hjj : j ≤ j' := by omega
  have hjN : j' ≤ N - 1 := by omega
  have hjn : j' ≤ j + n := by omega
  have t0 : 0 ≤ reading32 fpu width32 j := by rw [← reading32_zero fpu width32]; exact hmono (Nat.zero_le _)
  have t2 : reading32 fpu width32 j' ≤ D := (hmono hjN).trans hb
  have hrate := hl.rate (fpu := fpu) hs hv hi t0 (hmono hjj) t2
  -- how far the axis gets
  have hfar : |dir d L i| * v * D ≤ 380 := by
    obtain ⟨-, -, s3⟩ := hs.sizes hv hi
    have s4 := hs.dir_length hi
    have := mul_le_mul_of_nonneg_left hl.brief (abs_nonneg (dir d L i))
    nlinarith
  have hnear := abs_le.1 (reading32_near fpu j')
  have hnear0 := abs_le.1 (reading32_near fpu j)
  have hwn : |dir d L i| * v * (j' * width32) ≤ 381 := by
    have h1 : j' * width32 ≤ (1 + 1 / 1000) * D := by
      have : 0 ≤ j' * width32 := by positivity
      unfold eps at hnear
      norm_num at hnear
      linarith
    have := mul_le_mul_of_nonneg_left h1 hdv
    linarith
  have hjR : (j : ℝ) ≤ j' := by exact_mod_cast hjj
  have hjnR : (j' : ℝ) - j ≤ n := by
    have : (j' : ℝ) ≤ j + n := by exact_mod_cast hjn
    linarith
  -- the time between the samplings
  have htime : |dir d L i| * (v * (reading32 fpu width32 j' - reading32 fpu width32 j)) ≤
      |dir d L i| * v * ((j' - j) * width32) + 3048 * eps := by
    have h1 : reading32 fpu width32 j' - reading32 fpu width32 j ≤ (j' - j) * width32 + 8 * eps * (j' * width32) := by
      have h2 : (j : ℝ) * width32 * (4 * eps) ≤ j' * width32 * (4 * eps) :=
        mul_le_mul_of_nonneg_right (mul_le_mul_of_nonneg_right hjR hw0.le) (by unfold eps; norm_num)
      linarith [hnear.2, hnear0.1]
    have h3 := mul_le_mul_of_nonneg_left h1 hdv
    have h4 := mul_le_mul_of_nonneg_left hwn (show 0 ≤ 8 * eps by unfold eps; norm_num)
    linarith
  -- the speed
  have hspeed : ∀ G, 0 ≤ G → |dir d L i| * v ≤ (1 + 8 / 2 ^ 24) * G →
      |dir d L i| * v * ((j' - j) * width32) ≤ G * (n / 60000) + 381 * (20 / 2 ^ 24) := by
    intro G hG h
    have h1 : (1 - 10 / 2 ^ 24) * (|dir d L i| * v * (60000 * width32)) ≤ G := by
      have h2 : 60000 * width32 ≤ 1 + 1 / 2 ^ 24 := by
        have := width32_near.2
        unfold eps at this
        norm_num at this ⊢
        linarith
      have h3 : |dir d L i| * v * (60000 * width32) ≤ ((1 + 8 / 2 ^ 24) * G) * (1 + 1 / 2 ^ 24) :=
        mul_le_mul h h2 (by positivity) (by positivity)
      norm_num at h3 ⊢
      linarith
    have h4 := mul_le_mul_of_nonneg_right h1 (div_nonneg (sub_nonneg.2 hjR) (show (0 : ℝ) ≤ 60000 by norm_num))
    have h5 : G * ((j' - j) / 60000) ≤ G * (n / 60000) :=
      mul_le_mul_of_nonneg_left (div_le_div_of_nonneg_right hjnR (by norm_num)) hG
    have h6 : |dir d L i| * v * ((j' - j) * width32) ≤ 381 := by
      refine le_trans (mul_le_mul_of_nonneg_left (mul_le_mul_of_nonneg_right ?_ hw0.le) hdv) hwn
      have : (0 : ℝ) ≤ j := Nat.cast_nonneg _
      linarith
    have e : (1 - 10 / 2 ^ 24) * (|dir d L i| * v * (60000 * width32)) * (((j' : ℝ) - j) / 60000) =
        |dir d L i| * v * ((j' - j) * width32) - 10 / 2 ^ 24 * (|dir d L i| * v * ((j' - j) * width32)) := by ring
    rw [e] at h4
    norm_num at *
    linarith
  have hall : ∀ G, 0 ≤ G → |dir d L i| * v ≤ (1 + 8 / 2 ^ 24) * G →
      |(net i ((ts.drop k).take n) : ℝ)| ≤ 200 * (G * (n / 60000)) + 2 := by
    intro G hG h
    have h1 := hspeed G hG h
    unfold aim at hend hbeg
    rw [← hj] at hbeg
    rw [← hj'] at hend
    have h2 := abs_le.1 hend
    have h3 := abs_le.1 hbeg
    have h4 := abs_le.1 (hrate.trans (add_le_add_left htime _))
    rw [hnet', abs_le]
    unfold eps at h4
    norm_num at *
    constructor <;> linarith
  obtain ⟨q1, q2⟩ := rate_asked hr hg hv hf hi hd
  refine ⟨hall 30 (by norm_num) q1, fun f hff => hall _ ?_ (q2 f hff)⟩
  have hfq : 0 ≤ f * q := by
    rcases hg with ⟨h, -, -⟩ | ⟨f', h, h1, h2, h3, -⟩
    · rw [h] at hff; cases hff
    · rw [h] at hff; cases hff; linarith
  exact mul_nonneg hfq (div_nonneg (abs_nonneg _) hs.L_pos.le)

/-- The line from the origin to (30, 40, 0) mm at 10 mm/s: in any 600 consecutive samplings (10 ms) X takes at most 14 steps and Y at
most 18; at the speed of the axes it would be 62. -/
example (fpu : Fpu) (m k : Nat) (hk : k + 600 ≤ m) :
    ∃ c' log, (MotionCtrl.fresh (cnc3axis32.kit32 fpu)).run
        (.configure 375 (num width32) :: .append oblique :: .start :: List.replicate m .calculate) = some (c', log) ∧
      |net 0 (((ticksOf log).drop k).take 600)| ≤ 14 ∧ |net 1 (((ticksOf log).drop k).take 600)| ≤ 18 := by
  obtain ⟨c', log, hrun, -⟩ := motion_history_returns (K := cnc3axis32.kit32 fpu)
    (.configure 375 (num width32) :: .append oblique :: .start :: List.replicate m .calculate)
  refine ⟨c', log, hrun, ?_⟩
  obtain ⟨c₁, log₁, log₂, h1, h2, rfl⟩ := run_split (K := cnc3axis32.kit32 fpu) [.configure 375 (num width32)]
    (.append oblique :: .start :: List.replicate m .calculate) hrun
  simp only [run, call, Option.map_some, Option.some.injEq, Prod.mk.injEq] at h1
  obtain ⟨rfl, rfl⟩ := h1
  obtain ⟨i1, i2, i3⟩ := idle_configured_single fpu 375
  have hz : ∀ i, |200 * (0 : ℝ) - (((MotionCtrl.fresh (cnc3axis32.kit32 fpu)).configure 375 (num width32)).machinePosition i : ℝ)| =
      0 := fun i => by rw [i2]; norm_num
  have hg : Asked oblique 50 1 10 := .inr ⟨10, rfl, by norm_num, by norm_num, by norm_num, by norm_num⟩
  obtain ⟨N, -, n2, -⟩ := straight_motion_single (g := 10) i1 i3 oblique_line hg (fun i _ => (hz i).le.trans (by norm_num)) h2
  have key := fun i (hi : i < 3) => (straight_speed_single (g := 10) (i := i) (k := k) (n := 600) i1 i3 oblique_line hg
    (fun i _ => (hz i).le.trans (by norm_num)) h2 hi (hk.trans n2)).2 10 rfl
  constructor
  · have h := key 0 (by norm_num)
    norm_num at h
    exact_mod_cast h
  · have h := key 1 (by norm_num)
    norm_num at h
    exact_mod_cast h

end Moovr.Props
