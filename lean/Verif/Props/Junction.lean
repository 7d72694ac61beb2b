import Verif.Model.Junction
import Verif.Spec.Plan
import Verif.Lemmas.Ride
import Verif.Props.Plan
import Mathlib.Order.Interval.Set.Basic
/-!
# Speeds at junctions (C112, C113, C114)

The functions for the speed between two motions, which the firmware contains but does not call yet.
-/
namespace Moovr.Props
open Moovr Num Set

/-- What `vOut` computes from finite numbers. -/
theorem vOut_fin (vIn x L : ℝ) (q : Num) (hq : q = fin x) :
    (if (fin 0).lt ((fin vIn * fin vIn) + (fin 2 * fin L * q)) = true then ((fin vIn * fin vIn) + (fin 2 * fin L * q)).sqrt else fin 0)
      = fin (Real.sqrt (vIn ^ 2 + 2 * x * L)) := by
  subst hq
  have e : (fin vIn * fin vIn) + (fin 2 * fin L * fin x) = fin (vIn ^ 2 + 2 * x * L) := by
    simp only [fin_mul, fin_add]; congr 1; ring
  rw [e, lt_fin]
  by_cases h : 0 < vIn ^ 2 + 2 * x * L
  · simp only [h, decide_true, if_true, Num.sqrt, not_lt.mpr h.le, if_false]
  · simp only [h, decide_false, Bool.false_eq_true, if_false]
    rw [Real.sqrt_eq_zero_of_nonpos (not_lt.mp h)]

/-- A lower bound by a square root. -/
theorem sqrt_le_iff_sq {y u : ℝ} (hu : 0 ≤ u) : Real.sqrt y ≤ u ↔ y ≤ u ^ 2 := Real.sqrt_le_left hu

/-- **C112** The speeds that a motion over the length `L` can end with, when it starts with the speed `vIn`, are exactly those between
the two values of `vOut` in forward direction: no motion within the acceleration limits, of whatever shape, ends faster or slower,
and all speeds in between are possible. -/
theorem vout_forward {vIn a d L : ℝ} (hv : 0 ≤ vIn) (ha : 0 < a) (hd : d < 0) (hL : 0 ≤ L) :
    ∃ lo hi : ℝ, vOut (fin vIn) (fin a) (fin d) (fin L) .minimizeSpeed .forward = fin lo ∧
      vOut (fin vIn) (fin a) (fin d) (fin L) .maximizeSpeed .forward = fin hi ∧ {u | CanRide a d L vIn u} = Icc lo hi := by
  refine ⟨_, _, vOut_fin vIn d L _ rfl, vOut_fin vIn a L _ rfl, ?_⟩
  ext u
  simp only [mem_setOf_eq, mem_Icc]
  constructor
  · intro h
    have hu : 0 ≤ u := by
      obtain ⟨T, x, v, h⟩ := h
      rw [← h.vT]; exact h.forward T ⟨h.time, le_rfl⟩
    rw [canRide_iff ha hd hv hu] at h
    exact ⟨(sqrt_le_iff_sq hu).mpr h.1, Real.le_sqrt_of_sq_le h.2⟩
  · rintro ⟨h1, h2⟩
    have hu : 0 ≤ u := le_trans (Real.sqrt_nonneg _) h1
    rw [canRide_iff ha hd hv hu]
    refine ⟨(sqrt_le_iff_sq hu).mp h1, ?_⟩
    have := (Real.le_sqrt hu (by nlinarith)).mp h2
    exact this

/-- **C112** The speeds that a motion over the length `L` can start with, when it is to end with the speed `vIn`, are exactly those between
the two values of `vOut` in reverse direction. -/
theorem vout_reverse {vIn a d L : ℝ} (hv : 0 ≤ vIn) (ha : 0 < a) (hd : d < 0) (hL : 0 ≤ L) :
    ∃ lo hi : ℝ, vOut (fin vIn) (fin a) (fin d) (fin L) .minimizeSpeed .reverse = fin lo ∧
      vOut (fin vIn) (fin a) (fin d) (fin L) .maximizeSpeed .reverse = fin hi ∧ {u | CanRide a d L u vIn} = Icc lo hi := by
  refine ⟨_, _, vOut_fin vIn (-1 * a) L _ rfl, vOut_fin vIn (-1 * d) L _ rfl, ?_⟩
  ext u
  simp only [mem_setOf_eq, mem_Icc]
  constructor
  · intro h
    have hu : 0 ≤ u := by
      obtain ⟨T, x, v, h⟩ := h
      rw [← h.v0]; exact h.forward 0 ⟨le_rfl, h.time⟩
    rw [canRide_iff ha hd hu hv] at h
    exact ⟨(sqrt_le_iff_sq hu).mpr (by linarith [h.2]), Real.le_sqrt_of_sq_le (by linarith [h.1])⟩
  · rintro ⟨h1, h2⟩
    have hu : 0 ≤ u := le_trans (Real.sqrt_nonneg _) h1
    rw [canRide_iff ha hd hu hv]
    have h3 := (sqrt_le_iff_sq hu).mp h1
    have h4 := (Real.le_sqrt hu (by nlinarith)).mp h2
    exact ⟨by linarith, by linarith⟩

/-- The values of the unit test (test/z_oldtest/UnitTestMotion.cpp:23): from 10 mm/s with 10 mm/s² one reaches 30 mm/s within 40 mm, not
more. -/
example : IsGreatest {u | CanRide 10 (-10) 40 10 u} 30 := by
  obtain ⟨lo, hi, -, h2, h⟩ := vout_forward (vIn := 10) (a := 10) (d := -10) (L := 40) (by norm_num) (by norm_num) (by norm_num) (by norm_num)
  have e : hi = 30 := by
    have h3 := h2.symm.trans (vOut_fin 10 10 40 _ rfl)
    have : (10 : ℝ) ^ 2 + 2 * 10 * 40 = 30 ^ 2 := by norm_num
    rw [this, Real.sqrt_sq (by norm_num)] at h3
    exact Num.fin.inj h3
  have hm : (30 : ℝ) ∈ {u | CanRide 10 (-10) 40 10 u} := by
    rw [mem_setOf_eq, canRide_iff (by norm_num) (by norm_num) (by norm_num) (by norm_num)]
    norm_num
  refine ⟨hm, fun u hu => ?_⟩
  rw [h] at hu
  rw [← e]; exact hu.2

/-- **C112** The condition under which planning was proved correct (C34-C36) holds for exactly the motions that are possible at all. -/
theorem feasible_iff {i : PlanIn} (hL : 0 ≤ i.L) (hS : 0 ≤ i.vS) (hE : 0 ≤ i.vE) (ha : 0 < i.a) (hd : i.d < 0) (hj : 0 < i.j) :
    i.Feasible ↔ CanRide i.a i.d i.L i.vS i.vE := by
  rw [canRide_iff ha hd hS hE]
  constructor
  · rintro ⟨-, -, -, -, -, -, h1, h2⟩
    exact ⟨by linarith, h2⟩
  · rintro ⟨h1, h2⟩
    exact ⟨hL, hS, hE, ha, hd, hj, by linarith, h2⟩

/-- **C67, for all motions** The speed of a planned motion reaches the machine's limit, or the requested feed, or a speed that no other
motion over the same length with the same speeds at its ends and within the same acceleration limits, of whatever shape, ever
exceeds. -/
theorem plan_fastest {i : PlanIn} {p : Profile} {length : Num} (ho : i.Of p length) (h : i.Feasible) (hL : 0 < i.L)
    {ov : Num} (hfeed : (p.vFeed * ov).Pos) (hv : p.vMax.Pos) (minLen : ℝ) :
    let q := p.plan length ov minLen .maximizeSpeed
    ∃ t w : ℝ, (fin t).le q.duration = true ∧ q.v (fin t) = fin w ∧
      (p.vMax.le (fin w) = true ∨ (p.vFeed * ov).le (fin w) = true ∨
        ∀ T x v, Ride i.a i.d i.vS i.vE i.L T x v → ∀ t ∈ Icc 0 T, v t ≤ w) := by
  intro q
  obtain ⟨t, w, h1, h2, h3⟩ := plan_full_speed ho h hL hfeed hv minLen
  refine ⟨t, w, h1, h2, h3.imp_right (Or.imp_right fun h3 => ?_)⟩
  have ha := h.a
  have hd := h.d
  -- both end speeds can be reached
  have hend : ∀ u, i.vS ≤ u → i.vE ≤ u → ∀ y, 0 ≤ y → y ≤ i.L → u ^ 2 ≤ i.vS ^ 2 + 2 * i.a * y →
      u ^ 2 + 2 * i.d * (i.L - y) ≤ i.vE ^ 2 → i.Reaches u := by
    intro u hu1 hu2 y _ _ g1 g2
    refine ⟨hu1, hu2, ?_⟩
    have k1 : (u ^ 2 - i.vS ^ 2) / (2 * i.a) ≤ y := by rw [div_le_iff₀ (by linarith)]; linarith
    have k2 : (i.vE ^ 2 - u ^ 2) / (2 * i.d) ≤ i.L - y := by rw [div_le_iff_of_neg (by linarith)]; linarith
    linarith
  have hS : i.vS ≤ w := by
    rcases le_total i.vS i.vE with hle | hle
    · exact hle.trans (h3 _ (hend _ hle le_rfl i.L hL.le le_rfl h.fast (by simp)))
    · exact h3 _ (hend _ le_rfl hle 0 le_rfl hL.le (by simp) (by linarith [h.slow]))
  have hE : i.vE ≤ w := by
    rcases le_total i.vS i.vE with hle | hle
    · exact h3 _ (hend _ hle le_rfl i.L hL.le le_rfl h.fast (by simp))
    · exact hle.trans hS
  intro T x v hr t ht
  by_cases c1 : v t ≤ i.vS
  · exact c1.trans hS
  by_cases c2 : v t ≤ i.vE
  · exact c2.trans hE
  have g1 := hr.gain ha le_rfl ht.1 ht.2
  have g2 := hr.loss hd ht.1 ht.2 le_rfl
  rw [hr.v0, hr.x0, sub_zero] at g1
  rw [hr.vT, hr.xT] at g2
  have m1 := hr.mono le_rfl ht.1 ht.2
  have m2 := hr.mono ht.1 ht.2 le_rfl
  rw [hr.x0] at m1
  rw [hr.xT] at m2
  exact h3 _ (hend _ (not_le.mp c1).le (not_le.mp c2).le (x t) m1 m2 g1 g2)

/-! ## The speed between two motions -/

/-- A motion of the queue with finite limits: `a`, `d` its acceleration limits, `L` its length, `vS` and `vE` its start and end speed. -/
structure Finite (m : Profile × Num) (a d L vS vE : ℝ) : Prop where
  length : m.2 = fin L
  aMax : m.1.aMax = fin a
  dMax : m.1.dMax = fin d
  vStart : m.1.left.vStart = fin vS
  vEnd : m.1.right.vEnd = fin vE
  hL : 0 ≤ L
  ha : 0 < a
  hd : d < 0
  hS : 0 ≤ vS
  hE : 0 ≤ vE

/-- A speed within the limits of a motion: its feed rate (with the override) and the machine's. -/
def Within (o : Overrides) (m : Profile × Num) (u : ℝ) : Prop :=
  (fin u).le (m.1.vFeed * o.feedOverride) = true ∧ (fin u).le m.1.vMax = true

/-- `restrict` takes the smaller. -/
theorem le_restrict {u : ℝ} {x y : Num} (hx : x ≠ nan) (hy : y ≠ nan) :
    (fin u).le (Junction.restrict x y) = true ↔ (fin u).le x = true ∧ (fin u).le y = true := by
  unfold Junction.restrict
  cases x <;> cases y <;> simp_all [Num.lt, Num.le]
  rename_i x y
  split_ifs with h
  · exact ⟨fun hu => ⟨by linarith, hu⟩, fun h => h.2⟩
  · exact ⟨fun hu => ⟨hu, by linarith⟩, fun h => h.1⟩

/-- It is not NaN. -/
theorem restrict_ne {x y : Num} (hx : x ≠ nan) : Junction.restrict x y ≠ nan := by
  unfold Junction.restrict
  cases x <;> cases y <;> simp_all [Num.lt]

/-- A number with a number below it is not NaN. -/
theorem ne_nan_of_le {u : ℝ} {x : Num} (h : (fin u).le x = true) : x ≠ nan := by
  rintro rfl; simp [Num.le] at h

/-- **C113** With the maximize-speed strategy the rest of `vJunction` computes the greatest speed with which the left motion can end and the
right motion can begin, within the feed rates and the speed limits of both - provided that there is such a speed. -/
theorem junction_greatest {o : Overrides} {l r : Profile × Num} {a d L vS vE a' d' L' vS' vE' : ℝ} (hl : Finite l a d L vS vE)
    (hr : Finite r a' d' L' vS' vE')
    (hne : {u | CanRide a d L vS u ∧ CanRide a' d' L' u vE' ∧ Within o l u ∧ Within o r u}.Nonempty) :
    ∃ j : ℝ, vJunctionRest .maximizeSpeed o l r = fin j ∧
      IsGreatest {u | CanRide a d L vS u ∧ CanRide a' d' L' u vE' ∧ Within o l u ∧ Within o r u} j := by
  obtain ⟨lo1, hi1, -, e1, s1⟩ := vout_forward hl.hS hl.ha hl.hd hl.hL
  obtain ⟨lo2, hi2, -, e2, s2⟩ := vout_reverse hr.hE hr.ha hr.hd hr.hL
  have m1 : ∀ u, CanRide a d L vS u ↔ lo1 ≤ u ∧ u ≤ hi1 := fun u => by
    have := Set.ext_iff.mp s1 u; simpa only [mem_setOf_eq, mem_Icc] using this
  have m2 : ∀ u, CanRide a' d' L' u vE' ↔ lo2 ≤ u ∧ u ≤ hi2 := fun u => by
    have := Set.ext_iff.mp s2 u; simpa only [mem_setOf_eq, mem_Icc] using this
  obtain ⟨u0, hu1, hu2, hu3, hu4⟩ := hne
  have f1 : l.1.vOut l.2 .maximizeSpeed .forward = fin hi1 := by
    rw [Profile.vOut, hl.length, hl.aMax, hl.dMax, hl.vStart]; exact e1
  have f2 : r.1.vOut r.2 .maximizeSpeed .reverse = fin hi2 := by
    rw [Profile.vOut, hr.length, hr.aMax, hr.dMax, hr.vEnd]; exact e2
  have key : ∀ u : ℝ, (fin u).le (vJunctionRest .maximizeSpeed o l r) = true ↔ u ≤ hi1 ∧ u ≤ hi2 ∧ Within o l u ∧ Within o r u := by
    intro u
    have n0 : posInf ≠ nan := by simp
    simp only [vJunctionRest, f1, f2]
    rw [le_restrict (restrict_ne (restrict_ne (restrict_ne (restrict_ne (restrict_ne n0))))) (ne_nan_of_le hu4.2),
      le_restrict (restrict_ne (restrict_ne (restrict_ne (restrict_ne n0)))) (ne_nan_of_le hu4.1),
      le_restrict (restrict_ne (restrict_ne (restrict_ne n0))) (ne_nan_of_le hu3.2),
      le_restrict (restrict_ne (restrict_ne n0)) (ne_nan_of_le hu3.1),
      le_restrict (restrict_ne n0) (by simp), le_restrict n0 (by simp)]
    simp only [Within, Num.le, decide_eq_true_eq, true_and]
    tauto
  have h0 := (key u0).mpr ⟨((m1 u0).mp hu1).2, ((m2 u0).mp hu2).2, hu3, hu4⟩
  obtain ⟨j, hj⟩ : ∃ j, vJunctionRest .maximizeSpeed o l r = fin j := by
    cases hR : vJunctionRest .maximizeSpeed o l r with
    | fin j => exact ⟨j, rfl⟩
    | posInf =>
      have := ((key (hi1 + 1)).mp (by rw [hR]; simp [Num.le])).1
      linarith
    | negInf => rw [hR] at h0; simp [Num.le] at h0
    | nan => rw [hR] at h0; simp [Num.le] at h0
  rw [hj] at key h0
  simp only [Num.le, decide_eq_true_eq] at key h0
  obtain ⟨k1, k2, k3, k4⟩ := (key j).mp le_rfl
  refine ⟨j, hj, ⟨(m1 j).mpr ⟨((m1 u0).mp hu1).1.trans h0, k1⟩, (m2 j).mpr ⟨((m2 u0).mp hu2).1.trans h0, k2⟩, k3, k4⟩, ?_⟩
  rintro u ⟨g1, g2, g3, g4⟩
  exact (key u).mpr ⟨((m1 u).mp g1).2, ((m2 u).mp g2).2, g3, g4⟩

/-- **C113** With the minimize-speed strategy it computes the least speed with which the left motion can end and the right motion can
begin - provided that there is such a speed. -/
theorem junction_least {o : Overrides} {l r : Profile × Num} {a d L vS vE a' d' L' vS' vE' : ℝ} (hl : Finite l a d L vS vE)
    (hr : Finite r a' d' L' vS' vE') (hne : {u | CanRide a d L vS u ∧ CanRide a' d' L' u vE'}.Nonempty) :
    ∃ j : ℝ, vJunctionRest .minimizeSpeed o l r = fin j ∧ IsLeast {u | CanRide a d L vS u ∧ CanRide a' d' L' u vE'} j := by
  obtain ⟨lo1, hi1, e1, -, s1⟩ := vout_forward hl.hS hl.ha hl.hd hl.hL
  obtain ⟨lo2, hi2, e2, -, s2⟩ := vout_reverse hr.hE hr.ha hr.hd hr.hL
  have m1 : ∀ u, CanRide a d L vS u ↔ lo1 ≤ u ∧ u ≤ hi1 := fun u => by
    have := Set.ext_iff.mp s1 u; simpa only [mem_setOf_eq, mem_Icc] using this
  have m2 : ∀ u, CanRide a' d' L' u vE' ↔ lo2 ≤ u ∧ u ≤ hi2 := fun u => by
    have := Set.ext_iff.mp s2 u; simpa only [mem_setOf_eq, mem_Icc] using this
  obtain ⟨u0, hu1, hu2⟩ := hne
  have p1 : 0 ≤ lo1 := by
    have := e1.symm.trans (vOut_fin vS d L _ rfl)
    rw [Num.fin.inj this]; exact Real.sqrt_nonneg _
  have f1 : l.1.vOut l.2 .minimizeSpeed .forward = fin lo1 := by
    rw [Profile.vOut, hl.length, hl.aMax, hl.dMax, hl.vStart]; exact e1
  have f2 : r.1.vOut r.2 .minimizeSpeed .reverse = fin lo2 := by
    rw [Profile.vOut, hr.length, hr.aMax, hr.dMax, hr.vEnd]; exact e2
  have hj : vJunctionRest .minimizeSpeed o l r = fin (max lo1 lo2) := by
    simp only [vJunctionRest, f1, f2]
    have : Junction.raise (fin 0) (fin lo1) = fin lo1 := by
      unfold Junction.raise
      rw [lt_fin]
      by_cases h : 0 < lo1
      · simp [h]
      · simp only [h, decide_false, Bool.false_eq_true, if_false]; congr 1; linarith
    rw [this]
    unfold Junction.raise
    rw [lt_fin]
    by_cases h : lo1 < lo2
    · simp [h, max_eq_right h.le]
    · simp [h, max_eq_left (not_lt.mp h)]
  refine ⟨_, hj, ⟨(m1 _).mpr ⟨le_max_left _ _, ?_⟩, (m2 _).mpr ⟨le_max_right _ _, ?_⟩⟩, ?_⟩
  · exact (max_le ((m1 u0).mp hu1).1 ((m2 u0).mp hu2).1).trans ((m1 u0).mp hu1).2
  · exact (max_le ((m1 u0).mp hu1).1 ((m2 u0).mp hu2).1).trans ((m2 u0).mp hu2).2
  · rintro u ⟨g1, g2⟩
    exact max_le ((m1 u).mp g1).1 ((m2 u).mp g2).1

/-- A motion of 10 mm from and to standstill, with a feed rate of 20 mm/s and the limits of the shipped machine. -/
noncomputable def tenMm : Profile × Num :=
  ({ Profile.zero with aMax := fin 200, dMax := fin (-200), vFeed := fin 20, vMax := fin 30 }, fin 10)

/-- It has finite limits. -/
theorem tenMm_finite : Finite tenMm 200 (-200) 10 0 0 :=
  ⟨rfl, rfl, rfl, congrArg fin (by norm_num), congrArg fin (by norm_num), by norm_num, by norm_num, by norm_num, le_rfl, le_rfl⟩

/-- Two such motions could pass their junction at 20 mm/s (the firmware stops there). -/
example {o : Overrides} (ho : o.feedOverride = fin 1) : vJunctionRest .maximizeSpeed o tenMm tenMm = fin 20 := by
  have hw : ∀ u : ℝ, u ≤ 20 → Within o tenMm u := fun u hu => by
    simp only [Within, tenMm, ho, fin_mul, Num.le, decide_eq_true_eq]; constructor <;> linarith
  have hc : ∀ u : ℝ, 0 ≤ u → u ≤ 20 → CanRide 200 (-200) 10 0 u ∧ CanRide 200 (-200) 10 u 0 := fun u h0 hu => by
    rw [canRide_iff (by norm_num) (by norm_num) le_rfl h0, canRide_iff (by norm_num) (by norm_num) h0 le_rfl]
    refine ⟨⟨?_, ?_⟩, ?_, ?_⟩ <;> nlinarith
  obtain ⟨h1, h2⟩ := hc 20 (by norm_num) le_rfl
  obtain ⟨j, e, ⟨-, -, g3, -⟩, hg⟩ := junction_greatest (o := o) tenMm_finite tenMm_finite
    ⟨20, h1, h2, hw 20 le_rfl, hw 20 le_rfl⟩
  have k1 : 20 ≤ j := hg ⟨h1, h2, hw 20 le_rfl, hw 20 le_rfl⟩
  have k2 : j ≤ 20 := by
    have := g3.1
    simpa only [tenMm, ho, fin_mul, Num.le, decide_eq_true_eq, mul_one] using this
  rw [e, le_antisymm k2 k1]

/-- The first `n + 1` motions of a queue fit together: every motion can be carried out between its speeds, it begins with the speed with
which the one before ends, and this speed is within the limits of both. -/
def FitsTogether (o : Overrides) (n : Nat) (c : Nat → Profile × Num) (v : Nat → ℝ) : Prop :=
  (∀ i ≤ n, ∃ a d L, Finite (c i) a d L (v i) (v (i + 1)) ∧ CanRide a d L (v i) (v (i + 1))) ∧
  ∀ i < n, Within o (c i) (v (i + 1)) ∧ Within o (c (i + 1)) (v (i + 1))

/-- One step: the speed of one junction is changed. -/
theorem fits_pair {o : Overrides} {n : Nat} {c : Nat → Profile × Num} {v : Nat → ℝ} (h : FitsTogether o n c v) (st : Strategy)
    {k : Nat} (hk : k < n) :
    ∃ j, FitsTogether o n (optimizePairRest st o c k) (Function.update v (k + 1) j) ∧
      (st = .maximizeSpeed → v (k + 1) ≤ j) ∧ (st = .minimizeSpeed → j ≤ v (k + 1)) := by
  obtain ⟨a, d, L, hl, rl⟩ := h.1 k hk.le
  obtain ⟨a', d', L', hr, rr⟩ := h.1 (k + 1) hk
  obtain ⟨w1, w2⟩ := h.2 k hk
  obtain ⟨j, hj, r1, r2, w1', w2', hst⟩ : ∃ j, vJunctionRest st o (c k) (c (k + 1)) = fin j ∧ CanRide a d L (v k) j ∧
      CanRide a' d' L' j (v (k + 2)) ∧ Within o (c k) j ∧ Within o (c (k + 1)) j ∧
      ((st = .maximizeSpeed → v (k + 1) ≤ j) ∧ (st = .minimizeSpeed → j ≤ v (k + 1))) := by
    cases st with
    | maximizeSpeed =>
      obtain ⟨j, e, ⟨g1, g2, g3, g4⟩, hg⟩ := junction_greatest (o := o) hl hr ⟨v (k + 1), rl, rr, w1, w2⟩
      exact ⟨j, e, g1, g2, g3, g4, fun _ => hg ⟨rl, rr, w1, w2⟩, by simp⟩
    | minimizeSpeed =>
      obtain ⟨j, e, ⟨g1, g2⟩, hg⟩ := junction_least (o := o) hl hr ⟨v (k + 1), rl, rr⟩
      have hle : j ≤ v (k + 1) := hg ⟨rl, rr⟩
      have low : ∀ x : Num, (fin (v (k + 1))).le x = true → (fin j).le x = true := by
        intro x hx
        cases x <;> simp_all [Num.le]
        linarith
      exact ⟨j, e, g1, g2, ⟨low _ w1.1, low _ w1.2⟩, ⟨low _ w2.1, low _ w2.2⟩, by simp, fun _ => hle⟩
  have j0 : 0 ≤ j := by
    obtain ⟨T, x, u, hu⟩ := r1
    rw [← hu.vT]; exact hu.forward T ⟨hu.time, le_rfl⟩
  have ck : ∀ i, i ≠ k → i ≠ k + 1 → optimizePairRest st o c k i = c i := by
    intro i h1 h2; simp only [optimizePairRest, if_neg h1, if_neg h2]
  have c0 : optimizePairRest st o c k k = ({ (c k).1 with right := (c k).1.right.setvEnd (fin j) }, (c k).2) := by
    simp only [optimizePairRest, if_true, hj]
  have c1 : optimizePairRest st o c k (k + 1) = ({ (c (k + 1)).1 with left := (c (k + 1)).1.left.setvStart (fin j) }, (c (k + 1)).2) := by
    simp only [optimizePairRest, if_neg (show k + 1 ≠ k by omega), if_true, hj]
  have win : ∀ i u, Within o (c i) u → Within o (optimizePairRest st o c k i) u := by
    intro i u hw
    by_cases h1 : i = k
    · subst h1; rw [c0]; exact hw
    by_cases h2 : i = k + 1
    · subst h2; rw [c1]; exact hw
    · rw [ck i h1 h2]; exact hw
  refine ⟨j, ⟨?_, ?_⟩, hst⟩
  · intro i hi
    by_cases h1 : i = k
    · subst h1
      rw [c0, Function.update_self, Function.update_of_ne (by omega)]
      exact ⟨a, d, L, ⟨hl.length, hl.aMax, hl.dMax, hl.vStart, rfl, hl.hL, hl.ha, hl.hd, hl.hS, j0⟩, r1⟩
    by_cases h2 : i = k + 1
    · subst h2
      rw [c1, Function.update_self, Function.update_of_ne (by omega)]
      exact ⟨a', d', L', ⟨hr.length, hr.aMax, hr.dMax, rfl, hr.vEnd, hr.hL, hr.ha, hr.hd, j0, hr.hE⟩, r2⟩
    · rw [ck i h1 h2, Function.update_of_ne h2, Function.update_of_ne (by omega)]
      exact h.1 i hi
  · intro i hi
    by_cases h1 : i = k
    · subst h1
      rw [Function.update_self]
      exact ⟨win _ _ w1', win _ _ w2'⟩
    · rw [Function.update_of_ne (by omega)]
      exact ⟨win _ _ (h.2 i hi).1, win _ _ (h.2 i hi).2⟩

/-- **C113** However often and in whatever order the junctions of a queue are optimized like this, and with whatever strategies: the
motions still fit together, and the speeds at the beginning and the end of the queue are unchanged; the maximize-speed strategy
alone never lowers a speed, the minimize-speed strategy alone never raises one. -/
theorem junctions_fit {o : Overrides} {n : Nat} {c : Nat → Profile × Num} {v : Nat → ℝ} (h : FitsTogether o n c v)
    (ops : List (Strategy × Nat)) (hops : ∀ op ∈ ops, op.2 < n) :
    ∃ w, FitsTogether o n (ops.foldl (fun c op => optimizePairRest op.1 o c op.2) c) w ∧ w 0 = v 0 ∧ w (n + 1) = v (n + 1) ∧
      ((∀ op ∈ ops, op.1 = .maximizeSpeed) → ∀ i, v i ≤ w i) ∧ ((∀ op ∈ ops, op.1 = .minimizeSpeed) → ∀ i, w i ≤ v i) := by
  induction ops generalizing c v with
  | nil => exact ⟨v, h, rfl, rfl, fun _ _ => le_rfl, fun _ _ => le_rfl⟩
  | cons op ops ih =>
    obtain ⟨j, hf, hmax, hmin⟩ := fits_pair h op.1 (hops op (by simp))
    obtain ⟨w, hw, w0, wn, h1, h2⟩ := ih hf (fun x hx => hops x (by simp [hx]))
    have hlt := hops op (by simp)
    refine ⟨w, hw, by rw [w0, Function.update_of_ne (by omega)], by rw [wn, Function.update_of_ne (by omega)], fun hall i => ?_,
      fun hall i => ?_⟩
    · refine le_trans ?_ (h1 (fun x hx => hall x (by simp [hx])) i)
      by_cases hi : i = op.2 + 1
      · subst hi; rw [Function.update_self]; exact hmax (hall op (by simp))
      · rw [Function.update_of_ne hi]
    · refine le_trans (h2 (fun x hx => hall x (by simp [hx])) i) ?_
      by_cases hi : i = op.2 + 1
      · subst hi; rw [Function.update_self]; exact hmin (hall op (by simp))
      · rw [Function.update_of_ne hi]

/-- A queue of such motions with standstill in between fits together. -/
example {o : Overrides} (ho : o.feedOverride = fin 1) (n : Nat) : FitsTogether o n (fun _ => tenMm) (fun _ => 0) := by
  refine ⟨fun i _ => ⟨200, -200, 10, tenMm_finite, ?_⟩, fun i _ => ?_⟩
  · rw [canRide_iff (by norm_num) (by norm_num) le_rfl le_rfl]; norm_num
  · simp only [Within, tenMm, ho, fin_mul, Num.le, decide_eq_true_eq]; norm_num

/-! ## Two more unused functions -/

/-- **C114** For a phase of constant acceleration `calcSpeed` gives back the speed at its end. -/
theorem calc_speed {p : AccDec Num} {vS vE a d : ℝ} (h1 : p.vStart = fin vS) (h2 : p.vEnd = fin vE) (h3 : p.aMax = fin a)
    (h4 : p.dMax = fin d) (ha : 0 < a) (hd : d < 0) (hE : 0 ≤ vE) : p.calculateFirst.calcSpeed = fin vE := by
  have sq : ∀ x, x = vE ^ 2 → (fin x).sqrt = fin vE := by
    rintro x rfl
    simp only [Num.sqrt, not_lt.mpr (sq_nonneg vE), if_false, Real.sqrt_sq hE]
  have hlt : Arith.lt (F := Num) = Num.lt := rfl
  have hlit : ∀ q : ℚ, Arith.lit (F := Num) q = fin (q : ℝ) := fun _ => rfl
  by_cases h : vS < vE
  · simp only [AccDec.calcSpeed, AccDec.calculateFirst, h1, h2, h3, hlt, hlit, lt_fin, h, decide_true, if_true, fin_sub, fin_add, fin_mul,
      fin_div ha.ne']
    apply sq
    push_cast
    field_simp
    ring
  · simp only [AccDec.calcSpeed, AccDec.calculateFirst, h1, h2, h4, hlt, hlit, lt_fin, h, decide_false, Bool.false_eq_true, if_false, fin_sub,
      fin_add, fin_mul, fin_div hd.ne]
    apply sq
    have := hd.ne
    push_cast
    field_simp
    ring

/-- From 0 to 30 mm/s with 200 mm/s². -/
example : (AccDec.calculateFirst { (AccDec.zero : AccDec Num) with vStart := fin 0, vEnd := fin 30, aMax := fin 200, dMax := fin (-200) }).calcSpeed
    = fin 30 := calc_speed rfl rfl rfl rfl (by norm_num) (by norm_num) (by norm_num)

/-- **C114** `positionFromDistance` sets the position of the moving axes to the one the controller uses, and leaves the others alone. The
position in steps is the whole number of steps between this position and zero, so it may differ from the machine position, which
is rounded. -/
theorem position_from_distance (M : Machine) (t : Trajectory) (p : Point) (s : Num) (axis : Nat) :
    ((axis < M.n ∧ t.isMoving axis = true) → (t.positionFromDistance M p s).inMm axis = t.position axis s ∧
      ∀ x : ℝ, t.position axis s = fin x → |x * M.stepsPerMm axis| < 2 ^ 31 →
        let k := (t.positionFromDistance M p s).inSteps axis
        |(k : ℝ)| ≤ |x * M.stepsPerMm axis| ∧ |x * M.stepsPerMm axis - k| < 1) ∧
    (¬ (axis < M.n ∧ t.isMoving axis = true) →
      (t.positionFromDistance M p s).inMm axis = p.inMm axis ∧ (t.positionFromDistance M p s).inSteps axis = p.inSteps axis) := by
  constructor
  · intro h
    refine ⟨by simp only [Trajectory.positionFromDistance, if_pos h, Trajectory.position], fun x hx hb => ?_⟩
    have e : (t.positionFromDistance M p s).inSteps axis = M.toInt32 (fin (x * M.stepsPerMm axis)) := by
      rw [← fin_mul, ← hx]
      simp only [Trajectory.positionFromDistance, if_pos h, Trajectory.position]
    rw [e]
    set y := x * M.stepsPerMm axis with hy
    have hb' := abs_lt.mp hb
    have hr : -2 ^ 31 - 1 < y ∧ y < 2 ^ 31 := ⟨by linarith [hb'.1], hb'.2⟩
    simp only [Machine.toInt32, if_pos hr]
    split_ifs with h0
    · have f1 := Int.floor_le y
      have f2 := Int.lt_floor_add_one y
      have f3 : (0 : ℝ) ≤ ⌊y⌋ := by exact_mod_cast Int.floor_nonneg.mpr h0
      rw [abs_of_nonneg f3, abs_of_nonneg h0, abs_lt]
      exact ⟨f1, by linarith, by linarith⟩
    · have f1 := Int.le_ceil y
      have f2 := Int.ceil_lt_add_one y
      have f3 : (⌈y⌉ : ℝ) ≤ 0 := by exact_mod_cast Int.ceil_le.mpr (by push_cast; linarith)
      rw [abs_of_nonpos f3, abs_of_neg (not_le.mp h0), abs_lt]
      exact ⟨by linarith, by linarith, by linarith⟩
  · intro h
    simp only [Trajectory.positionFromDistance, if_neg h, and_self]

end Moovr.Props
