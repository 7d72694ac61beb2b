import Verif.Lemmas.Limit32
import Verif.Props.SinglePath
/-!
# Straight lines on the 3-axis machine in single precision: sizes
-/
namespace Moovr
open Num Float32 Single Ramp

/-- A straight line in the workspace of the machine (in mm), from `x` by `d`; its length is `L`. -/
structure Straight32 (x d : Nat → ℝ) (L : ℝ) : Prop where
  euclid : L ^ 2 = d 0 ^ 2 + d 1 ^ 2 + d 2 ^ 2
  long : 1 / 256 ≤ L
  start : ∀ i, i < 3 → |x i| ≤ 300
  stop : ∀ i, i < 3 → |x i + d i| ≤ 300
  span : ∀ i, i < 3 → |d i| ≤ 300

namespace Straight32
variable {x d : Nat → ℝ} {L v : ℝ}

/-- The direction, as computed. -/
noncomputable def dir (d : Nat → ℝ) (L : ℝ) (i : Nat) : ℝ := rnd (d i / L)

theorem tiny_small : tiny ≤ 1 / 2 ^ 120 := by
  unfold tiny; rw [zpow_neg, ← one_div]
  exact one_div_le_one_div_of_le (by norm_num) (by norm_num)

theorem L_pos (h : Straight32 x d L) : 0 < L := lt_of_lt_of_le (by norm_num) h.long

theorem L_le (h : Straight32 x d L) : L ≤ 520 := by
  have h0 := sq_le_sq.2 ((h.span 0 (by norm_num)).trans (le_abs_self 300))
  have h1 := sq_le_sq.2 ((h.span 1 (by norm_num)).trans (le_abs_self 300))
  have h2 := sq_le_sq.2 ((h.span 2 (by norm_num)).trans (le_abs_self 300))
  have := h.euclid
  have := h.L_pos
  nlinarith

theorem L_sq (h : Straight32 x d L) : L ^ 2 ≤ 270000 := by
  have h0 := sq_le_sq.2 ((h.span 0 (by norm_num)).trans (le_abs_self 300))
  have h1 := sq_le_sq.2 ((h.span 1 (by norm_num)).trans (le_abs_self 300))
  have h2 := sq_le_sq.2 ((h.span 2 (by norm_num)).trans (le_abs_self 300))
  have := h.euclid
  linarith

theorem span_L (h : Straight32 x d L) {i : Nat} (hi : i < 3) : |d i| ≤ L := by
  rw [← abs_of_pos h.L_pos, ← sq_le_sq, h.euclid]
  interval_cases i <;> nlinarith [sq_nonneg (d 0), sq_nonneg (d 1), sq_nonneg (d 2)]

theorem Lf (h : Straight32 x d L) : (1 - eps) * L ≤ rnd L ∧ rnd L ≤ (1 + eps) * L := by
  have := rnd_scale (x := L) (X := L) (by rw [abs_of_pos h.L_pos]) ((by rw [zpow_neg]; norm_num : (2 : ℝ) ^ (-126 : ℤ) ≤ 1 / 256).trans h.long)
  rw [eps_eq] at this
  have := abs_le.1 this
  constructor <;> linarith

theorem ratio_le (h : Straight32 x d L) {i : Nat} (hi : i < 3) : |d i / L| ≤ 1 := by
  rw [abs_div, abs_of_pos h.L_pos, div_le_one h.L_pos]; exact h.span_L hi

theorem dir_near (h : Straight32 x d L) {i : Nat} (hi : i < 3) : |dir d L i - d i / L| ≤ eps * |d i / L| + tiny :=
  rnd_err _

theorem dir_le (h : Straight32 x d L) {i : Nat} (hi : i < 3) : |dir d L i| ≤ 1 := by
  have := abs_le.1 (h.ratio_le hi)
  have h1 : rnd (1 : ℝ) = 1 := by have := rnd_int (m := 1) (by norm_num); simpa using this
  have := rnd_between (x := d i / L) (a := -1) (b := 1) (by rw [rnd_neg, h1]) h1 this.1 this.2
  exact abs_le.2 this

/-- The largest component of the direction. -/
noncomputable def top (d : Nat → ℝ) (L : ℝ) : ℝ := most (dir d L) 3

theorem dir_top {i : Nat} (hi : i < 3) : |dir d L i| ≤ top d L := le_most _ hi

theorem top_le (h : Straight32 x d L) : top d L ≤ 1 := most_le (by norm_num) fun _ hi => h.dir_le hi

theorem top_ge (h : Straight32 x d L) : 577 / 1000 ≤ top d L := by
  by_contra hc
  push Not at hc
  have hL := h.L_pos
  have ht := tiny_small
  have key : ∀ i, i < 3 → d i ^ 2 ≤ (5771 / 10000 * L) ^ 2 := by
    intro i hi
    have h1 := h.dir_near hi
    have h2 := dir_top (d := d) (L := L) hi
    have h3 : |d i / L| ≤ |dir d L i| + |dir d L i - d i / L| := by
      have := abs_add_le (dir d L i) (d i / L - dir d L i)
      rw [add_sub_cancel, abs_sub_comm (d i / L)] at this
      exact this
    have h4 : |d i / L| ≤ 5771 / 10000 := by
      unfold eps at h1
      norm_num at ht
      linarith
    rw [abs_div, abs_of_pos hL, div_le_iff₀ hL] at h4
    exact sq_le_sq.2 (by rwa [abs_of_pos (show 0 < 5771 / 10000 * L by positivity)])
  have h0 := key 0 (by norm_num)
  have h1 := key 1 (by norm_num)
  have h2 := key 2 (by norm_num)
  have he := h.euclid
  have hp : 0 < L ^ 2 := by positivity
  rw [mul_pow] at h0 h1 h2
  norm_num at h0 h1 h2
  linarith

theorem top_pos (h : Straight32 x d L) : 0 < top d L := lt_of_lt_of_le (by norm_num) h.top_ge

theorem dir_length (h : Straight32 x d L) {i : Nat} (hi : i < 3) : |dir d L i| * rnd L ≤ 300001 / 1000 := by
  have h1 := h.dir_near hi
  have hL := h.L_pos
  have h2 : |dir d L i| ≤ |d i / L| + |dir d L i - d i / L| := by
    have := abs_add_le (d i / L) (dir d L i - d i / L)
    rwa [add_sub_cancel] at this
  have h3 : |dir d L i| ≤ (1 + eps) * |d i / L| + tiny := by linarith
  have h4 := mul_le_mul h3 h.Lf.2 (rnd_nonneg hL.le) (by have := tiny_pos; have := eps_pos; positivity)
  have h5 : ((1 + eps) * |d i / L| + tiny) * ((1 + eps) * L) = (1 + eps) ^ 2 * |d i| + tiny * ((1 + eps) * L) := by
    rw [abs_div, abs_of_pos hL]; field_simp
  rw [h5] at h4
  have h6 := h.span i hi
  have h7 := h.L_le
  have h8 : tiny * ((1 + eps) * L) ≤ 1 / 2 ^ 120 * (2 * 520) := by
    refine mul_le_mul tiny_small ?_ (by have := eps_pos; positivity) (by norm_num)
    unfold eps; linarith
  have h9 : (1 + eps) ^ 2 * |d i| ≤ (1 + eps) ^ 2 * 300 := mul_le_mul_of_nonneg_left h6 (by have := eps_pos; positivity)
  unfold eps at *
  norm_num at *
  linarith

/-- The acceleration along the path, as computed. -/
noncomputable def acc (d : Nat → ℝ) (L : ℝ) : ℝ := rnd (200 / top d L)

theorem quotient_near {c U : ℝ} (hc : 1 ≤ c) (h0 : 0 < U) (h1 : U ≤ 1) :
    (1 - eps) * c ≤ U * rnd (c / U) ∧ U * rnd (c / U) ≤ (1 + eps) * c := by
  have h2 : 1 ≤ c / U := by rw [le_div_iff₀ h0]; linarith
  have := rnd_scale (x := c / U) (X := c / U) (by rw [abs_of_pos (by positivity)])
    ((by rw [zpow_neg]; norm_num : (2 : ℝ) ^ (-126 : ℤ) ≤ 1).trans h2)
  rw [eps_eq] at this
  have := abs_le.1 this
  have e : U * (c / U) = c := by field_simp
  have h3 := mul_le_mul_of_nonneg_left (show rnd (c / U) ≤ (1 + eps) * (c / U) by linarith) h0.le
  have h4 := mul_le_mul_of_nonneg_left (show (1 - eps) * (c / U) ≤ rnd (c / U) by linarith) h0.le
  rw [mul_left_comm, e] at h3 h4
  exact ⟨h4, h3⟩

theorem acc_near (h : Straight32 x d L) : 19999 / 100 ≤ top d L * acc d L ∧ top d L * acc d L ≤ 20001 / 100 := by
  have := quotient_near (c := 200) (by norm_num) h.top_pos h.top_le
  unfold eps at this
  unfold acc
  constructor <;> linarith

theorem acc_bounds (h : Straight32 x d L) : 1999 / 10 ≤ acc d L ∧ acc d L ≤ 347 := by
  obtain ⟨h1, h2⟩ := h.acc_near
  have h3 := h.top_ge
  have h4 := h.top_le
  constructor
  · by_contra hc
    push Not at hc
    nlinarith
  · by_contra hc
    push Not at hc
    nlinarith

/-- The speed along the path: within the limits of the axes, and not too low for the length. -/
structure Speed (d : Nat → ℝ) (L v : ℝ) : Prop where
  float : rnd v = v
  ge : 9 / 100 ≤ v
  le : v ≤ rnd (30 / top d L)
  slow : rnd L ^ 2 ≤ 100000 * v ^ 3

theorem speed_top (h : Straight32 x d L) (hv : Speed d L v) : top d L * v ≤ 30001 / 1000 := by
  have := (quotient_near (c := 30) (by norm_num) h.top_pos h.top_le).2
  have h1 := mul_le_mul_of_nonneg_left hv.le h.top_pos.le
  unfold eps at this
  linarith

theorem speed_le (h : Straight32 x d L) (hv : Speed d L v) : v ≤ 52 := by
  have h1 := h.speed_top hv
  have h3 := h.top_ge
  have := hv.ge
  by_contra hc
  push Not at hc
  nlinarith

/-- Time to get up to speed, as in `rampDistance`. -/
noncomputable def rise (v a : ℝ) : ℝ := max (max (v / a) (v / a)) √(v / 600)

theorem rise_le (h : Straight32 x d L) (hv : Speed d L v) :
    rise v (acc d L) ≤ 2945 / 10000 ∧ (149 / 100 ≤ v → rise v (acc d L) ≤ 225 / 10000 * v ^ 2) ∧
    (v ≤ 149 / 100 → rise v (acc d L) ≤ 1 / 20) := by
  have hv0 : 0 < v := lt_of_lt_of_le (by norm_num) hv.ge
  have ha := h.acc_bounds
  have ha0 : 0 < acc d L := by linarith
  have h52 := h.speed_le hv
  have h1 := h.speed_top hv
  have h2 := h.acc_near.1
  have ht := h.top_pos
  have h3 : v / acc d L ≤ 151 / 1000 := by
    rw [div_le_iff₀ ha0]
    by_contra hc
    push Not at hc
    have := mul_lt_mul_of_pos_left hc ht
    linarith
  unfold rise
  refine ⟨max_le (max_le ?_ ?_) ?_, fun hge => ?_, fun hle => max_le (max_le ?_ ?_) ?_⟩
  · linarith
  · linarith
  · exact Real.sqrt_le_iff.2 ⟨by norm_num, by linarith⟩
  · have hcube : 33 / 10 ≤ v ^ 3 := by
      have := pow_le_pow_left₀ (by norm_num) hge 3
      norm_num at this ⊢
      linarith
    refine max_le (max_le ?_ ?_) ?_
    · rw [div_le_iff₀ ha0]; nlinarith [mul_nonneg (mul_nonneg hv0.le hv0.le) (sub_nonneg.2 ha.1), mul_nonneg hv0.le (sub_nonneg.2 hge)]
    · rw [div_le_iff₀ ha0]; nlinarith [mul_nonneg (mul_nonneg hv0.le hv0.le) (sub_nonneg.2 ha.1), mul_nonneg hv0.le (sub_nonneg.2 hge)]
    · refine Real.sqrt_le_iff.2 ⟨by positivity, ?_⟩
      have := mul_le_mul_of_nonneg_left hcube hv0.le
      have e : (225 / 10000 * v ^ 2) ^ 2 = 225 ^ 2 / 10000 ^ 2 * (v * v ^ 3) := by ring
      rw [e]
      norm_num
      linarith
  · rw [div_le_iff₀ ha0]; linarith
  · rw [div_le_iff₀ ha0]; linarith
  · exact Real.sqrt_le_iff.2 ⟨by norm_num, by linarith⟩

/-- The part of the errors that grows with the duration. -/
theorem late_le (h : Straight32 x d L) (hv : Speed d L v) {u : ℝ} (hu0 : 0 ≤ u) (hu1 : u ≤ 1) :
    (u * (600 * rnd L ^ 2 / v ^ 3 * Props.rampDistance v (acc d L) (acc d L) 600) ≤ 7476000) ∨
    (v ≤ 149 / 100 ∧ u * (600 * rnd L ^ 2 / v ^ 3 * Props.rampDistance v (acc d L) (acc d L) 600) ≤ 9165000 ∧
      Props.rampDistance v (acc d L) (acc d L) 600 ≤ 154 / 1000) := by
  have hv0 : 0 < v := lt_of_lt_of_le (by norm_num) hv.ge
  obtain ⟨-, r2, r3⟩ := h.rise_le hv
  have hr0 : 0 ≤ rise v (acc d L) := le_max_of_le_right (Real.sqrt_nonneg _)
  have hR : Props.rampDistance v (acc d L) (acc d L) 600 = v * (205 / 100 * rise v (acc d L)) := rfl
  rw [hR]
  have e : u * (600 * rnd L ^ 2 / v ^ 3 * (v * (205 / 100 * rise v (acc d L)))) =
      1230 * (u * rnd L ^ 2) * (rise v (acc d L) / v ^ 2) := by field_simp; ring
  rw [e]
  rcases le_total (149 / 100) v with c | c
  · left
    have a1 : rise v (acc d L) / v ^ 2 ≤ 225 / 10000 := by rw [div_le_iff₀ (by positivity)]; exact r2 c
    have a2 : rnd L ^ 2 ≤ 270001 := by
      have := pow_le_pow_left₀ (rnd_nonneg h.L_pos.le) h.Lf.2 2
      rw [mul_pow] at this
      have b := h.L_sq
      have b' := mul_le_mul_of_nonneg_left b (show 0 ≤ (1 + eps) ^ 2 by positivity)
      refine this.trans (b'.trans ?_)
      unfold eps; norm_num
    have a3 : u * rnd L ^ 2 ≤ 1 * 270001 := mul_le_mul hu1 a2 (by positivity) (by norm_num)
    have a4 := mul_le_mul a3 a1 (by positivity) (by norm_num)
    linarith
  · right
    have a0 := r3 c
    have a1 : v * rise v (acc d L) ≤ 149 / 100 * (1 / 20) := mul_le_mul c a0 hr0 (by norm_num)
    refine ⟨c, ?_, by linarith⟩
    have a3 : u * rnd L ^ 2 ≤ 1 * (100000 * v ^ 3) := mul_le_mul hu1 hv.slow (by positivity) (by norm_num)
    have a4 := mul_le_mul_of_nonneg_right a3 (show 0 ≤ rise v (acc d L) / v ^ 2 by positivity)
    have a5 : 1 * (100000 * v ^ 3) * (rise v (acc d L) / v ^ 2) = 100000 * (v * rise v (acc d L)) := by field_simp
    linarith

theorem moderate (h : Straight32 x d L) (hv : Speed d L v) : Moderate (rnd L) v (acc d L) (acc d L) 600 := by
  have ha := h.acc_bounds
  have h52 := h.speed_le hv
  have hge := hv.ge
  have hL := h.Lf
  have hL0 := h.long
  have hL1 := h.L_le
  have hsq := h.L_sq
  have hb1 : 1 / 1024 ≤ rnd L := by unfold eps at hL; linarith
  have hb2 : rnd L ≤ 521 := by unfold eps at hL; linarith
  have hasq : 1999 / 10 * (1999 / 10) ≤ acc d L ^ 2 := by nlinarith
  have hasq' : acc d L ^ 2 ≤ 347 * 347 := by nlinarith
  have hslow := hv.slow
  have hcube : 0 < v ^ 3 := by have : 0 < v := by linarith
                               positivity
  refine ⟨rnd_rnd _, hv.float, hb1, by linarith, by linarith, by linarith, by linarith, by linarith, by linarith, by linarith,
    by norm_num, by norm_num, by linarith, by linarith, by linarith, by linarith, ⟨by linarith, by linarith⟩, ?_⟩
  norm_num at hslow ⊢
  linarith

/-- The limits of the errors, for an axis. -/
theorem sizes (h : Straight32 x d L) (hv : Speed d L v) {i : Nat} (hi : i < 3) :
    |dir d L i| * Props.ripple (rnd L) v (acc d L) (acc d L) 600 ≤ 4960 / 2 ^ 24 ∧
    |dir d L i| * Props.drift (rnd L) v (acc d L) (acc d L) 600 ≤ 8945 / 2 ^ 24 ∧
    |dir d L i| * Props.rampDistance v (acc d L) (acc d L) 600 ≤ 18113 / 1000 := by
  have hv0 : 0 < v := lt_of_lt_of_le (by norm_num) hv.ge
  obtain ⟨r1, r2⟩ := h.rise_le hv
  have hr0 : 0 ≤ rise v (acc d L) := le_max_of_le_right (Real.sqrt_nonneg _)
  have hdt := dir_top (d := d) (L := L) hi
  have hd0 := abs_nonneg (dir d L i)
  have hd1 := h.dir_le hi
  have hlen := h.dir_length hi
  have hR : Props.rampDistance v (acc d L) (acc d L) 600 = v * (205 / 100 * rise v (acc d L)) := rfl
  have h1 : |dir d L i| * Props.rampDistance v (acc d L) (acc d L) 600 ≤ 18113 / 1000 := by
    rw [hR]
    have a1 : |dir d L i| * v ≤ 30001 / 1000 := (mul_le_mul_of_nonneg_right hdt hv0.le).trans (h.speed_top hv)
    have a2 := mul_le_mul a1 r1 hr0 (by norm_num)
    linarith
  have h2 := h.late_le hv hd0 hd1
  refine ⟨?_, ?_, h1⟩
  · unfold Props.ripple
    have e : |dir d L i| * ((151 * Props.rampDistance v (acc d L) (acc d L) 600 + 72 / 10 * rnd L +
        141 / 2 ^ 24 * (600 * rnd L ^ 2 / v ^ 3) * Props.rampDistance v (acc d L) (acc d L) 600) / 2 ^ 24) =
        (151 * (|dir d L i| * Props.rampDistance v (acc d L) (acc d L) 600) + 72 / 10 * (|dir d L i| * rnd L) +
        141 / 2 ^ 24 * (|dir d L i| * (600 * rnd L ^ 2 / v ^ 3 * Props.rampDistance v (acc d L) (acc d L) 600))) / 2 ^ 24 := by ring
    rw [e]
    refine div_le_div_of_nonneg_right ?_ (by norm_num)
    have hW : Props.rampDistance v (acc d L) (acc d L) 600 ≤ 154 / 1000 →
        |dir d L i| * Props.rampDistance v (acc d L) (acc d L) 600 ≤ 1 * (154 / 1000) := fun hW =>
      mul_le_mul hd1 hW (by rw [hR]; positivity) (by norm_num)
    rcases h2 with h2 | ⟨-, h2, h3⟩
    · norm_num at h1 h2 hlen ⊢
      linarith
    · have h3 := hW h3
      norm_num at h2 h3 hlen ⊢
      linarith
  · unfold Props.drift
    have e : |dir d L i| * ((240 * Props.rampDistance v (acc d L) (acc d L) 600 + 15 * rnd L +
        210 / 2 ^ 24 * (600 * rnd L ^ 2 / v ^ 3) * Props.rampDistance v (acc d L) (acc d L) 600) / 2 ^ 24) =
        (240 * (|dir d L i| * Props.rampDistance v (acc d L) (acc d L) 600) + 15 * (|dir d L i| * rnd L) +
        210 / 2 ^ 24 * (|dir d L i| * (600 * rnd L ^ 2 / v ^ 3 * Props.rampDistance v (acc d L) (acc d L) 600))) / 2 ^ 24 := by ring
    rw [e]
    refine div_le_div_of_nonneg_right ?_ (by norm_num)
    have hW : Props.rampDistance v (acc d L) (acc d L) 600 ≤ 154 / 1000 →
        |dir d L i| * Props.rampDistance v (acc d L) (acc d L) 600 ≤ 1 * (154 / 1000) := fun hW =>
      mul_le_mul hd1 hW (by rw [hR]; positivity) (by norm_num)
    rcases h2 with h2 | ⟨-, h2, h3⟩
    · norm_num at h1 h2 hlen ⊢
      linarith
    · have h3 := hW h3
      norm_num at h2 h3 hlen ⊢
      linarith

end Straight32
end Moovr
