import Verif.Lemmas.Line32
/-!
# Straight lines on the 3-axis machine in single precision: positions
-/
namespace Moovr
open Num Float32 Single Ramp

namespace Straight32
variable {x d : Nat → ℝ} {L v : ℝ}

/-- What is known of the distance travelled (`Props.path_single`). -/
structure Law (d : Nat → ℝ) (L v D : ℝ) (S : ℝ → ℝ) : Prop where
  pos : 0 < D
  brief : v * D ≤ 102 / 100 * rnd L + 4 * Props.rampDistance v (acc d L) (acc d L) 600
  zero : S 0 = 0
  ends : |S D - rnd L| ≤ Props.drift (rnd L) v (acc d L) (acc d L) 600
  rises : ∀ t t', 0 ≤ t → t ≤ t' → t' ≤ D →
    S t ≤ S t' + Props.ripple (rnd L) v (acc d L) (acc d L) 600 ∧
    S t' ≤ S t + v * (t' - t) + Props.drift (rnd L) v (acc d L) (acc d L) 600

/-- The position of an axis (in mm) at a distance from the start, as computed. -/
noncomputable def spot (fpu : Fpu) (x d : Nat → ℝ) (L : ℝ) (i : Nat) (s : ℝ) : ℝ := mulAddR fpu (dir d L i) s (rnd (x i))

theorem start_near (h : Straight32 x d L) {i : Nat} (hi : i < 3) : |rnd (x i) - x i| ≤ 301 / 2 ^ 24 := by
  have h1 := rnd_err (x i)
  have h2 := h.start i hi
  have h3 := tiny_small
  unfold eps at h1
  norm_num at h3 ⊢
  linarith

theorem spot_near (h : Straight32 x d L) {fpu : Fpu} {i : Nat} (hi : i < 3) {s : ℝ} (hs : |dir d L i * s| ≤ 301) :
    |spot fpu x d L i s - (dir d L i * s + rnd (x i))| ≤ 903 / 2 ^ 24 := by
  have h1 := mulAddR_error fpu (dir d L i) s (rnd (x i)) hs (by rw [zpow_neg]; norm_num)
  have h2 : |rnd (x i)| ≤ 30001 / 100 := by
    have := h.start_near hi
    have h3 := h.start i hi
    have := abs_add_le (x i) (rnd (x i) - x i)
    rw [add_sub_cancel] at this
    norm_num at *
    linarith
  rw [eps_eq] at h1
  unfold spot
  refine h1.trans ?_
  unfold eps
  norm_num
  linarith

theorem ripple_nonneg (h : Straight32 x d L) (hv : Speed d L v) : 0 ≤ Props.ripple (rnd L) v (acc d L) (acc d L) 600 := by
  have hm := h.moderate hv
  have := hm.L_pos; have := hm.v_pos; have := hm.a_pos
  unfold Props.ripple Props.rampDistance
  positivity

theorem drift_nonneg (h : Straight32 x d L) (hv : Speed d L v) : 0 ≤ Props.drift (rnd L) v (acc d L) (acc d L) 600 := by
  have hm := h.moderate hv
  have := hm.L_pos; have := hm.v_pos; have := hm.a_pos
  unfold Props.drift Props.rampDistance
  positivity

variable {D : ℝ} {S : ℝ → ℝ}

/-- The distances travelled are those of the line, but for small errors. -/
theorem Law.range (hl : Law d L v D S) {t : ℝ} (h0 : 0 ≤ t) (h1 : t ≤ D) :
    -Props.ripple (rnd L) v (acc d L) (acc d L) 600 ≤ S t ∧
    S t ≤ rnd L + Props.drift (rnd L) v (acc d L) (acc d L) 600 + Props.ripple (rnd L) v (acc d L) (acc d L) 600 := by
  have h2 := (hl.rises 0 t le_rfl h0 h1).1
  have h3 := (hl.rises t D h0 h1 le_rfl).1
  have h4 := abs_le.1 hl.ends
  rw [hl.zero] at h2
  constructor <;> linarith

theorem Law.moved (h : Straight32 x d L) (hv : Speed d L v) (hl : Law d L v D S) {i : Nat} (hi : i < 3) {t : ℝ} (h0 : 0 ≤ t)
    (h1 : t ≤ D) : |dir d L i * S t| ≤ 301 := by
  obtain ⟨a, b⟩ := hl.range h0 h1
  obtain ⟨s1, s2, -⟩ := h.sizes hv hi
  have hlen := h.dir_length hi
  have hd := abs_nonneg (dir d L i)
  have hr := h.ripple_nonneg hv
  have hdr := h.drift_nonneg hv
  have hL := rnd_nonneg h.L_pos.le
  rw [abs_mul]
  have h2 : |S t| ≤ rnd L + Props.drift (rnd L) v (acc d L) (acc d L) 600 + Props.ripple (rnd L) v (acc d L) (acc d L) 600 :=
    abs_le.2 ⟨by linarith, b⟩
  have h3 := mul_le_mul_of_nonneg_left h2 hd
  norm_num at s1 s2
  linarith

/-- The computed positions go back (against the direction) only little. -/
theorem Law.falls (h : Straight32 x d L) (hv : Speed d L v) (hl : Law d L v D S) {fpu : Fpu} {i : Nat} (hi : i < 3) {t t' : ℝ}
    (h0 : 0 ≤ t) (h1 : t ≤ t') (h2 : t' ≤ D) :
    (0 ≤ dir d L i → spot fpu x d L i (S t) ≤ spot fpu x d L i (S t') + 6766 / 2 ^ 24) ∧
    (dir d L i ≤ 0 → spot fpu x d L i (S t') ≤ spot fpu x d L i (S t) + 6766 / 2 ^ 24) := by
  have a := abs_le.1 (h.spot_near (fpu := fpu) hi (hl.moved h hv hi h0 (h1.trans h2)))
  have b := abs_le.1 (h.spot_near (fpu := fpu) hi (hl.moved h hv hi (h0.trans h1) h2))
  have r := (hl.rises t t' h0 h1 h2).1
  obtain ⟨s1, -, -⟩ := h.sizes hv hi
  constructor
  · intro hd
    rw [abs_of_nonneg hd] at s1
    have := mul_le_mul_of_nonneg_left r hd
    norm_num at *
    linarith
  · intro hd
    rw [abs_of_nonpos hd] at s1
    have := mul_le_mul_of_nonneg_left r (neg_nonneg.2 hd)
    norm_num at *
    linarith

/-- The computed positions change continuously, but for small errors. -/
theorem Law.rate (h : Straight32 x d L) (hv : Speed d L v) (hl : Law d L v D S) {fpu : Fpu} {i : Nat} (hi : i < 3) {t t' : ℝ}
    (h0 : 0 ≤ t) (h1 : t ≤ t') (h2 : t' ≤ D) :
    |spot fpu x d L i (S t') - spot fpu x d L i (S t)| ≤ |dir d L i| * (v * (t' - t)) + 15711 / 2 ^ 24 := by
  have a := abs_le.1 (h.spot_near (fpu := fpu) hi (hl.moved h hv hi h0 (h1.trans h2)))
  have b := abs_le.1 (h.spot_near (fpu := fpu) hi (hl.moved h hv hi (h0.trans h1) h2))
  obtain ⟨r1, r2⟩ := hl.rises t t' h0 h1 h2
  obtain ⟨s1, s2, -⟩ := h.sizes hv hi
  have hr := h.ripple_nonneg hv
  have hdr := h.drift_nonneg hv
  have hvt : 0 ≤ v * (t' - t) := mul_nonneg (le_trans (by norm_num) hv.ge) (by linarith)
  have h3 : |S t' - S t| ≤ v * (t' - t) + Props.drift (rnd L) v (acc d L) (acc d L) 600 +
      Props.ripple (rnd L) v (acc d L) (acc d L) 600 := by
    rw [abs_le]; constructor <;> linarith
  have h4 : |dir d L i * S t' - dir d L i * S t| ≤ |dir d L i| * (v * (t' - t)) + (8945 + 4960) / 2 ^ 24 := by
    rw [← mul_sub, abs_mul]
    have := mul_le_mul_of_nonneg_left h3 (abs_nonneg (dir d L i))
    norm_num at *
    linarith
  have h5 := abs_le.1 h4
  rw [abs_le]
  norm_num at *
  constructor <;> linarith

/-- Two distances on the line with their directions. -/
theorem near_line (h : Straight32 x d L) {fpu : Fpu} {i : Nat} (hi : i < 3) {s s' e : ℝ} (hs : |dir d L i * s| ≤ 301)
    (h0 : 0 ≤ s') (h1 : s' ≤ L) (he : |dir d L i| * |s - s'| ≤ e) :
    |spot fpu x d L i s - (x i + d i * (s' / L))| ≤ e + 1506 / 2 ^ 24 := by
  have a := abs_le.1 (h.spot_near (fpu := fpu) hi hs)
  have b := abs_le.1 (h.start_near hi)
  have hL := h.L_pos
  have c : |dir d L i * s' - d i * (s' / L)| ≤ 302 / 2 ^ 24 := by
    rw [show dir d L i * s' - d i * (s' / L) = (dir d L i - d i / L) * s' by field_simp, abs_mul, abs_of_nonneg h0]
    have h2 := mul_le_mul (h.dir_near hi) h1 h0 (by have := eps_pos; have := tiny_pos; positivity)
    have h3 : (eps * |d i / L| + tiny) * L = eps * |d i| + tiny * L := by
      rw [abs_div, abs_of_pos hL]; field_simp
    rw [h3] at h2
    have h4 := h.span i hi
    have h5 : tiny * L ≤ 1 / 2 ^ 120 * 520 := mul_le_mul tiny_small h.L_le hL.le (by norm_num)
    unfold eps at h2
    norm_num at *
    linarith
  have c := abs_le.1 c
  have f : |dir d L i * s - dir d L i * s'| ≤ e := by rw [← mul_sub, abs_mul]; exact he
  have f := abs_le.1 f
  rw [abs_le]
  norm_num at *
  constructor <;> linarith

/-- The computed positions are near a point of the line. -/
theorem Law.on_line (h : Straight32 x d L) (hv : Speed d L v) (hl : Law d L v D S) {t : ℝ} (h0 : 0 ≤ t) (h1 : t ≤ D) :
    ∃ s, 0 ≤ s ∧ s ≤ L ∧ ∀ (fpu : Fpu) (i : Nat), i < 3 →
      |spot fpu x d L i (S t) - (x i + d i * (s / L))| ≤ 15712 / 2 ^ 24 := by
  obtain ⟨a, b⟩ := hl.range h0 h1
  have hr := h.ripple_nonneg hv
  have hdr := h.drift_nonneg hv
  have hL := h.L_pos
  have hLf := h.Lf.2
  refine ⟨max 0 (min L (S t)), le_max_left _ _, max_le hL.le (min_le_left _ _), fun fpu i hi => ?_⟩
  obtain ⟨s1, s2, -⟩ := h.sizes hv hi
  have hc : |S t - max 0 (min L (S t))| ≤ eps * L + Props.drift (rnd L) v (acc d L) (acc d L) 600 +
      Props.ripple (rnd L) v (acc d L) (acc d L) 600 := by
    have : 0 ≤ eps * L := by have := eps_pos; positivity
    rcases le_total (S t) 0 with c | c
    · rw [max_eq_left ((min_le_right _ _).trans c), abs_le]
      constructor <;> linarith
    · rcases le_total L (S t) with c' | c'
      · rw [min_eq_left c', max_eq_right hL.le, abs_le]
        constructor <;> linarith
      · rw [min_eq_right c', max_eq_right c, sub_self, abs_zero]
        linarith
  have h2 := mul_le_mul_of_nonneg_left hc (abs_nonneg (dir d L i))
  have hd := h.dir_near hi
  have hdL : |dir d L i| * L ≤ 301 := by
    have hlen := h.dir_length hi
    have := h.Lf.1
    have h3 := mul_le_mul_of_nonneg_left this (abs_nonneg (dir d L i))
    have h4 : 0 ≤ |dir d L i| * L := by positivity
    unfold eps at h3
    linarith
  have := h.near_line (fpu := fpu) hi (hl.moved h hv hi h0 h1) (le_max_left 0 (min L (S t))) (max_le hL.le (min_le_left _ _))
    (e := (301 + 8945 + 4960) / 2 ^ 24) (h2.trans (by
      unfold eps
      norm_num at *
      linarith))
  refine this.trans ?_
  norm_num

/-- Near the end, they are near the end of the line. -/
theorem Law.at_end (h : Straight32 x d L) (hv : Speed d L v) (hl : Law d L v D S) {t : ℝ} (h0 : 0 ≤ t) (h1 : t ≤ D)
    {fpu : Fpu} {i : Nat} (hi : i < 3) :
    |spot fpu x d L i (S t) - (x i + d i)| ≤ |dir d L i| * (v * (D - t)) + 19697 / 2 ^ 24 := by
  obtain ⟨-, b⟩ := hl.range h0 h1
  obtain ⟨r1, r2⟩ := hl.rises t D h0 h1 le_rfl
  have e := abs_le.1 hl.ends
  have hr := h.ripple_nonneg hv
  have hdr := h.drift_nonneg hv
  have hL := h.L_pos
  have hLf := h.Lf
  obtain ⟨s1, s2, -⟩ := h.sizes hv hi
  have hvt : 0 ≤ v * (D - t) := mul_nonneg (le_trans (by norm_num) hv.ge) (by linarith)
  have hd0 := abs_nonneg (dir d L i)
  have hlow : -(v * (D - t) + 2 * Props.drift (rnd L) v (acc d L) (acc d L) 600 + eps * L) ≤ S t - L := by linarith
  have hup : S t - L ≤ eps * L + Props.drift (rnd L) v (acc d L) (acc d L) 600 + Props.ripple (rnd L) v (acc d L) (acc d L) 600 := by
    linarith
  have hdL : |dir d L i| * L ≤ 301 := by
    have hlen := h.dir_length hi
    have := h.Lf.1
    have h3 := mul_le_mul_of_nonneg_left this (abs_nonneg (dir d L i))
    have h4 : 0 ≤ |dir d L i| * L := by positivity
    unfold eps at h3
    linarith
  have hc : |dir d L i| * |S t - L| ≤ |dir d L i| * (v * (D - t)) + (2 * 8945 + 301) / 2 ^ 24 := by
    have m1 : 0 ≤ |dir d L i| * (v * (D - t)) := by positivity
    have m2 : |dir d L i| * (eps * L) ≤ 301 / 2 ^ 24 := by unfold eps; norm_num; linarith
    rw [← abs_of_nonneg hd0, ← abs_mul, abs_of_nonneg hd0]
    have k1 := mul_le_mul_of_nonneg_left hlow hd0
    have k2 := mul_le_mul_of_nonneg_left hup hd0
    rw [abs_le]
    norm_num at *
    constructor <;> linarith
  have := h.near_line (fpu := fpu) hi (hl.moved h hv hi h0 h1) hL.le le_rfl hc
  rw [div_self hL.ne', mul_one] at this
  refine this.trans ?_
  norm_num
  linarith

end Straight32
end Moovr
