import Verif.Lemmas.Plan32
/-!
# Relative errors of the planned speed and lengths
-/
namespace Moovr
open Num Float32 Single Ramp

/-- `x` is near `y`, up to the relative error `k * eps`. -/
structure Near (k x y : ℝ) : Prop where
  ge : (1 - k * eps) * y ≤ x
  le : x ≤ (1 + k * eps) * y

namespace Near
variable {k l x y c b : ℝ}

theorem refl (y : ℝ) : Near 0 y y := ⟨by linarith, by linarith⟩

theorem mono (h : Near k x y) (hy : 0 ≤ y) (hkl : k ≤ l) : Near l x y := by
  have := mul_le_mul_of_nonneg_right (mul_le_mul_of_nonneg_right hkl eps_pos.le) hy
  exact ⟨by linarith [h.ge], by linarith [h.le]⟩

theorem pos (h : Near k x y) (hy : 0 < y) (hk : k ≤ 100) : 0 < x := by
  have h1 := h.ge
  have : k * eps < 1 := by unfold eps; linarith
  have : 0 < (1 - k * eps) * y := mul_pos (by linarith) hy
  linarith

theorem half_le (h : Near k x y) (hy : 0 < y) (hk : k ≤ 100) : y / 2 ≤ x := by
  have h1 := h.ge
  have : k * eps ≤ 1 / 2 := by unfold eps; linarith
  have := mul_le_mul_of_nonneg_right this hy.le
  linarith

theorem round (h : Near k x y) (hk0 : 0 ≤ k) (hk : k ≤ 30) (hy : 1 / 2 ^ 90 ≤ y) : Near (k + 101 / 100) (rnd x) y := by
  have hy0 : 0 < y := lt_of_lt_of_le (by norm_num) hy
  have hx := h.half_le hy0 (by linarith)
  have hr := abs_le.1 (rel126 (x := x) (by norm_num at hy ⊢; linarith))
  have h1 := h.ge
  have h2 := h.le
  have hky : k * y ≤ 30 * y := mul_le_mul_of_nonneg_right hk hy0.le
  have hky0 : 0 ≤ k * y := by positivity
  constructor
  · unfold eps at *
    nlinarith
  · unfold eps at *
    nlinarith

theorem mul_right (h : Near k x y) (hc : 0 ≤ c) : Near k (x * c) (y * c) :=
  ⟨by have := mul_le_mul_of_nonneg_right h.ge hc; linarith, by have := mul_le_mul_of_nonneg_right h.le hc; linarith⟩

theorem div_right (h : Near k x y) (hc : 0 < c) : Near k (x / c) (y / c) := by
  have := h.mul_right (inv_pos.2 hc).le
  simpa [div_eq_mul_inv] using this

/-- Dividing by a rounded number. -/
theorem div_round (h : Near k x y) (hk0 : 0 ≤ k) (hk : k ≤ 30) (hy : 0 < y) (hc : Near (101 / 100) c b) (hb : 0 < b) :
    Near (k + 102 / 100) (x / c) (y / b) := by
  have hc0 := hc.pos hb (by norm_num)
  have hx0 := h.pos hy (by linarith)
  have h1 := h.ge
  have h2 := h.le
  have h3 := hc.ge
  have h4 := hc.le
  have hky : k * y ≤ 30 * y := mul_le_mul_of_nonneg_right hk hy.le
  have hky0 : 0 ≤ k * y := by positivity
  have e1 : (1 - (k + 102 / 100) * eps) * y * (1 + 101 / 100 * eps) ≤ (1 - k * eps) * y := by unfold eps; nlinarith
  have e2 : (1 + k * eps) * y ≤ (1 + (k + 102 / 100) * eps) * y * (1 - 101 / 100 * eps) := by unfold eps; nlinarith
  have p1 : 0 ≤ (1 - (k + 102 / 100) * eps) * y := mul_nonneg (by unfold eps; linarith) hy.le
  have p2 : 0 ≤ (1 + (k + 102 / 100) * eps) * y := mul_nonneg (by have := eps_pos; positivity) hy.le
  constructor
  · rw [mul_div_assoc', div_le_div_iff₀ hb hc0]
    calc (1 - (k + 102 / 100) * eps) * y * c ≤ (1 - (k + 102 / 100) * eps) * y * ((1 + 101 / 100 * eps) * b) :=
          mul_le_mul_of_nonneg_left h4 p1
      _ = (1 - (k + 102 / 100) * eps) * y * (1 + 101 / 100 * eps) * b := by ring
      _ ≤ (1 - k * eps) * y * b := mul_le_mul_of_nonneg_right e1 hb.le
      _ ≤ x * b := mul_le_mul_of_nonneg_right h1 hb.le
  · rw [mul_div_assoc', div_le_div_iff₀ hc0 hb]
    calc x * b ≤ (1 + k * eps) * y * b := mul_le_mul_of_nonneg_right h2 hb.le
      _ ≤ (1 + (k + 102 / 100) * eps) * y * (1 - 101 / 100 * eps) * b := mul_le_mul_of_nonneg_right e2 hb.le
      _ = (1 + (k + 102 / 100) * eps) * y * ((1 - 101 / 100 * eps) * b) := by ring
      _ ≤ _ := mul_le_mul_of_nonneg_left h3 p2

/-- The square of a rounded root. -/
theorem root (h : Near k x y) (hk0 : 0 ≤ k) (hk : k ≤ 30) (hy : 1 / 2 ^ 90 ≤ y) : Near (k + 203 / 100) (rnd √x ^ 2) y := by
  have hy0 : 0 < y := lt_of_lt_of_le (by norm_num) hy
  have hx0 := h.pos hy0 (by linarith)
  have hx := h.half_le hy0 (by linarith)
  have s0 : 1 / 2 ^ 50 ≤ √x := Real.le_sqrt_of_sq_le (by norm_num at hy ⊢; linarith)
  have hr := abs_le.1 (rel126 (x := √x) (by norm_num at s0 ⊢; linarith))
  have hsq := Real.sq_sqrt hx0.le
  have hsp := Real.sqrt_pos.2 hx0
  generalize √x = s at *
  have r0 : 0 ≤ rnd s := rnd_nonneg hsp.le
  generalize rnd s = r at *
  have h1 := h.ge
  have h2 := h.le
  have hky : k * y ≤ 30 * y := mul_le_mul_of_nonneg_right hk hy0.le
  have hky0 : 0 ≤ k * y := by positivity
  have q1 : r ^ 2 ≤ (1 + 201 / 100 * eps) * x := by
    have : r ≤ (1 + eps) * s := by linarith
    have h3 := mul_le_mul this this r0 (by have := eps_pos; positivity)
    have e : (1 + eps) * s * ((1 + eps) * s) ≤ (1 + 201 / 100 * eps) * s ^ 2 := by
      have : 0 ≤ s ^ 2 := by positivity
      unfold eps; nlinarith
    rw [← hsq]; nlinarith
  have q2 : (1 - 2 * eps) * x ≤ r ^ 2 := by
    have : (1 - eps) * s ≤ r := by linarith
    have h3 := mul_le_mul this this (mul_nonneg (by unfold eps; norm_num) hsp.le) r0
    have e : (1 - 2 * eps) * s ^ 2 ≤ (1 - eps) * s * ((1 - eps) * s) := by
      have : 0 ≤ s ^ 2 := by positivity
      unfold eps; nlinarith
    rw [← hsq]; nlinarith
  constructor
  · refine le_trans ?_ q2
    unfold eps at *
    nlinarith
  · refine q1.trans ?_
    unfold eps at *
    nlinarith

end Near

/-- Reasonable sizes of the numbers of a motion: length, speed, acceleration, deceleration, jerk. -/
structure Moderate (L v a d j : ℝ) : Prop where
  L_float : rnd L = L
  v_float : rnd v = v
  L_ge : 1 / 1024 ≤ L
  L_le : L ≤ 4096
  v_ge : 1 / 64 ≤ v
  v_le : v ≤ 4096
  a_ge : 1 ≤ a
  a_le : a ≤ 65536
  d_ge : 1 ≤ d
  d_le : d ≤ 65536
  j_ge : 1 ≤ j
  j_le : j ≤ 65536
  jerky_a : j * v ≤ 200 * a ^ 2
  jerky_d : j * v ≤ 200 * d ^ 2
  firm_a : a ^ 2 ≤ 16384 * j
  firm_d : d ^ 2 ≤ 16384 * j
  balanced : a ≤ 1000 * d ∧ d ≤ 1000 * a
  slow : j * L ^ 2 ≤ 2 ^ 26 * v ^ 3

namespace Moderate
variable {L v a d j : ℝ}

theorem L_pos (h : Moderate L v a d j) : 0 < L := lt_of_lt_of_le (by norm_num) h.L_ge
theorem v_pos (h : Moderate L v a d j) : 0 < v := lt_of_lt_of_le (by norm_num) h.v_ge
theorem a_pos (h : Moderate L v a d j) : 0 < a := lt_of_lt_of_le (by norm_num) h.a_ge
theorem d_pos (h : Moderate L v a d j) : 0 < d := lt_of_lt_of_le (by norm_num) h.d_ge
theorem j_pos (h : Moderate L v a d j) : 0 < j := lt_of_lt_of_le (by norm_num) h.j_ge

theorem product (h : Moderate L v a d j) : 1 / 512 ≤ 2 * L * a * d := by
  have h1 := h.L_ge
  have h2 : 2 * (1 / 1024) * 1 ≤ 2 * L * a := mul_le_mul (by linarith) h.a_ge (by norm_num) (by linarith)
  have h3 : 2 * (1 / 1024) * 1 * 1 ≤ 2 * L * a * d := mul_le_mul h2 h.d_ge (by norm_num) (by have := h.L_pos; have := h.a_pos; positivity)
  linarith

theorem quotient (h : Moderate L v a d j) : 1 / 1024 ≤ 2 * L * a * d / (a + d) := by
  have ha := h.a_ge
  have hd := h.d_ge
  have hL := h.L_ge
  rw [le_div_iff₀ (by linarith)]
  have h1 : (a + d) / 2 ≤ a * d := by nlinarith
  have h2 := mul_le_mul_of_nonneg_left h1 h.L_pos.le
  nlinarith

theorem Q_near (h : Moderate L v a d j) : Near 4 (rnd (rnd (rnd (2 * L) * a) * d)) (2 * L * a * d) := by
  have hL := h.L_pos
  have ha := h.a_pos
  have hd := h.d_pos
  have h1 := h.L_ge
  have h2 : 2 * (1 / 1024) * 1 ≤ 2 * L * a := mul_le_mul (by linarith) h.a_ge (by norm_num) (by linarith)
  have h3 := h.product
  have n1 := (Near.refl (2 * L)).round le_rfl (by norm_num) (by norm_num; linarith)
  have n2 := (n1.mul_right ha.le).round (by norm_num) (by norm_num) (by norm_num; linarith)
  have n3 := (n2.mul_right hd.le).round (by norm_num) (by norm_num) (by norm_num at *; linarith)
  exact n3.mono (by linarith) (by norm_num)

theorem sum_near (h : Moderate L v a d j) : Near (101 / 100) (rnd (a + d)) (a + d) :=
  ((Near.refl (a + d)).round le_rfl (by norm_num) (by have := h.a_ge; have := h.d_ge; norm_num; linarith)).mono
    (by linarith [h.a_pos, h.d_pos]) (by norm_num)

theorem tri_near (h : Moderate L v a d j) : Near (81 / 10) (tri32 L a d ^ 2) (2 * L * a * d / (a + d)) := by
  have hq := h.quotient
  have n1 := h.Q_near.div_round (by norm_num) (by norm_num) (by have := h.product; linarith) h.sum_near
    (by linarith [h.a_pos, h.d_pos])
  have n2 := n1.round (by norm_num) (by norm_num) (by norm_num at *; linarith)
  have n3 := n2.root (by norm_num) (by norm_num) (by norm_num at *; linarith)
  exact n3.mono (by linarith) (by norm_num)

theorem tri_ge (h : Moderate L v a d j) : 1 / 64 ≤ tri32 L a d := by
  have h1 := h.tri_near.half_le (by have := h.quotient; linarith) (by norm_num)
  have h2 := h.quotient
  have h0 : 0 ≤ tri32 L a d := rnd_nonneg (Real.sqrt_nonneg _)
  by_contra hc
  push Not at hc
  have := mul_lt_mul'' hc hc h0 h0
  nlinarith

theorem speed_float (h : Moderate L v a d j) : rnd (speed32 L v a d) = speed32 L v a d := by
  unfold speed32
  split_ifs
  · exact rnd_rnd _
  · exact h.v_float

theorem speed_ge (h : Moderate L v a d j) : 1 / 64 ≤ speed32 L v a d := by
  unfold speed32
  split_ifs
  · exact h.tri_ge
  · exact h.v_ge

theorem speed_le (L v a d : ℝ) : speed32 L v a d ≤ v ∧ speed32 L v a d ≤ tri32 L a d := by
  unfold speed32
  split_ifs with c
  · exact ⟨c.le, le_rfl⟩
  · exact ⟨le_rfl, not_lt.1 c⟩

theorem sizes_a (h : Moderate L v a d j) : Sizes (speed32 L v a d) a j := by
  have h1 := h.speed_ge
  have h2 := (speed_le L v a d).1
  refine ⟨h.speed_float, by linarith, by linarith [h.v_le], by linarith [h.a_ge], h.a_le, by linarith [h.j_ge], h.j_le, ?_⟩
  exact (mul_le_mul_of_nonneg_left h2 h.j_pos.le).trans h.jerky_a

theorem sizes_d (h : Moderate L v a d j) : Sizes (speed32 L v a d) d j := by
  have h1 := h.speed_ge
  have h2 := (speed_le L v a d).1
  refine ⟨h.speed_float, by linarith, by linarith [h.v_le], by linarith [h.d_ge], h.d_le, by linarith [h.j_ge], h.j_le, ?_⟩
  exact (mul_le_mul_of_nonneg_left h2 h.j_pos.le).trans h.jerky_d

/-- Length of a phase without jerk. -/
theorem first_len {V a j : ℝ} (hs : Sizes V a j) :
    Near (31 / 10) (up V a j .firstOrder).len (V ^ 2 / a / 2) ∧ Near (31 / 10) (down V a j .firstOrder).len (V ^ 2 / a / 2) := by
  have hV := hs.V_pos
  have ha := hs.a_pos
  obtain ⟨r1, r2⟩ := ratio_range hs.V_ge hs.V_le hs.a_ge hs.a_le
  have hVa : 1 / 65536 * (1 / 4294967296) ≤ V * (V / a) := mul_le_mul hs.V_ge r1 (by norm_num) hV.le
  have n1 := (Near.refl (V / a)).round le_rfl (by norm_num) (by norm_num at r1 ⊢; linarith)
  have n2 := (n1.mul_right hV.le).round (by norm_num) (by norm_num) (by norm_num at hVa ⊢; linarith)
  have n3 := (n2.mul_right (c := 1 / 2) (by norm_num)).round (by norm_num) (by norm_num) (by norm_num at hVa ⊢; linarith)
  have e : V / a * V * (1 / 2) = V ^ 2 / a / 2 := by ring
  rw [e] at n3
  have n4 := n3.mono (l := 31 / 10) (by positivity) (by norm_num)
  have d1 : (up V a j .firstOrder).dur = rnd (V / a) := by
    simp only [dur, up, parts]; rw [zero_add, add_zero, rnd_rnd, rnd_rnd]
  have d2 : (down V a j .firstOrder).dur = rnd (V / a) := by
    simp only [dur, down, parts]; rw [zero_add, add_zero, rnd_rnd, rnd_rnd]
  constructor
  · rw [len, d1]; simp only [up, zero_add]; rw [hs.V_float, mul_comm V]; exact n4
  · rw [len, d2]; simp only [down, add_zero]; rw [hs.V_float, mul_comm V]; exact n4

/-- The length of both ramps without jerk. -/
theorem ramps_near (h : Moderate L v a d j) {V : ℝ} (ha : Sizes V a j) (hd : Sizes V d j) :
    Near (42 / 10) (ramps32 V a d j .firstOrder) (V ^ 2 * (a + d) / (2 * a * d)) := by
  have n1 := (first_len ha).1
  have n2 := (first_len hd).2
  have a0 := h.a_pos
  have d0 := h.d_pos
  have e : V ^ 2 / a / 2 + V ^ 2 / d / 2 = V ^ 2 * (a + d) / (2 * a * d) := by field_simp; ring
  have n3 : Near (31 / 10) ((up V a j .firstOrder).len + (down V d j .firstOrder).len) (V ^ 2 * (a + d) / (2 * a * d)) := by
    rw [← e]
    exact ⟨by linarith [n1.ge, n2.ge], by linarith [n1.le, n2.le]⟩
  have hV := ha.V_pos
  obtain ⟨r1, r2⟩ := ratio_range ha.V_ge ha.V_le ha.a_ge ha.a_le
  have hVa : 1 / 65536 * (1 / 4294967296) ≤ V * (V / a) := mul_le_mul ha.V_ge r1 (by norm_num) hV.le
  have hge : 1 / 2 ^ 90 ≤ V ^ 2 * (a + d) / (2 * a * d) := by
    rw [← e]
    have : 0 ≤ V ^ 2 / d / 2 := by positivity
    have : V ^ 2 / a / 2 = V * (V / a) / 2 := by ring
    norm_num at hVa ⊢
    linarith
  exact (n3.round (by norm_num) (by norm_num) hge).mono (le_trans (by norm_num) hge) (by norm_num)

end Moderate
end Moovr
