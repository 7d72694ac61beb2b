import Verif.Lemmas.Ramp32
/-!
# The phases planned in single precision

`plan` computes the durations of the parts of a phase between rest and the speed `V` with acceleration limit `a` and jerk `j`,
as `AccDec.calculate` does; they satisfy `Ramp.Ok`.
-/
namespace Moovr
open Num Float32 Single

namespace Ramp

/-- Acceleration, duration of the first and third part, duration of the second part. -/
structure Parts where
  A : ℝ
  D : ℝ
  d2 : ℝ

open Classical in
/-- The parts computed. -/
noncomputable def parts (V a j : ℝ) : Order → Parts
  | .firstOrder => ⟨a, 0, rnd (V / a)⟩
  | .secondOrder =>
    if V < rnd (rnd (j * rnd (a / j)) * rnd (a / j)) then
      ⟨rnd (j * rnd (√(rnd (V / j)))), rnd (√(rnd (V / j))), 0⟩
    else ⟨a, rnd (a / j), rnd (rnd (V - rnd (rnd (j * rnd (a / j)) * rnd (a / j))) / a)⟩

/-- Speeding up from rest. -/
noncomputable def up (V a j : ℝ) (o : Order) : Ramp := ⟨0, V, j, (parts V a j o).A, (parts V a j o).D, (parts V a j o).d2⟩
/-- Slowing down to rest. -/
noncomputable def down (V a j : ℝ) (o : Order) : Ramp := ⟨V, 0, -j, -(parts V a j o).A, (parts V a j o).D, (parts V a j o).d2⟩

/-- Reasonable sizes of the numbers. -/
structure Sizes (V a j : ℝ) : Prop where
  V_float : rnd V = V
  V_ge : 1 / 65536 ≤ V
  V_le : V ≤ 65536
  a_ge : 1 / 65536 ≤ a
  a_le : a ≤ 65536
  j_ge : 1 / 65536 ≤ j
  j_le : j ≤ 65536
  jerky : j * V ≤ 200 * a ^ 2

/-- What the parts satisfy. -/
structure Fit (V j : ℝ) (p : Parts) (T : ℝ) : Prop where
  A_nonneg : 0 ≤ p.A
  D_nonneg : 0 ≤ p.D
  D_float : rnd p.D = p.D
  d2_nonneg : 0 ≤ p.d2
  total : 2 * p.D + p.d2 ≤ T
  close : |j * p.D ^ 2 + p.A * p.d2 - V| ≤ 8 * eps * V
  jerkD : j * p.D * T ≤ 5 * V
  jerkT : j * T ^ 2 ≤ 1024 * V
  acc : p.A * T ≤ 5 * V
  T_ge : 2 ^ (-40 : ℤ) ≤ T
  T_le : T ≤ 2 ^ (40 : ℤ)
  low : 2 / 5 * T ≤ 2 * p.D + p.d2

variable {V a j T : ℝ} {o : Order}

theorem tiny_small : tiny ≤ eps * eps * 2 ^ (-90 : ℤ) := by
  unfold tiny eps
  norm_num [zpow_neg]

/-- The relative error of a rounding. -/
theorem rnd_rel {x : ℝ} (h : 2 ^ (-126 : ℤ) ≤ x) : |rnd x - x| ≤ eps * x := by
  have h0 : 0 < x := (two_zpow_pos _).trans_le h
  have := rnd_relative (x := x) (by rwa [abs_of_pos h0])
  rw [abs_of_pos h0, eps_eq] at this
  linarith

theorem pow126 : (2 : ℝ) ^ (-126 : ℤ) ≤ 1 / 2 ^ 100 := by norm_num [zpow_neg]

theorem Sizes.V_pos (hs : Sizes V a j) : 0 < V := lt_of_lt_of_le (by norm_num) hs.V_ge
theorem Sizes.a_pos (hs : Sizes V a j) : 0 < a := lt_of_lt_of_le (by norm_num) hs.a_ge
theorem Sizes.j_pos (hs : Sizes V a j) : 0 < j := lt_of_lt_of_le (by norm_num) hs.j_ge

theorem Fit.tinies (h : Fit V j (parts V a j o) T) (hs : Sizes V a j) :
    tiny ≤ eps * eps * T ∧ tiny * (T ^ 2 + T + 2) ≤ eps * eps * (V * T) := by
  have hT : 0 < T := (two_zpow_pos _).trans_le h.T_ge
  have t1 := h.T_ge
  have t2 := h.T_le
  have t3 := hs.V_ge
  have hn := tiny_small
  have hn0 := tiny_pos
  norm_num [zpow_neg] at t1 t2 hn
  have he : 0 < eps * eps := by unfold eps; norm_num
  constructor
  · exact hn.trans (mul_le_mul_of_nonneg_left (by linarith) he.le)
  · have n1 : tiny * T ^ 2 ≤ eps * eps * (V * T) / 4 := by
      have : tiny * T ≤ eps * eps * (1 / 262144) := by
        have := mul_le_mul hn t2 hT.le (by positivity)
        refine this.trans ?_
        rw [mul_assoc]
        exact mul_le_mul_of_nonneg_left (by norm_num) he.le
      have h2 : eps * eps * (1 / 262144) ≤ eps * eps * (V / 4) := mul_le_mul_of_nonneg_left (by linarith) he.le
      have := mul_le_mul_of_nonneg_right (this.trans h2) hT.le
      linarith
    have n2 : tiny * T ≤ eps * eps * (V * T) / 4 := by
      have h2 : tiny ≤ eps * eps * (V / 4) := hn.trans (mul_le_mul_of_nonneg_left (by linarith) he.le)
      have := mul_le_mul_of_nonneg_right h2 hT.le
      linarith
    have n3 : tiny ≤ eps * eps * (V * T) / 4 := by
      have h1 : 1 / 65536 * (1 / 1099511627776) ≤ V * T := mul_le_mul t3 (by linarith) (by norm_num) (by linarith)
      have h2 : tiny ≤ eps * eps * (V * T / 4) := hn.trans (mul_le_mul_of_nonneg_left (by linarith) he.le)
      linarith
    linarith

theorem Fit.ok_up (h : Fit V j (parts V a j o) T) (hs : Sizes V a j) : (up V a j o).Ok V T where
  V_pos := hs.V_pos
  T_pos := (two_zpow_pos _).trans_le h.T_ge
  v0_nonneg := le_rfl
  v0_le := hs.V_pos.le
  v1_nonneg := hs.V_pos.le
  v1_le := le_rfl
  D_nonneg := h.D_nonneg
  D_float := h.D_float
  d2_nonneg := h.d2_nonneg
  total := h.total
  close := by have := h.close; simpa [up] using this
  sign := .inl ⟨hs.V_pos.le, hs.j_pos.le, h.A_nonneg⟩
  jerkD := by have := h.jerkD; simpa [up, abs_of_pos hs.j_pos] using this
  jerkT := by have := h.jerkT; simpa [up, abs_of_pos hs.j_pos] using this
  acc := by have := h.acc; simpa [up, abs_of_nonneg h.A_nonneg] using this
  tinyT := (h.tinies hs).1
  tinyW := (h.tinies hs).2

theorem Fit.ok_down (h : Fit V j (parts V a j o) T) (hs : Sizes V a j) : (down V a j o).Ok V T where
  V_pos := hs.V_pos
  T_pos := (two_zpow_pos _).trans_le h.T_ge
  v0_nonneg := hs.V_pos.le
  v0_le := le_rfl
  v1_nonneg := le_rfl
  v1_le := hs.V_pos.le
  D_nonneg := h.D_nonneg
  D_float := h.D_float
  d2_nonneg := h.d2_nonneg
  total := h.total
  close := by
    have := h.close
    rw [← abs_neg] at this
    simp only [down]
    rw [show -j * (parts V a j o).D ^ 2 + -(parts V a j o).A * (parts V a j o).d2 - (0 - V) =
      -(j * (parts V a j o).D ^ 2 + (parts V a j o).A * (parts V a j o).d2 - V) by ring]
    exact this
  sign := .inr ⟨hs.V_pos.le, by simpa [down] using hs.j_pos.le, by simpa [down] using h.A_nonneg⟩
  jerkD := by have := h.jerkD; simpa [down, abs_of_pos hs.j_pos] using this
  jerkT := by have := h.jerkT; simpa [down, abs_of_pos hs.j_pos] using this
  acc := by have := h.acc; simpa [down, abs_of_nonneg h.A_nonneg] using this
  tinyT := (h.tinies hs).1
  tinyW := (h.tinies hs).2

theorem ratio_range {x y : ℝ} (hx : 1 / 65536 ≤ x) (hx' : x ≤ 65536) (hy : 1 / 65536 ≤ y) (hy' : y ≤ 65536) :
    1 / 4294967296 ≤ x / y ∧ x / y ≤ 4294967296 := by
  have : 0 < y := by linarith
  rw [le_div_iff₀ this, div_le_iff₀ this]
  constructor <;> linarith

theorem rel126 {x : ℝ} (h : 1 / 2 ^ 100 ≤ x) : |rnd x - x| ≤ eps * x := rnd_rel (pow126.trans h)

theorem fit_first (hs : Sizes V a j) : Fit V j (parts V a j .firstOrder) (205 / 100 * (V / a)) := by
  have hV := hs.V_pos
  have ha := hs.a_pos
  have hj := hs.j_pos
  obtain ⟨r1, r2⟩ := ratio_range hs.V_ge hs.V_le hs.a_ge hs.a_le
  have hr := abs_le.1 (rel126 (x := V / a) (by norm_num at r1 ⊢; linarith))
  have hu : a * (V / a) = V := by field_simp
  have h0 : 0 < V / a := by positivity
  have hq : j * (V / a) ^ 2 ≤ 200 * V := by
    have := hs.jerky
    rw [div_pow, ← mul_div_assoc, div_le_iff₀ (by positivity)]
    nlinarith
  refine ⟨ha.le, le_rfl, rnd_zero, rnd_nonneg h0.le, ?_, ?_, ?_, ?_, ?_, ?_, ?_, ?_⟩ <;> try simp only [parts]
  · unfold eps at hr; linarith
  · have e : a * rnd (V / a) - V = a * (rnd (V / a) - V / a) := by rw [mul_sub, hu]
    have : j * (0 : ℝ) ^ 2 + a * rnd (V / a) - V = a * (rnd (V / a) - V / a) := by rw [← e]; ring
    rw [this, abs_mul, abs_of_pos ha]
    have h2 := mul_le_mul_of_nonneg_left (rel126 (x := V / a) (by norm_num at r1 ⊢; linarith)) ha.le
    have : 0 ≤ eps * V := mul_nonneg eps_pos.le hV.le
    have e2 : a * (eps * (V / a)) = eps * V := by rw [← hu]; field_simp
    linarith
  · linarith
  · nlinarith
  · nlinarith
  · norm_num [zpow_neg]; linarith
  · norm_num; linarith
  · unfold eps at hr; linarith

theorem fit_short (hs : Sizes V a j) (h : V < rnd (rnd (j * rnd (a / j)) * rnd (a / j))) :
    Fit V j (parts V a j .secondOrder) (205 / 100 * √(V / j)) := by
  have hV := hs.V_pos
  have ha := hs.a_pos
  have hj := hs.j_pos
  obtain ⟨r1, r2⟩ := ratio_range hs.V_ge hs.V_le hs.j_ge hs.j_le
  have hw0 : 0 < V / j := by positivity
  have hjw : j * (V / j) = V := by field_simp
  have hr := abs_le.1 (rel126 (x := V / j) (by norm_num at r1 ⊢; linarith))
  have hs0 := Real.sq_sqrt hw0.le
  have hsp := Real.sqrt_pos.2 hw0
  have s1 : 1 / 65536 ≤ √(V / j) := Real.le_sqrt_of_sq_le (by norm_num; linarith)
  have s2 : √(V / j) ≤ 65536 := Real.sqrt_le_iff.2 ⟨by norm_num, by norm_num; linarith⟩
  have w1p : 1 / 2 ^ 90 ≤ rnd (V / j) := by unfold eps at hr; norm_num at *; linarith
  have w1p0 : 0 < rnd (V / j) := lt_of_lt_of_le (by norm_num) w1p
  have y1 : 1 / 2 ^ 45 ≤ √(rnd (V / j)) := Real.le_sqrt_of_sq_le (by norm_num at w1p ⊢; linarith)
  have y0 : 0 < √(rnd (V / j)) := Real.sqrt_pos.2 w1p0
  have ysq := Real.sq_sqrt w1p0.le
  have hD := abs_le.1 (rel126 (x := √(rnd (V / j))) (by norm_num at y1 ⊢; linarith))
  simp only [parts, if_pos h]
  generalize √(rnd (V / j)) = y at *
  generalize √(V / j) = s at *
  have D0 : 0 ≤ rnd y := rnd_nonneg y0.le
  have Df : rnd (rnd y) = rnd y := rnd_rnd y
  generalize rnd y = D at *
  generalize rnd (V / j) = w at *
  generalize V / j = u at *
  -- square of the duration
  have q1 : D ^ 2 ≤ w + 21 / 10 * eps * w := by
    have : D ≤ y + eps * y := by linarith
    have h2 := mul_le_mul this this D0 (by have := eps_pos; positivity)
    rw [← ysq]
    unfold eps at *
    nlinarith
  have q2 : w - 2 * eps * w ≤ D ^ 2 := by
    have : y - eps * y ≤ D := by linarith
    have h2 := mul_le_mul this this (by unfold eps; linarith) D0
    rw [← ysq]
    unfold eps at *
    nlinarith
  have Ds : D ≤ 101 / 100 * s := by
    refine abs_le_of_sq_le_sq' ?_ (by positivity) |>.2
    unfold eps at *
    nlinarith
  have A1 : rnd (j * D) ≤ 101 / 100 * (j * D) := by
    have := (abs_le.1 (rnd_err (j * D))).2
    rw [abs_of_nonneg (by positivity)] at this
    have hn := tiny_small
    have : 1 / 65536 * (1 / 2 ^ 46) ≤ j * D := mul_le_mul hs.j_ge (by unfold eps at *; norm_num at *; linarith) (by norm_num) hj.le
    unfold eps at *
    norm_num [zpow_neg] at *
    linarith
  refine ⟨rnd_nonneg (by positivity), D0, Df, le_rfl, ?_, ?_, ?_, ?_, ?_, ?_, ?_, ?_⟩
  · simp only; linarith
  · simp only [mul_zero, add_zero]
    have b1 := mul_le_mul_of_nonneg_left q1 hj.le
    have b2 := mul_le_mul_of_nonneg_left q2 hj.le
    have b3 := mul_le_mul_of_nonneg_left hr.1 hj.le
    have b4 := mul_le_mul_of_nonneg_left hr.2 hj.le
    rw [abs_le]
    unfold eps at *
    constructor <;> nlinarith
  · simp only
    have := mul_le_mul_of_nonneg_left Ds hj.le
    nlinarith
  · nlinarith
  · simp only
    have h3 := mul_le_mul_of_nonneg_left Ds hj.le
    have h4 : rnd (j * D) ≤ 103 / 100 * (j * s) := by nlinarith
    nlinarith
  · norm_num [zpow_neg]; linarith
  · norm_num; linarith
  · simp only
    have : s ≤ 101 / 100 * D := by
      refine abs_le_of_sq_le_sq' ?_ (by positivity) |>.2
      unfold eps at *
      nlinarith
    linarith

set_option maxHeartbeats 1000000 in
theorem fit_long (hs : Sizes V a j) (h : ¬ V < rnd (rnd (j * rnd (a / j)) * rnd (a / j))) :
    Fit V j (parts V a j .secondOrder) (205 / 100 * (V / a)) := by
  have hV := hs.V_pos
  have ha := hs.a_pos
  have hj := hs.j_pos
  have hep := eps_pos
  obtain ⟨r1, r2⟩ := ratio_range hs.V_ge hs.V_le hs.a_ge hs.a_le
  obtain ⟨r3, r4⟩ := ratio_range hs.a_ge hs.a_le hs.j_ge hs.j_le
  have hd := abs_le.1 (rel126 (x := a / j) (by norm_num at r3 ⊢; linarith))
  have hja : j * (a / j) = a := by field_simp
  have hu : a * (V / a) = V := by field_simp
  have h0 : 0 < V / a := by positivity
  have hq : j * (V / a) ^ 2 ≤ 200 * V := by
    have := hs.jerky
    rw [div_pow, ← mul_div_assoc, div_le_iff₀ (by positivity)]
    nlinarith
  simp only [parts, if_neg h]
  have df : rnd (rnd (a / j)) = rnd (a / j) := rnd_rnd _
  have d0 : 1 / 8589934592 ≤ rnd (a / j) := by unfold eps at *; linarith
  generalize rnd (a / j) = d at *
  generalize a / j = v at *
  have jd0 : 1 / 65536 * (1 / 8589934592) ≤ j * d := mul_le_mul hs.j_ge d0 (by norm_num) hj.le
  have hk := abs_le.1 (rel126 (x := j * d) (by norm_num at jd0 ⊢; linarith))
  have k0 : 1 / 65536 * (1 / 17179869184) ≤ rnd (j * d) := by unfold eps at *; linarith
  have ja : a ≤ (1 + 2 * eps) * (j * d) := by
    have := mul_le_mul_of_nonneg_left hd.1 hj.le
    unfold eps at *
    nlinarith
  have jb : j * d ≤ (1 + eps) * a := by
    have := mul_le_mul_of_nonneg_left hd.2 hj.le
    nlinarith
  generalize rnd (j * d) = k at *
  have kd0 : 1 / 65536 * (1 / 17179869184) * (1 / 8589934592) ≤ k * d := mul_le_mul k0 d0 (by norm_num) (by linarith)
  have hq2 := abs_le.1 (rel126 (x := k * d) (by norm_num at kd0 ⊢; linarith))
  have d00 : 0 < d := by linarith
  generalize rnd (k * d) = q at *
  have hqV : q ≤ V := not_lt.1 h
  -- the speed gained with jerk
  have e1 := mul_le_mul_of_nonneg_right hk.1 d00.le
  have e2 := mul_le_mul_of_nonneg_right hk.2 d00.le
  have qa : q - j * d ^ 2 ≤ 21 / 10 * eps * (j * d ^ 2) := by unfold eps at *; nlinarith
  have qb : -(21 / 10 * eps * (j * d ^ 2)) ≤ q - j * d ^ 2 := by unfold eps at *; nlinarith
  have jdd0 : 0 < j * d ^ 2 := by positivity
  have jV : j * d ^ 2 ≤ 1001 / 1000 * q := by unfold eps at *; linarith
  -- the rest
  have z0 : 0 ≤ V - q := by linarith
  have hz := abs_le.1 (rnd_err (V - q))
  rw [abs_of_nonneg z0] at hz
  have z1 : 0 ≤ rnd (V - q) := rnd_nonneg z0
  generalize rnd (V - q) = z at *
  have hz2 := abs_le.1 (rnd_err (z / a))
  rw [abs_of_nonneg (by positivity)] at hz2
  have d20 : 0 ≤ rnd (z / a) := rnd_nonneg (by positivity)
  have hza : a * (z / a) = z := by field_simp
  generalize rnd (z / a) = d2 at *
  generalize z / a = x at *
  have f1 := mul_le_mul_of_nonneg_left hz2.1 ha.le
  have f2 := mul_le_mul_of_nonneg_left hz2.2 ha.le
  have hn : tiny ≤ eps * eps * V / 131072 := by
    have h1 := tiny_small
    have h2 := hs.V_ge
    unfold eps at *
    norm_num [zpow_neg] at h1
    linarith
  have hna : tiny * a ≤ eps * eps * V := by
    have := mul_le_mul_of_nonneg_left hs.a_le tiny_pos.le
    unfold eps at *
    linarith
  have hn0 := tiny_pos
  have g1 : a * d2 - (V - q) ≤ 21 / 10 * eps * V := by unfold eps at *; nlinarith
  have g2 : -(21 / 10 * eps * V) ≤ a * d2 - (V - q) := by unfold eps at *; nlinarith
  refine ⟨ha.le, d00.le, df, d20, ?_, ?_, ?_, ?_, ?_, ?_, ?_, ?_⟩ <;> try simp only
  · rw [← mul_le_mul_iff_right₀ ha]
    have : a * d ≤ 1001 / 1000 * (j * d ^ 2) := by
      have := mul_le_mul_of_nonneg_right ja d00.le
      rw [show (1 + 2 * eps) * (j * d) * d = j * d ^ 2 + 2 * eps * (j * d ^ 2) by ring] at this
      unfold eps at this
      linarith
    have e : a * (205 / 100 * (V / a)) = 205 / 100 * V := by rw [← hu]; field_simp
    rw [e]
    unfold eps at *
    nlinarith
  · rw [abs_le]
    have := mul_le_mul_of_nonneg_left (jV.trans (mul_le_mul_of_nonneg_left hqV (by norm_num))) hep.le
    constructor <;> nlinarith
  · have h3 := mul_le_mul_of_nonneg_right jb h0.le
    unfold eps at *
    nlinarith
  · nlinarith
  · nlinarith
  · norm_num [zpow_neg]; linarith
  · norm_num; linarith
  · rw [← mul_le_mul_iff_right₀ ha]
    have e : a * (2 / 5 * (205 / 100 * (V / a))) = 82 / 100 * V := by rw [← hu]; field_simp; norm_num
    have := mul_le_mul_of_nonneg_right jb d00.le
    rw [show (1 + eps) * a * d = a * d + eps * (a * d) by ring] at this
    have had : 0 ≤ a * d := by positivity
    rw [e]
    unfold eps at *
    nlinarith

/-- A phase with constant acceleration is not short. -/
theorem long_sqrt (hs : Sizes V a j) (h : ¬ V < rnd (rnd (j * rnd (a / j)) * rnd (a / j))) :
    √(V / j) ≤ 1025 / 1000 * (V / a) := by
  have hV := hs.V_pos
  have ha := hs.a_pos
  have hj := hs.j_pos
  obtain ⟨r3, r4⟩ := ratio_range hs.a_ge hs.a_le hs.j_ge hs.j_le
  have hd := abs_le.1 (rel126 (x := a / j) (by norm_num at r3 ⊢; linarith))
  have hja : j * (a / j) = a := by field_simp
  have d0 : 1 / 8589934592 ≤ rnd (a / j) := by unfold eps at *; linarith
  generalize rnd (a / j) = d at *
  have jd0 : 1 / 65536 * (1 / 8589934592) ≤ j * d := mul_le_mul hs.j_ge d0 (by norm_num) hj.le
  have hk := abs_le.1 (rel126 (x := j * d) (by norm_num at jd0 ⊢; linarith))
  have k0 : 1 / 65536 * (1 / 17179869184) ≤ rnd (j * d) := by unfold eps at *; linarith
  generalize rnd (j * d) = k at *
  have kd0 : 1 / 65536 * (1 / 17179869184) * (1 / 8589934592) ≤ k * d := mul_le_mul k0 d0 (by norm_num) (by linarith)
  have hq2 := abs_le.1 (rel126 (x := k * d) (by norm_num at kd0 ⊢; linarith))
  generalize rnd (k * d) = q at *
  have hqV : q ≤ V := not_lt.1 h
  have x0 : 0 < a / j := by positivity
  have d1 : 999 / 1000 * (a / j) ≤ d := by unfold eps at *; linarith
  have k1 : 998 / 1000 * a ≤ k := by
    have := mul_le_mul_of_nonneg_left d1 hj.le
    unfold eps at *
    nlinarith
  have kd : 998 / 1000 * a * (999 / 1000 * (a / j)) ≤ k * d := mul_le_mul k1 d1 (by positivity) (by linarith)
  have hh : 99 / 100 * (a * (a / j)) ≤ V := by
    have : 0 < a * (a / j) := by positivity
    unfold eps at *
    linarith
  apply Real.sqrt_le_iff.2 ⟨by positivity, ?_⟩
  have e : V / j * (99 / 100) ≤ (V / a) ^ 2 := by
    rw [div_pow, le_div_iff₀ (by positivity)]
    have := mul_le_mul_of_nonneg_left hh hV.le
    calc V / j * (99 / 100) * a ^ 2 = V * (99 / 100 * (a * (a / j))) := by field_simp
      _ ≤ V * V := this
      _ = V ^ 2 := by ring
  rw [mul_pow]
  have : 0 ≤ V / j := by positivity
  norm_num
  linarith

/-- Bound on the duration of a phase. -/
noncomputable def scale (V a j : ℝ) : ℝ := 205 / 100 * max (V / a) (√(V / j))

theorem fits (hs : Sizes V a j) (o : Order) : ∃ T, T ≤ scale V a j ∧ Fit V j (parts V a j o) T ∧
    (o = .firstOrder → T = 205 / 100 * (V / a)) ∧ (o = .secondOrder → 2 * √(V / j) ≤ T) := by
  have hsq := Real.sqrt_nonneg (V / j)
  cases o with
  | firstOrder =>
    exact ⟨_, mul_le_mul_of_nonneg_left (le_max_left _ _) (by norm_num), fit_first hs, fun _ => rfl, by simp⟩
  | secondOrder =>
    by_cases h : V < rnd (rnd (j * rnd (a / j)) * rnd (a / j))
    · exact ⟨_, mul_le_mul_of_nonneg_left (le_max_right _ _) (by norm_num), fit_short hs h, by simp, fun _ => by linarith⟩
    · refine ⟨_, mul_le_mul_of_nonneg_left (le_max_left _ _) (by norm_num), fit_long hs h, by simp, fun _ => ?_⟩
      have := long_sqrt hs h
      linarith

end Ramp
end Moovr
