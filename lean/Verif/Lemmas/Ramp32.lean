import Mathlib.Tactic.LinearCombination
import Mathlib.Tactic.IntervalCases
import Verif.Lemmas.Single
/-!
# The phases of a speed profile in single precision

One form for all phases: `J` is the jerk and `A` the acceleration, both negative when slowing down; phases of first order
have `D = 0`. `Ramp.dist` is the distance as computed, `Ramp.ideal` the same polynomials without rounding.
-/
namespace Moovr
open Num Float32

/-- The relative error of one operation. -/
noncomputable def eps : ℝ := 1 / 16777216

/-- The absolute error of one operation near zero. -/
noncomputable def tiny : ℝ := 2 ^ (-150 : ℤ)

theorem eps_eq : (2 : ℝ) ^ (-24 : ℤ) = eps := by norm_num [eps, zpow_neg]
theorem eps_pos : 0 < eps := by norm_num [eps]
theorem tiny_pos : 0 < tiny := two_zpow_pos _

theorem rnd_err (x : ℝ) : |rnd x - x| ≤ eps * |x| + tiny := by
  have := rnd_error_add x
  rw [eps_eq] at this
  unfold tiny
  linarith

/-- Rounding of a number known up to an error. -/
theorem rnd_err_of {x y e B : ℝ} (h : |y - x| ≤ e) (hB : |x| ≤ B) : |rnd y - x| ≤ e + eps * (B + e) + tiny := by
  have h1 := rnd_err y
  have h2 : |y| ≤ B + e := by
    have := abs_add_le x (y - x)
    rw [add_sub_cancel] at this
    linarith
  have h3 := abs_add_le (rnd y - y) (y - x)
  rw [sub_add_sub_cancel] at h3
  have := mul_le_mul_of_nonneg_left h2 eps_pos.le
  linarith

/-- A rounded product of a number known up to an error and an exact one. -/
theorem rnd_mul_err {x y e B t T : ℝ} (h : |y - x| ≤ e) (hB : |x| ≤ B) (ht : |t| ≤ T) :
    |rnd (y * t) - x * t| ≤ e * T + eps * ((B + e) * T) + tiny := by
  have he : 0 ≤ e := (abs_nonneg _).trans h
  have hB0 : 0 ≤ B := (abs_nonneg _).trans hB
  have h1 : |y * t - x * t| ≤ e * T := by
    rw [← sub_mul, abs_mul]
    exact mul_le_mul h ht (abs_nonneg _) he
  have h2 : |x * t| ≤ B * T := by
    rw [abs_mul]
    exact mul_le_mul hB ht (abs_nonneg _) hB0
  have := rnd_err_of h1 h2
  linarith [mul_comm B T]

/-- A rounded product of two numbers known up to errors. -/
theorem rnd_mul_err₂ {x y e B t s f T : ℝ} (h : |y - x| ≤ e) (hB : |x| ≤ B) (hf : |s - t| ≤ f) (ht : |t| ≤ T) :
    |rnd (y * s) - x * t| ≤ e * (T + f) + B * f + eps * ((B + e) * (T + f)) + tiny := by
  have he : 0 ≤ e := (abs_nonneg _).trans h
  have hf0 : 0 ≤ f := (abs_nonneg _).trans hf
  have hB0 : 0 ≤ B := (abs_nonneg _).trans hB
  have hs : |s| ≤ T + f := by
    have := abs_add_le t (s - t)
    rw [add_sub_cancel] at this
    linarith
  have h1 := rnd_mul_err h hB hs
  have h2 : |x * s - x * t| ≤ B * f := by
    rw [← mul_sub, abs_mul]
    exact mul_le_mul hB hf (abs_nonneg _) hB0
  have h3 := abs_add_le (rnd (y * s) - x * s) (x * s - x * t)
  rw [sub_add_sub_cancel] at h3
  linarith

/-- A rounded sum. -/
theorem rnd_add_err {x x' e B y y' f C : ℝ} (h : |x' - x| ≤ e) (h' : |y' - y| ≤ f) (hB : |x| ≤ B) (hC : |y| ≤ C) :
    |rnd (x' + y') - (x + y)| ≤ e + f + eps * (B + C + (e + f)) + tiny := by
  have h1 : |x' + y' - (x + y)| ≤ e + f := by
    have := abs_add_le (x' - x) (y' - y)
    rw [show x' + y' - (x + y) = x' - x + (y' - y) by ring]
    linarith
  have h2 : |x + y| ≤ B + C := (abs_add_le _ _).trans (by linarith)
  exact rnd_err_of h1 h2

/-- A rounded sum whose exact value is known to be small. -/
theorem rnd_add_err' {x x' e y y' f C : ℝ} (h : |x' - x| ≤ e) (h' : |y' - y| ≤ f) (hC : |x + y| ≤ C) :
    |rnd (x' + y') - (x + y)| ≤ e + f + eps * (C + (e + f)) + tiny := by
  have h1 : |x' + y' - (x + y)| ≤ e + f := by
    have := abs_add_le (x' - x) (y' - y)
    rw [show x' + y' - (x + y) = x' - x + (y' - y) by ring]
    linarith
  exact rnd_err_of h1 hC

@[simp] theorem rnd_half : rnd ((1 : ℝ) / 2) = 1 / 2 := by
  have := rnd_pow (e := -1) (by norm_num)
  simpa [zpow_neg] using this

/-- `jMax * t * t * t * oneSixth` -/
noncomputable def cube32 (J t : ℝ) : ℝ := rnd (rnd (rnd (rnd (J * t) * t) * t) * rnd (1 / 6))

theorem rnd_sixth : |rnd ((1 : ℝ) / 6) - 1 / 6| ≤ eps / 6 := by
  have := rnd_relative (x := (1 : ℝ) / 6) (by rw [abs_of_pos (by norm_num), zpow_neg]; norm_num)
  rw [abs_of_pos (show (0 : ℝ) < 1 / 6 by norm_num), eps_eq] at this
  linarith

theorem cube32_err {J t T X : ℝ} (ht : |t| ≤ T) (hX : |J| * T ^ 2 ≤ X) :
    |cube32 J t - J * t ^ 3 / 6| ≤ 6 * eps * (X * T / 6) + 2 * tiny * (T ^ 2 + T + 2) := by
  have hT : 0 ≤ T := (abs_nonneg _).trans ht
  have hJ := abs_nonneg J
  have hn := tiny_pos
  have e1 : |rnd (J * t) - J * t| ≤ eps * (|J| * T) + tiny := by
    have := rnd_mul_err (x := J) (y := J) (e := 0) (by simp) le_rfl ht
    simpa using this
  have b1 : |J * t| ≤ |J| * T := by rw [abs_mul]; exact mul_le_mul_of_nonneg_left ht hJ
  have n1 : 0 ≤ tiny * T := by positivity
  have n2 : 0 ≤ tiny * T ^ 2 := by positivity
  have q2 : 0 ≤ |J| * T * T := by positivity
  have q3 : 0 ≤ |J| * T * T * T := by positivity
  have e2 : |rnd (rnd (J * t) * t) - J * t * t| ≤ 21 / 10 * eps * (|J| * T * T) + (11 / 10 * tiny * T + tiny) := by
    refine (rnd_mul_err e1 b1 ht).trans ?_
    unfold eps
    linarith
  have b2 : |J * t * t| ≤ |J| * T * T := by rw [abs_mul]; exact mul_le_mul b1 ht (abs_nonneg _) (by positivity)
  have e3 : |rnd (rnd (rnd (J * t) * t) * t) - J * t * t * t| ≤
      32 / 10 * eps * (|J| * T * T * T) + (12 / 10 * tiny * T ^ 2 + 11 / 10 * tiny * T + tiny) := by
    refine (rnd_mul_err e2 b2 ht).trans ?_
    unfold eps
    linarith
  have b3 : |J * t * t * t| ≤ |J| * T * T * T := by rw [abs_mul]; exact mul_le_mul b2 ht (abs_nonneg _) (by positivity)
  have e4 := rnd_mul_err₂ e3 b3 rnd_sixth (le_of_eq (abs_of_pos (show (0 : ℝ) < 1 / 6 by norm_num)))
  unfold cube32
  rw [show J * t ^ 3 / 6 = J * t * t * t * (1 / 6) by ring]
  refine e4.trans ?_
  have hXT : |J| * T * T * T ≤ X * T := by
    have := mul_le_mul_of_nonneg_right hX hT
    linarith [this]
  unfold eps
  linarith

/-- The inputs of a phase: speeds, jerk, acceleration, durations of the parts. -/
structure Ramp where
  v0 : ℝ
  v1 : ℝ
  J : ℝ
  A : ℝ
  D : ℝ
  d2 : ℝ

namespace Ramp

/-- End of the second part. -/
noncomputable def mark (r : Ramp) : ℝ := rnd (r.D + r.d2)
/-- Duration. -/
noncomputable def dur (r : Ramp) : ℝ := rnd (rnd (r.D + r.d2) + r.D)
/-- Distance of the first part. -/
noncomputable def s1 (r : Ramp) : ℝ := rnd (rnd (r.v0 * r.D) + cube32 r.J r.D)
/-- Change of speed in the first part. -/
noncomputable def dV1 (r : Ramp) : ℝ := rnd (rnd (rnd (r.J * r.D) * r.D) * (1 / 2))
/-- Length. -/
noncomputable def len (r : Ramp) : ℝ := rnd (rnd (rnd (r.v0 + r.v1) * r.dur) * (1 / 2))

/-- The distance in the three parts. -/
noncomputable def dist1 (r : Ramp) (t : ℝ) : ℝ := rnd (rnd (r.v0 * t) + cube32 r.J t)
@[inherit_doc dist1]
noncomputable def dist2 (r : Ramp) (t : ℝ) : ℝ :=
  rnd (rnd (r.s1 + rnd (rnd (r.v0 + r.dV1) * rnd (t - r.D))) +
    rnd (rnd (rnd (r.A * rnd (t - r.D)) * rnd (t - r.D)) * (1 / 2)))
@[inherit_doc dist1]
noncomputable def dist3 (r : Ramp) (t : ℝ) : ℝ :=
  rnd (r.len - rnd (rnd (r.v1 * rnd (r.dur - t)) - cube32 r.J (rnd (r.dur - t))))

open Classical in
/-- The distance after time `t`, as computed. -/
noncomputable def dist (r : Ramp) (t : ℝ) : ℝ :=
  if t < r.D then r.dist1 t else if r.mark < t then r.dist3 t else r.dist2 t

/-- The distance in the three parts without rounding. -/
noncomputable def ideal1 (r : Ramp) (t : ℝ) : ℝ := r.v0 * t + r.J * t ^ 3 / 6
@[inherit_doc ideal1]
noncomputable def ideal2 (r : Ramp) (t : ℝ) : ℝ :=
  r.v0 * r.D + r.J * r.D ^ 3 / 6 + (r.v0 + r.J * r.D ^ 2 / 2) * (t - r.D) + r.A * (t - r.D) ^ 2 / 2
@[inherit_doc ideal1]
noncomputable def ideal3 (r : Ramp) (t : ℝ) : ℝ :=
  (r.v0 + r.v1) * (2 * r.D + r.d2) / 2 - (r.v1 * (2 * r.D + r.d2 - t) - r.J * (2 * r.D + r.d2 - t) ^ 3 / 6)

/-- The inputs fit together, up to rounding. `V` bounds the speeds, `T` the duration. -/
structure Ok (r : Ramp) (V T : ℝ) : Prop where
  V_pos : 0 < V
  T_pos : 0 < T
  v0_nonneg : 0 ≤ r.v0
  v0_le : r.v0 ≤ V
  v1_nonneg : 0 ≤ r.v1
  v1_le : r.v1 ≤ V
  D_nonneg : 0 ≤ r.D
  D_float : rnd r.D = r.D
  d2_nonneg : 0 ≤ r.d2
  total : 2 * r.D + r.d2 ≤ T
  close : |r.J * r.D ^ 2 + r.A * r.d2 - (r.v1 - r.v0)| ≤ 8 * eps * V
  sign : (r.v0 ≤ r.v1 ∧ 0 ≤ r.J ∧ 0 ≤ r.A) ∨ (r.v1 ≤ r.v0 ∧ r.J ≤ 0 ∧ r.A ≤ 0)
  jerkD : |r.J| * r.D * T ≤ 5 * V
  jerkT : |r.J| * T ^ 2 ≤ 1024 * V
  acc : |r.A| * T ≤ 5 * V
  tinyT : tiny ≤ eps * eps * T
  tinyW : tiny * (T ^ 2 + T + 2) ≤ eps * eps * (V * T)

variable {r : Ramp} {V T : ℝ}

/-- The two changes of speed add up. -/
theorem Ok.sum (h : r.Ok V T) : |r.J| * r.D ^ 2 + |r.A| * r.d2 ≤ |r.v1 - r.v0| + 8 * eps * V := by
  have h1 := abs_le.1 h.close
  have := sq_nonneg r.D
  have := h.d2_nonneg
  rcases h.sign with ⟨h2, h3, h4⟩ | ⟨h2, h3, h4⟩
  · rw [abs_of_nonneg h3, abs_of_nonneg h4, abs_of_nonneg (by linarith)]
    linarith
  · rw [abs_of_nonpos h3, abs_of_nonpos h4, abs_of_nonpos (by linarith)]
    linarith

theorem Ok.diff_le (h : r.Ok V T) : |r.v1 - r.v0| ≤ V := by
  have := h.v0_nonneg; have := h.v0_le; have := h.v1_nonneg; have := h.v1_le
  rw [abs_le]; constructor <;> linarith

theorem Ok.jerk (h : r.Ok V T) : |r.J| * r.D ^ 2 ≤ V + 8 * eps * V := by
  have := h.sum; have := h.diff_le
  have : 0 ≤ |r.A| * r.d2 := mul_nonneg (abs_nonneg _) h.d2_nonneg
  linarith

theorem Ok.speed (h : r.Ok V T) : |r.A| * r.d2 ≤ V + 8 * eps * V := by
  have := h.sum; have := h.diff_le
  have : 0 ≤ |r.J| * r.D ^ 2 := by positivity
  linarith

/-- The bounds on tiny numbers. -/
theorem Ok.tinies (h : r.Ok V T) :
    tiny ≤ eps * eps * (V * T) / 2 ∧ tiny * T ≤ eps * eps * (V * T) ∧ tiny * T ^ 2 ≤ eps * eps * (V * T) := by
  have := h.tinyW
  have := tiny_pos
  have := h.T_pos
  have h1 : 0 ≤ tiny * T := by positivity
  have h2 : 0 ≤ tiny * T ^ 2 := by positivity
  refine ⟨?_, ?_, ?_⟩ <;> linarith

theorem Ok.D_le (h : r.Ok V T) : r.D ≤ T / 2 := by
  have := h.total; have := h.d2_nonneg; linarith

/-- The speed at the end of the first part. -/
theorem Ok.knee (h : r.Ok V T) :
    0 - 4 * eps * V ≤ r.v0 + r.J * r.D ^ 2 / 2 ∧ r.v0 + r.J * r.D ^ 2 / 2 ≤ V + 4 * eps * V := by
  have h1 := h.sum
  have h2 : 0 ≤ |r.A| * r.d2 := mul_nonneg (abs_nonneg _) h.d2_nonneg
  have := h.v0_nonneg; have := h.v0_le; have := h.v1_nonneg; have := h.v1_le
  have := sq_nonneg r.D
  have he := eps_pos
  have hV := h.V_pos
  have : 0 ≤ eps * V := by positivity
  rcases h.sign with ⟨h3, h4, h5⟩ | ⟨h3, h4, h5⟩
  · rw [abs_of_nonneg h4, abs_of_nonneg (show 0 ≤ r.v1 - r.v0 by linarith)] at h1
    have : 0 ≤ r.J * r.D ^ 2 := by positivity
    constructor <;> linarith
  · rw [abs_of_nonpos h4, abs_of_nonpos (show r.v1 - r.v0 ≤ 0 by linarith)] at h1
    have : r.J * r.D ^ 2 ≤ 0 := mul_nonpos_of_nonpos_of_nonneg h4 (by positivity)
    constructor <;> linarith

theorem abs_mul_le {x y X Y : ℝ} (hx : |x| ≤ X) (hy : |y| ≤ Y) : |x * y| ≤ X * Y := by
  rw [abs_mul]
  exact mul_le_mul hx hy (abs_nonneg _) ((abs_nonneg _).trans hx)

theorem Ok.dist1_err (h : r.Ok V T) {t : ℝ} (h0 : 0 ≤ t) (h1 : t ≤ r.D) : |r.dist1 t - r.ideal1 t| ≤ 4 * eps * (V * T) := by
  have hD := h.D_le
  have hT := h.T_pos
  have hV := h.V_pos
  have he := eps_pos
  have hW : 0 ≤ V * T := by positivity
  obtain ⟨n0, n1, n2⟩ := h.tinies
  have hD0 := h.D_nonneg
  have hv : |r.v0| ≤ V := by rw [abs_of_nonneg h.v0_nonneg]; exact h.v0_le
  have a1 := rnd_mul_err (x := r.v0) (y := r.v0) (e := 0) (by simp) hv (show |t| ≤ T / 2 by rw [abs_of_nonneg h0]; linarith)
  have a2 := cube32_err (J := r.J) (t := t) (T := r.D) (X := V + 8 * eps * V) (by rwa [abs_of_nonneg h0]) h.jerk
  have hVD : V * r.D ≤ V * T / 2 := by nlinarith
  have hVD0 : 0 ≤ V * r.D := by positivity
  have hnD : tiny * r.D ≤ tiny * T := mul_le_mul_of_nonneg_left (by linarith) tiny_pos.le
  have hnD2 : tiny * r.D ^ 2 ≤ tiny * T ^ 2 := mul_le_mul_of_nonneg_left (by nlinarith) tiny_pos.le
  have c : |r.v0 * t + r.J * t ^ 3 / 6| ≤ V * T := by
    have c1 : |r.v0 * t| ≤ V * (T / 2) := abs_mul_le hv (by rw [abs_of_nonneg h0]; linarith)
    have c2 : |r.J * t ^ 3 / 6| ≤ (V + 8 * eps * V) * r.D / 6 := by
      rw [show r.J * t ^ 3 / 6 = (r.J * t ^ 2) * (t / 6) by ring]
      have c3 : |r.J * t ^ 2| ≤ V + 8 * eps * V := by
        rw [abs_mul, abs_of_nonneg (sq_nonneg t)]
        exact le_trans (mul_le_mul_of_nonneg_left (by nlinarith) (abs_nonneg _)) h.jerk
      refine (abs_mul_le c3 (show |t / 6| ≤ r.D / 6 by rw [abs_of_nonneg (by positivity)]; linarith)).trans (le_of_eq (by ring))
    refine (abs_add_le _ _).trans ((add_le_add c1 c2).trans ?_)
    unfold eps at *
    nlinarith
  refine (rnd_add_err' a1 a2 c).trans ?_
  unfold eps at *
  linarith

theorem Ok.mark_err (h : r.Ok V T) : |r.mark - (r.D + r.d2)| ≤ 101 / 100 * eps * T := by
  have hD := h.D_nonneg
  have hd := h.d2_nonneg
  have := rnd_err (r.D + r.d2)
  rw [abs_of_nonneg (show 0 ≤ r.D + r.d2 by linarith)] at this
  unfold mark
  refine this.trans ?_
  have := h.total
  have := h.tinyT
  have := h.T_pos
  unfold eps at *
  linarith

theorem Ok.dV1_err (h : r.Ok V T) : |r.dV1 - r.J * r.D ^ 2 / 2| ≤ 17 / 10 * eps * V + (11 / 10 * tiny * T + 2 * tiny) := by
  have hD0 := h.D_nonneg
  have hD := h.D_le
  have hj := h.jerk
  have ht : |r.D| ≤ r.D := le_of_eq (abs_of_nonneg hD0)
  have e1 := rnd_mul_err (x := r.J) (y := r.J) (e := 0) (by simp) le_rfl ht
  have b1 : |r.J * r.D| ≤ |r.J| * r.D := abs_mul_le le_rfl ht
  have e2 := rnd_mul_err e1 b1 ht
  have b2 : |r.J * r.D * r.D| ≤ |r.J| * r.D * r.D := abs_mul_le b1 ht
  have e3 := rnd_mul_err e2 b2 (t := 1 / 2) (T := 1 / 2) (by rw [abs_of_pos]; norm_num)
  unfold dV1
  rw [show r.J * r.D ^ 2 / 2 = r.J * r.D * r.D * (1 / 2) by ring]
  refine e3.trans ?_
  have hnD : tiny * r.D ≤ tiny * T := mul_le_mul_of_nonneg_left (by linarith [h.T_pos]) tiny_pos.le
  have hnD0 : 0 ≤ tiny * r.D := mul_nonneg tiny_pos.le hD0
  have := tiny_pos
  have hV := h.V_pos
  have hj0 : 0 ≤ |r.J| * r.D ^ 2 := by positivity
  unfold eps at *
  linarith

theorem Ok.dist2_err (h : r.Ok V T) {t : ℝ} (h0 : r.D ≤ t) (h1 : t ≤ r.mark) : |r.dist2 t - r.ideal2 t| ≤ 18 * eps * (V * T) := by
  have hD := h.D_le
  have hD0 := h.D_nonneg
  have hd0 := h.d2_nonneg
  have hT := h.T_pos
  have hV := h.V_pos
  have he := eps_pos
  have htot := h.total
  have hW : 0 ≤ V * T := by positivity
  obtain ⟨n0, n1, n2⟩ := h.tinies
  have hn := tiny_pos
  have hnT : 0 ≤ tiny * T := by positivity
  have hm := (abs_le.1 h.mark_err).2
  obtain ⟨k1, k2⟩ := h.knee
  have hv0 := h.v0_nonneg
  have htT := h.tinyT
  -- the time in this part
  have x0 : 0 ≤ t - r.D := by linarith
  have xb : |t - r.D| ≤ r.d2 + 101 / 100 * eps * T := by rw [abs_of_nonneg x0]; linarith
  have xT : |t - r.D| ≤ 101 / 100 * T := by
    refine xb.trans ?_
    unfold eps; linarith
  have xe : |rnd (t - r.D) - (t - r.D)| ≤ 102 / 100 * eps * T := by
    have := rnd_err (t - r.D)
    have h2 := mul_le_mul_of_nonneg_left xT he.le
    refine this.trans ?_
    unfold eps at *
    linarith
  generalize hx : rnd (t - r.D) = x at *
  -- the speed at the start of the part
  have kb : |r.v0 + r.J * r.D ^ 2 / 2| ≤ V + 4 * eps * V := by rw [abs_le]; constructor <;> linarith
  have ke := rnd_add_err' (x := r.v0) (x' := r.v0) (e := 0) (by simp) h.dV1_err kb
  have ke' : |rnd (r.v0 + r.dV1) - (r.v0 + r.J * r.D ^ 2 / 2)| ≤ 28 / 10 * eps * V + (12 / 10 * tiny * T + 4 * tiny) := by
    refine ke.trans ?_
    unfold eps; linarith
  have p1 := rnd_mul_err₂ ke' kb xe xT
  -- the quadratic term
  have ab : |r.A| * (r.d2 + 101 / 100 * eps * T) ≤ 101 / 100 * V := by
    have := h.speed; have := h.acc
    unfold eps at *
    nlinarith [abs_nonneg r.A]
  have ax : |r.A * (t - r.D)| ≤ 101 / 100 * V := (abs_mul_le le_rfl xb).trans ab
  have q1 : |rnd (r.A * x) - r.A * (t - r.D)| ≤ 63 / 10 * eps * V + tiny := by
    have h2 : |r.A * x - r.A * (t - r.D)| ≤ 51 / 10 * eps * V := by
      rw [← mul_sub]
      refine (abs_mul_le le_rfl xe).trans ?_
      have := mul_le_mul_of_nonneg_left h.acc he.le
      linarith
    refine (rnd_err_of h2 ax).trans ?_
    unfold eps; linarith
  have q2 := rnd_mul_err₂ q1 ax xe xT
  have qb : |r.A * (t - r.D) * (t - r.D)| ≤ 103 / 100 * (V * T) := (abs_mul_le ax xT).trans (by linarith)
  have q3 := rnd_mul_err q2 qb (t := 1 / 2) (T := 1 / 2) (by rw [abs_of_pos]; norm_num)
  -- the sum
  have s1e : |r.s1 - (r.v0 * r.D + r.J * r.D ^ 3 / 6)| ≤ 4 * eps * (V * T) := h.dist1_err hD0 le_rfl
  have hv : |r.v0| ≤ V := by rw [abs_of_nonneg hv0]; exact h.v0_le
  have sb : |r.v0 * r.D + r.J * r.D ^ 3 / 6| ≤ 7 / 10 * (V * T) := by
    have c1 : |r.v0 * r.D| ≤ V * (T / 2) := abs_mul_le hv (by rw [abs_of_nonneg hD0]; exact hD)
    have c2 : |r.J * r.D ^ 3 / 6| ≤ (V + 8 * eps * V) * (T / 12) := by
      rw [show r.J * r.D ^ 3 / 6 = (r.J * r.D ^ 2) * (r.D / 6) by ring]
      refine abs_mul_le ?_ (by rw [abs_of_nonneg (by positivity)]; linarith)
      rw [abs_mul, abs_of_nonneg (sq_nonneg r.D)]
      exact h.jerk
    refine (abs_add_le _ _).trans ((add_le_add c1 c2).trans ?_)
    unfold eps
    linarith
  have pb : |(r.v0 + r.J * r.D ^ 2 / 2) * (t - r.D)| ≤ 102 / 100 * (V * T) := by
    refine (abs_mul_le kb xT).trans ?_
    unfold eps; linarith
  have m1 := rnd_add_err s1e p1 sb pb
  have mb : |r.v0 * r.D + r.J * r.D ^ 3 / 6 + (r.v0 + r.J * r.D ^ 2 / 2) * (t - r.D)| ≤ 172 / 100 * (V * T) :=
    (abs_add_le _ _).trans (by linarith)
  have qb' : |r.A * (t - r.D) * (t - r.D) * (1 / 2)| ≤ 52 / 100 * (V * T) := by
    refine (abs_mul_le qb (Y := 1 / 2) (by rw [abs_of_pos]; norm_num)).trans ?_
    linarith
  have m2 := rnd_add_err m1 q3 mb qb'
  unfold dist2 ideal2
  rw [hx]
  rw [show r.A * (t - r.D) ^ 2 / 2 = r.A * (t - r.D) * (t - r.D) * (1 / 2) by ring]
  refine m2.trans ?_
  unfold eps at *
  linarith

theorem Ok.dur_err (h : r.Ok V T) : |r.dur - (2 * r.D + r.d2)| ≤ 203 / 100 * eps * T := by
  have hD := h.D_nonneg
  have hd := h.d2_nonneg
  have := h.total
  have := h.tinyT
  have := h.T_pos
  have := rnd_add_err' h.mark_err (y := r.D) (y' := r.D) (f := 0) (by simp) (C := T)
    (by rw [abs_of_nonneg (by linarith)]; linarith)
  unfold dur
  rw [show 2 * r.D + r.d2 = r.D + r.d2 + r.D by ring]
  refine this.trans ?_
  unfold eps at *
  linarith

theorem Ok.len_err (h : r.Ok V T) : |r.len - (r.v0 + r.v1) * (2 * r.D + r.d2) / 2| ≤ 6 * eps * (V * T) := by
  have hD := h.D_nonneg
  have hd := h.d2_nonneg
  have hT := h.T_pos
  have hV := h.V_pos
  have hW : 0 ≤ V * T := by positivity
  obtain ⟨n0, n1, n2⟩ := h.tinies
  have hn := tiny_pos
  have hv : |r.v0 + r.v1| ≤ 2 * V := by
    rw [abs_of_nonneg (by linarith [h.v0_nonneg, h.v1_nonneg])]
    linarith [h.v0_le, h.v1_le]
  have e1 : |rnd (r.v0 + r.v1) - (r.v0 + r.v1)| ≤ 2 * eps * V + tiny := by
    have := rnd_err (r.v0 + r.v1)
    have h2 := mul_le_mul_of_nonneg_left hv eps_pos.le
    linarith
  have e2 := rnd_mul_err₂ e1 hv h.dur_err (T := T) (by rw [abs_of_nonneg (by linarith)]; exact h.total)
  have b2 : |(r.v0 + r.v1) * (2 * r.D + r.d2)| ≤ 2 * V * T :=
    abs_mul_le hv (by rw [abs_of_nonneg (by linarith)]; exact h.total)
  have e3 := rnd_mul_err e2 b2 (t := 1 / 2) (T := 1 / 2) (by rw [abs_of_pos]; norm_num)
  unfold len
  rw [show (r.v0 + r.v1) * (2 * r.D + r.d2) / 2 = (r.v0 + r.v1) * (2 * r.D + r.d2) * (1 / 2) by ring]
  refine e3.trans ?_
  unfold eps at *
  linarith

/-- The time may exceed the duration by `δ`. -/
structure Over (r : Ramp) (V T δ : ℝ) : Prop where
  nonneg : 0 ≤ δ
  ge : 2 * eps * T ≤ δ
  le : δ ≤ T / 64
  jerk : |r.J| * δ ^ 2 ≤ V / 2

/-- The time left in the third part. -/
theorem Ok.left_le (h : r.Ok V T) {δ t : ℝ} (h0 : r.mark ≤ t) (h1 : t ≤ 2 * r.D + r.d2 + δ) :
    -δ ≤ 2 * r.D + r.d2 - t ∧ 2 * r.D + r.d2 - t ≤ r.D + 101 / 100 * eps * T := by
  have hm := (abs_le.1 h.mark_err).1
  constructor <;> linarith

theorem jerk_near {J X T V c : ℝ} (h1 : |J| * X ^ 2 ≤ c * V) (h2 : |J| * T ^ 2 ≤ 1024 * V) (hV : 0 < V) (hc : c ≤ 1001 / 1000) :
    |J| * (X + 4 * eps * T) ^ 2 ≤ 101 / 100 * V := by
  have hJ := abs_nonneg J
  have h3 : 2 * (|J| * (X * T)) ≤ |J| * (X ^ 2 + T ^ 2) := by nlinarith [mul_nonneg hJ (sq_nonneg (X - T))]
  have e : |J| * (X + 4 * eps * T) ^ 2 = |J| * X ^ 2 + 4 * eps * (2 * (|J| * (X * T))) + 16 * eps * eps * (|J| * T ^ 2) := by ring
  have h4 : c * V ≤ 1001 / 1000 * V := mul_le_mul_of_nonneg_right hc hV.le
  rw [e]
  unfold eps at *
  linarith

/-- Bound on the time left. -/
noncomputable def span (r : Ramp) (T δ : ℝ) : ℝ := max r.D δ + 4 * eps * T

theorem Ok.jerk_left (h : r.Ok V T) {δ : ℝ} (ho : r.Over V T δ) : |r.J| * r.span T δ ^ 2 ≤ 101 / 100 * V := by
  unfold span
  rcases max_cases r.D δ with ⟨e, -⟩ | ⟨e, -⟩ <;> rw [e]
  · refine jerk_near (c := 1 + 8 * eps) ?_ h.jerkT h.V_pos (by unfold eps; norm_num)
    have := h.jerk
    linarith
  · exact jerk_near (c := 1 / 2) (by have := ho.jerk; linarith) h.jerkT h.V_pos (by norm_num)

theorem cube_diff {J x y X : ℝ} (hx : |x| ≤ X) (hy : |y| ≤ X) : |J * y ^ 3 / 6 - J * x ^ 3 / 6| ≤ |J| * X ^ 2 / 2 * |y - x| := by
  have hX : 0 ≤ X := (abs_nonneg _).trans hx
  rw [show J * y ^ 3 / 6 - J * x ^ 3 / 6 = J * ((y ^ 2 + y * x + x ^ 2) / 6) * (y - x) by ring, abs_mul, abs_mul]
  refine mul_le_mul_of_nonneg_right ?_ (abs_nonneg _)
  have : |(y ^ 2 + y * x + x ^ 2) / 6| ≤ X ^ 2 / 2 := by
    have h1 := abs_le.1 hx
    have h2 := abs_le.1 hy
    rw [abs_le]
    constructor <;> nlinarith [sq_nonneg (x + y)]
  calc |J| * |(y ^ 2 + y * x + x ^ 2) / 6| ≤ |J| * (X ^ 2 / 2) := mul_le_mul_of_nonneg_left this (abs_nonneg _)
    _ = _ := by ring

set_option maxHeartbeats 800000 in
theorem Ok.dist3_err (h : r.Ok V T) {δ t : ℝ} (ho : r.Over V T δ) (h0 : r.mark ≤ t) (h1 : t ≤ 2 * r.D + r.d2 + δ) :
    |r.dist3 t - r.ideal3 t| ≤ 18 * eps * (V * T) := by
  have hD := h.D_le
  have hD0 := h.D_nonneg
  have hd0 := h.d2_nonneg
  have hT := h.T_pos
  have hV := h.V_pos
  have he := eps_pos
  have htot := h.total
  have hW : 0 ≤ V * T := by positivity
  obtain ⟨n0, n1, n2⟩ := h.tinies
  have hn := tiny_pos
  have hnT : 0 ≤ tiny * T := by positivity
  have htT := h.tinyT
  have xb0 := h.left_le h0 h1
  have hδ := ho.le
  have hδ0 := ho.nonneg
  have m1 : r.D ≤ max r.D δ := le_max_left _ _
  have m2 : δ ≤ max r.D δ := le_max_right _ _
  have m3 : max r.D δ ≤ T / 2 := max_le hD (by linarith)
  have xb : |2 * r.D + r.d2 - t| ≤ max r.D δ + 101 / 100 * eps * T := by
    have : 0 ≤ eps * T := by positivity
    rw [abs_le]; constructor <;> linarith
  have xT : |2 * r.D + r.d2 - t| ≤ 51 / 100 * T := by
    refine xb.trans ?_
    unfold eps; linarith
  have xe : |rnd (r.dur - t) - (2 * r.D + r.d2 - t)| ≤ 26 / 10 * eps * T := by
    have h2 : |r.dur - t - (2 * r.D + r.d2 - t)| ≤ 203 / 100 * eps * T := by
      have := h.dur_err
      rwa [show r.dur - t - (2 * r.D + r.d2 - t) = r.dur - (2 * r.D + r.d2) by ring]
    refine (rnd_err_of h2 xT).trans ?_
    unfold eps at *
    linarith
  generalize hy : 2 * r.D + r.d2 - t = y at *
  generalize hx : rnd (r.dur - t) = x at *
  have hZ : r.span T δ = max r.D δ + 4 * eps * T := rfl
  have xb' : |x| ≤ r.span T δ := by
    rw [hZ]
    have := abs_add_le y (x - y)
    rw [add_sub_cancel] at this
    have : 0 ≤ eps * T := by positivity
    linarith
  have yb : |y| ≤ r.span T δ := by
    rw [hZ]
    have : 0 ≤ eps * T := by positivity
    linarith
  have xT' : r.span T δ ≤ 51 / 100 * T := by rw [hZ]; unfold eps; linarith
  have hj : |r.J| * (r.span T δ) ^ 2 ≤ 101 / 100 * V := by
    exact h.jerk_left ho
  -- the cubic term
  have c1 := cube32_err (J := r.J) xb' hj
  have c2 := cube_diff (J := r.J) yb xb'
  have c3 : |r.J| * (r.span T δ) ^ 2 / 2 * |x - y| ≤ 101 / 200 * V * (26 / 10 * eps * T) :=
    mul_le_mul (by linarith) xe (abs_nonneg _) (by positivity)
  have c4 : |cube32 r.J x - r.J * y ^ 3 / 6| ≤ 2 * eps * (V * T) := by
    have := abs_add_le (cube32 r.J x - r.J * x ^ 3 / 6) (r.J * x ^ 3 / 6 - r.J * y ^ 3 / 6)
    rw [sub_add_sub_cancel] at this
    have h2 : V * (r.span T δ) ≤ V * (51 / 100 * T) := mul_le_mul_of_nonneg_left xT' hV.le
    have h3 : tiny * (r.span T δ) ≤ tiny * T := mul_le_mul_of_nonneg_left (by linarith) hn.le
    have h4 : tiny * (r.span T δ) ^ 2 ≤ tiny * T ^ 2 := by
      refine mul_le_mul_of_nonneg_left (pow_le_pow_left₀ ((abs_nonneg _).trans xb') (by linarith) 2) hn.le
    have h5 : 0 ≤ r.span T δ := (abs_nonneg _).trans xb'
    generalize r.span T δ = Z at *
    unfold eps at *
    linarith
  have cb : |r.J * y ^ 3 / 6| ≤ 9 / 100 * (V * T) := by
    rw [show r.J * y ^ 3 / 6 = (r.J * y ^ 2) * (y / 6) by ring]
    have h2 : |r.J * y ^ 2| ≤ 101 / 100 * V := by
      rw [abs_mul, abs_of_nonneg (sq_nonneg y)]
      refine le_trans (mul_le_mul_of_nonneg_left ?_ (abs_nonneg _)) hj
      have := abs_le.1 yb
      exact sq_le_sq' this.1 this.2
    have h3 : |y / 6| ≤ 51 / 600 * T := by
      rw [abs_div, abs_of_pos (show (0 : ℝ) < 6 by norm_num)]; linarith
    exact (abs_mul_le h2 h3).trans (by linarith)
  -- the linear term
  have hv : |r.v1| ≤ V := by rw [abs_of_nonneg h.v1_nonneg]; exact h.v1_le
  have l1 := rnd_mul_err₂ (x := r.v1) (y := r.v1) (e := 0) (by simp) hv xe xT
  have lb : |r.v1 * y| ≤ 51 / 100 * (V * T) := (abs_mul_le hv xT).trans (by linarith)
  -- the difference
  have d1 := rnd_add_err l1 (y := -(r.J * y ^ 3 / 6)) (y' := -cube32 r.J x) (f := 2 * eps * (V * T)) (C := 9 / 100 * (V * T))
    (by rw [← neg_sub', abs_neg]; simpa [sub_eq_add_neg, add_comm] using c4) lb (by rw [abs_neg]; exact cb)
  rw [← sub_eq_add_neg, ← sub_eq_add_neg] at d1
  have db : |r.v1 * y - r.J * y ^ 3 / 6| ≤ 60 / 100 * (V * T) := (abs_sub _ _).trans (by linarith)
  have lenb : |(r.v0 + r.v1) * (2 * r.D + r.d2) / 2| ≤ V * T := by
    have h2 := h.v0_nonneg
    have h3 := h.v1_nonneg
    rw [abs_of_nonneg (by positivity)]
    have : (r.v0 + r.v1) * (2 * r.D + r.d2) ≤ 2 * V * T := mul_le_mul (by linarith [h.v0_le, h.v1_le]) htot (by linarith) (by linarith)
    linarith
  have f1 := rnd_add_err h.len_err (y := -(r.v1 * y - r.J * y ^ 3 / 6))
    (y' := -rnd (rnd (r.v1 * x) - cube32 r.J x)) (f := 7 * eps * (V * T)) (C := 60 / 100 * (V * T))
    (by
      rw [neg_sub_neg, abs_sub_comm]
      refine d1.trans ?_
      unfold eps at *
      linarith) lenb (by rw [abs_neg]; exact db)
  rw [← sub_eq_add_neg, ← sub_eq_add_neg] at f1
  unfold dist3 ideal3
  rw [hx, hy]
  refine f1.trans ?_
  unfold eps at *
  linarith

/-! ### The curve without rounding -/

/-- A curve that rises, with a slope of at most `V`, up to errors. -/
theorem slope_bounds {x y p V c e : ℝ} (hxy : x ≤ y) (hT : y - x ≤ c) (hp0 : -e ≤ p) (hp1 : p ≤ V + e)
    (he : 0 ≤ e) : -(e * c) ≤ (y - x) * p ∧ (y - x) * p ≤ V * (y - x) + e * c := by
  have h0 : 0 ≤ y - x := by linarith
  constructor
  · nlinarith [mul_nonneg h0 (show 0 ≤ p + e by linarith), mul_nonneg he (show 0 ≤ c - (y - x) by linarith)]
  · nlinarith [mul_nonneg h0 (show 0 ≤ V + e - p by linarith), mul_nonneg he (show 0 ≤ c - (y - x) by linarith)]

theorem sq_mean {x y X : ℝ} (hx : |x| ≤ X) (hy : |y| ≤ X) :
    0 ≤ (y ^ 2 + y * x + x ^ 2) / 6 ∧ (y ^ 2 + y * x + x ^ 2) / 6 ≤ X ^ 2 / 2 := by
  have h1 := abs_le.1 hx
  have h2 := abs_le.1 hy
  constructor <;> nlinarith [sq_nonneg (x + y), sq_nonneg x, sq_nonneg y]

theorem Ok.ideal1_slope (h : r.Ok V T) {t t' : ℝ} (h0 : 0 ≤ t) (h1 : t ≤ t') (h2 : t' ≤ r.D) :
    -(2 * eps * (V * T)) ≤ r.ideal1 t' - r.ideal1 t ∧
    r.ideal1 t' - r.ideal1 t ≤ V * (t' - t) + 2 * eps * (V * T) := by
  have hD := h.D_le
  have hs := h.sum
  have hA : 0 ≤ |r.A| * r.d2 := mul_nonneg (abs_nonneg _) h.d2_nonneg
  have e : r.ideal1 t' - r.ideal1 t = (t' - t) * (r.v0 + r.J * ((t' ^ 2 + t' * t + t ^ 2) / 6)) := by
    unfold ideal1; ring
  obtain ⟨m0, m1⟩ := sq_mean (x := t) (y := t') (X := r.D) (by rw [abs_of_nonneg h0]; linarith)
    (by rw [abs_of_nonneg (by linarith)]; exact h2)
  generalize (t' ^ 2 + t' * t + t ^ 2) / 6 = m at *
  have hV := h.V_pos
  have he : 0 ≤ 4 * eps * V := by have := eps_pos; positivity
  have v0 := h.v0_nonneg; have v0' := h.v0_le; have v1 := h.v1_nonneg; have v1' := h.v1_le
  have hp : -(4 * eps * V) ≤ r.v0 + r.J * m ∧ r.v0 + r.J * m ≤ V + 4 * eps * V := by
    rcases h.sign with ⟨h3, h4, h5⟩ | ⟨h3, h4, h5⟩
    · rw [abs_of_nonneg h4, abs_of_nonneg (show 0 ≤ r.v1 - r.v0 by linarith)] at hs
      have a := mul_le_mul_of_nonneg_left m1 h4
      have b := mul_nonneg h4 m0
      constructor <;> linarith
    · rw [abs_of_nonpos h4, abs_of_nonpos (show r.v1 - r.v0 ≤ 0 by linarith)] at hs
      have a := mul_le_mul_of_nonpos_left m1 h4
      have b := mul_nonpos_of_nonpos_of_nonneg h4 m0
      constructor <;> linarith
  have := slope_bounds (c := T / 2) h1 (by linarith [h.T_pos]) hp.1 hp.2 he
  rw [e]
  constructor <;> linarith

theorem Ok.ideal2_slope (h : r.Ok V T) {t t' : ℝ} (h0 : r.D ≤ t) (h1 : t ≤ t') (h2 : t' ≤ r.mark) :
    -(15 * eps * (V * T)) ≤ r.ideal2 t' - r.ideal2 t ∧
    r.ideal2 t' - r.ideal2 t ≤ V * (t' - t) + 15 * eps * (V * T) := by
  have hD := h.D_le
  have hs := h.sum
  have hm := (abs_le.1 h.mark_err).2
  have e : r.ideal2 t' - r.ideal2 t = (t' - t) * (r.v0 + r.J * r.D ^ 2 / 2 + r.A * (((t - r.D) + (t' - r.D)) / 2)) := by
    unfold ideal2; ring
  have m0 : 0 ≤ ((t - r.D) + (t' - r.D)) / 2 := by linarith
  have m1 : ((t - r.D) + (t' - r.D)) / 2 ≤ r.d2 + 101 / 100 * eps * T := by linarith
  generalize ((t - r.D) + (t' - r.D)) / 2 = m at *
  have hV := h.V_pos
  have hT := h.T_pos
  have he : 0 ≤ 14 * eps * V := by have := eps_pos; positivity
  have v0 := h.v0_nonneg; have v0' := h.v0_le; have v1 := h.v1_nonneg; have v1' := h.v1_le
  have ha := mul_le_mul_of_nonneg_left h.acc eps_pos.le
  have hp : -(14 * eps * V) ≤ r.v0 + r.J * r.D ^ 2 / 2 + r.A * m ∧ r.v0 + r.J * r.D ^ 2 / 2 + r.A * m ≤ V + 14 * eps * V := by
    rcases h.sign with ⟨h3, h4, h5⟩ | ⟨h3, h4, h5⟩
    · rw [abs_of_nonneg h4, abs_of_nonneg h5, abs_of_nonneg (show 0 ≤ r.v1 - r.v0 by linarith)] at hs
      rw [abs_of_nonneg h5] at ha
      have a := mul_le_mul_of_nonneg_left m1 h5
      have b := mul_nonneg h5 m0
      have c : 0 ≤ r.J * r.D ^ 2 := by positivity
      constructor <;> linarith
    · rw [abs_of_nonpos h4, abs_of_nonpos h5, abs_of_nonpos (show r.v1 - r.v0 ≤ 0 by linarith)] at hs
      rw [abs_of_nonpos h5] at ha
      have a := mul_le_mul_of_nonpos_left m1 h5
      have b := mul_nonpos_of_nonpos_of_nonneg h5 m0
      have c : r.J * r.D ^ 2 ≤ 0 := mul_nonpos_of_nonpos_of_nonneg h4 (by positivity)
      constructor <;> linarith
  have := slope_bounds (c := 101 / 100 * T) h1 (by
    have := h.total; have := h.D_nonneg; unfold eps at hm; linarith) hp.1 hp.2 he
  have hW : 0 ≤ eps * (V * T) := by have := eps_pos; positivity
  rw [e]
  constructor <;> linarith

theorem Ok.ideal3_slope (h : r.Ok V T) {δ η t t' : ℝ} (ho : r.Over V T δ) (hη : |r.J| * δ ^ 2 ≤ 2 * η) (h0 : r.D + r.d2 - 101 / 100 * eps * T ≤ t)
    (h1 : t ≤ t') (h2 : t' ≤ 2 * r.D + r.d2 + δ) :
    -(6 * eps * (V * T) + η * T) ≤ r.ideal3 t' - r.ideal3 t ∧
    r.ideal3 t' - r.ideal3 t ≤ V * (t' - t) + (6 * eps * (V * T) + η * T) := by
  have hD := h.D_le
  have hD0 := h.D_nonneg
  have hs := h.sum
  have hδ0 := ho.nonneg
  have hA : 0 ≤ |r.A| * r.d2 := mul_nonneg (abs_nonneg _) h.d2_nonneg
  have hV := h.V_pos
  have hT := h.T_pos
  have hep := eps_pos
  have hV := h.V_pos
  have heT : 0 ≤ eps * T := by positivity
  have hη0 : 0 ≤ η := by have : 0 ≤ |r.J| * δ ^ 2 := by positivity
                         linarith
  have a1 : 2 * r.D + r.d2 - t ≤ r.D + 101 / 100 * eps * T := by linarith
  have a2 : -δ ≤ 2 * r.D + r.d2 - t' := by linarith
  have a3 : t' - t = (2 * r.D + r.d2 - t) - (2 * r.D + r.d2 - t') := by ring
  have e : r.ideal3 t' - r.ideal3 t = (t' - t) * (r.v1 - r.J * (((2 * r.D + r.d2 - t) ^ 2 + (2 * r.D + r.d2 - t) * (2 * r.D + r.d2 - t')
      + (2 * r.D + r.d2 - t') ^ 2) / 6)) := by
    unfold ideal3; ring
  rw [e]
  generalize 2 * r.D + r.d2 - t = y at *
  generalize 2 * r.D + r.d2 - t' = y' at *
  have hyy : y' ≤ y := by linarith
  have m0 : 0 ≤ (y ^ 2 + y * y' + y' ^ 2) / 6 := by nlinarith [sq_nonneg (y + y'), sq_nonneg y, sq_nonneg y']
  have m1 : (y ^ 2 + y * y' + y' ^ 2) / 6 ≤ (r.D + 101 / 100 * eps * T) ^ 2 / 2 + δ ^ 2 / 2 := by
    have b1 : 0 ≤ r.D + 101 / 100 * eps * T := by linarith
    have c1 : y ^ 2 ≤ (r.D + 101 / 100 * eps * T) ^ 2 + δ ^ 2 := by
      rcases le_or_gt 0 y with hy | hy <;> nlinarith
    have c2 : y' ^ 2 ≤ (r.D + 101 / 100 * eps * T) ^ 2 + δ ^ 2 := by
      rcases le_or_gt 0 y' with hy | hy <;> nlinarith
    nlinarith [sq_nonneg (y - y')]
  generalize (y ^ 2 + y * y' + y' ^ 2) / 6 = m at *
  have hj : |r.J| * (r.D + 101 / 100 * eps * T) ^ 2 ≤ |r.J| * r.D ^ 2 + 12 * eps * V := by
    have b1 := mul_le_mul_of_nonneg_left h.jerkD hep.le
    have b2 := mul_le_mul_of_nonneg_left h.jerkT (mul_nonneg hep.le hep.le)
    have e : |r.J| * (r.D + 101 / 100 * eps * T) ^ 2 =
        |r.J| * r.D ^ 2 + 202 / 100 * (eps * (|r.J| * r.D * T)) + 10201 / 10000 * (eps * eps * (|r.J| * T ^ 2)) := by ring
    rw [e]
    unfold eps at *
    linarith
  have he : 0 ≤ 11 * eps * V + η := by positivity
  have v0 := h.v0_nonneg; have v0' := h.v0_le; have v1 := h.v1_nonneg; have v1' := h.v1_le
  have jm : |r.J| * m ≤ |r.J| * r.D ^ 2 / 2 + 6 * eps * V + η := by
    have := mul_le_mul_of_nonneg_left m1 (abs_nonneg r.J)
    linarith
  have jm0 : 0 ≤ |r.J| * m := mul_nonneg (abs_nonneg _) m0
  have jD0 : 0 ≤ |r.J| * r.D ^ 2 := by positivity
  have heV : 0 ≤ eps * V := by positivity
  have hp : -(11 * eps * V + η) ≤ r.v1 - r.J * m ∧ r.v1 - r.J * m ≤ V + (11 * eps * V + η) := by
    rcases h.sign with ⟨h3, h4, h5⟩ | ⟨h3, h4, h5⟩
    · rw [abs_of_nonneg (show 0 ≤ r.v1 - r.v0 by linarith)] at hs
      rw [abs_of_nonneg h4] at *
      constructor <;> linarith
    · rw [abs_of_nonpos (show r.v1 - r.v0 ≤ 0 by linarith)] at hs
      rw [abs_of_nonpos h4] at *
      constructor <;> linarith
  have := slope_bounds (c := 52 / 100 * T) h1 (by
    have := ho.le; unfold eps at a1; linarith) hp.1 hp.2 he
  have hηT : 0 ≤ η * T := by positivity
  have hW : 0 ≤ eps * (V * T) := by positivity
  constructor <;> linarith

/-- The second and third part meet. -/
theorem Ok.ideal_join (h : r.Ok V T) : |r.ideal3 r.mark - r.ideal2 r.mark| ≤ 5 * eps * (V * T) := by
  have hD := h.D_le
  have hD0 := h.D_nonneg
  have hT := h.T_pos
  have hV := h.V_pos
  have hep := eps_pos
  have hm := h.mark_err
  have hc := h.close
  have e : r.ideal3 r.mark - r.ideal2 r.mark = -((r.J * r.D ^ 2 + r.A * r.d2 - (r.v1 - r.v0)) * (r.d2 / 2 + (r.mark - (r.D + r.d2))))
      + (r.J * r.D * (r.mark - (r.D + r.d2)) * ((r.mark - (r.D + r.d2)) / 2) - r.J * (r.mark - (r.D + r.d2)) ^ 3 / 6
      - r.A * (r.mark - (r.D + r.d2)) * ((r.mark - (r.D + r.d2)) / 2)) := by
    unfold ideal2 ideal3; ring
  rw [e]
  generalize r.mark - (r.D + r.d2) = μ at *
  have g1 : |(r.J * r.D ^ 2 + r.A * r.d2 - (r.v1 - r.v0)) * (r.d2 / 2 + μ)| ≤ 8 * eps * V * (51 / 100 * T) := by
    refine abs_mul_le hc ?_
    have := abs_le.1 hm
    have := h.total
    have := h.d2_nonneg
    rw [abs_le]
    unfold eps at *
    constructor <;> linarith
  have hμ : |μ / 2| ≤ 101 / 200 * eps * T := by
    rw [abs_div, abs_of_pos (show (0 : ℝ) < 2 by norm_num)]; linarith
  have g2 : |r.J * r.D * μ * (μ / 2)| ≤ 6 * eps * V * (101 / 200 * eps * T) := by
    refine abs_mul_le ?_ hμ
    have := abs_mul_le (x := r.J * r.D) (X := |r.J| * r.D) (by rw [abs_mul, abs_of_nonneg hD0]) hm
    have b1 := mul_le_mul_of_nonneg_left h.jerkD hep.le
    have : 0 ≤ eps * V := by positivity
    linarith
  have g3 : |r.J * μ ^ 3 / 6| ≤ 1100 * eps * eps * V * (eps * T) := by
    rw [show r.J * μ ^ 3 / 6 = (r.J * μ ^ 2) * (μ / 6) by ring]
    refine abs_mul_le ?_ ?_
    · rw [abs_mul, abs_of_nonneg (sq_nonneg μ)]
      have b2 := mul_le_mul_of_nonneg_left h.jerkT (mul_nonneg hep.le hep.le)
      have b3 : μ ^ 2 ≤ (101 / 100 * eps * T) ^ 2 := by
        have := abs_le.1 hm
        have : 0 ≤ eps * T := by positivity
        nlinarith
      have b4 := mul_le_mul_of_nonneg_left b3 (abs_nonneg r.J)
      have : 0 ≤ eps * eps * V := by positivity
      nlinarith
    · rw [abs_div, abs_of_pos (show (0 : ℝ) < 6 by norm_num)]
      have : 0 ≤ eps * T := by positivity
      linarith
  have g4 : |r.A * μ * (μ / 2)| ≤ 6 * eps * V * (101 / 200 * eps * T) := by
    refine abs_mul_le ?_ hμ
    have := abs_mul_le (x := r.A) le_rfl hm
    have b1 := mul_le_mul_of_nonneg_left h.acc hep.le
    have : 0 ≤ eps * V := by positivity
    linarith
  have g1 := abs_le.1 g1
  have g2 := abs_le.1 g2
  have g3 := abs_le.1 g3
  have g4 := abs_le.1 g4
  have hW : 0 ≤ V * T := by positivity
  rw [abs_le]
  unfold eps at *
  constructor <;> linarith

/-- Bound on the dips of the computed distance. -/
noncomputable def dip (V T η : ℝ) : ℝ := 64 * eps * (V * T) + η * T

theorem Ok.mark_ge (h : r.Ok V T) : r.D ≤ r.mark := by
  have := rnd_mono (show r.D ≤ r.D + r.d2 by linarith [h.d2_nonneg])
  rwa [h.D_float] at this

/-- Part of the curve in which a time lies, with the error of the computed distance. -/
theorem Ok.parts (h : r.Ok V T) {δ t : ℝ} (ho : r.Over V T δ) (h0 : 0 ≤ t) (h2 : t ≤ 2 * r.D + r.d2 + δ) :
    (t ≤ r.D ∧ |r.dist t - r.ideal1 t| ≤ 4 * eps * (V * T)) ∨
    (r.D ≤ t ∧ t ≤ r.mark ∧ |r.dist t - r.ideal2 t| ≤ 18 * eps * (V * T)) ∨
    (r.mark ≤ t ∧ |r.dist t - r.ideal3 t| ≤ 18 * eps * (V * T)) := by
  unfold dist
  split_ifs with a b
  · exact .inl ⟨a.le, h.dist1_err h0 a.le⟩
  · exact .inr (.inr ⟨b.le, h.dist3_err ho b.le h2⟩)
  · exact .inr (.inl ⟨not_lt.1 a, not_lt.1 b, h.dist2_err (not_lt.1 a) (not_lt.1 b)⟩)

/-- The computed distance rises, at the speed `V` at most, but for errors. -/
theorem Ok.rises (h : r.Ok V T) {δ η t t' : ℝ} (ho : r.Over V T δ) (hη : |r.J| * δ ^ 2 ≤ 2 * η) (h0 : 0 ≤ t) (h1 : t ≤ t')
    (h2 : t' ≤ 2 * r.D + r.d2 + δ) :
    r.dist t ≤ r.dist t' + dip V T η ∧ r.dist t' ≤ r.dist t + V * (t' - t) + dip V T η := by
  have hj := abs_le.1 h.ideal_join
  have hDD := h.mark_ge
  have hD0 := h.D_nonneg
  have hT := h.T_pos
  have hV := h.V_pos
  have hep := eps_pos
  have hη0 : 0 ≤ η := by have : 0 ≤ |r.J| * δ ^ 2 := by positivity
                         linarith
  have hW : 0 ≤ eps * (V * T) := by positivity
  have hηT : 0 ≤ η * T := by positivity
  have hmk : r.D + r.d2 - 101 / 100 * eps * T ≤ r.mark := by have := (abs_le.1 h.mark_err).1; linarith
  have join : r.ideal1 r.D = r.ideal2 r.D := by unfold ideal1 ideal2; ring
  unfold dip
  rcases h.parts ho h0 (h1.trans h2) with ⟨a, p⟩ | ⟨a, b, p⟩ | ⟨a, p⟩ <;>
  rcases h.parts ho (h0.trans h1) h2 with ⟨a', p'⟩ | ⟨a', b', p'⟩ | ⟨a', p'⟩ <;>
  replace p := abs_le.1 p <;> replace p' := abs_le.1 p'
  · have := h.ideal1_slope h0 h1 a'
    constructor <;> linarith
  · have s1 := h.ideal1_slope h0 a le_rfl
    have s2 := h.ideal2_slope le_rfl a' b'
    constructor <;> linarith
  · have s1 := h.ideal1_slope h0 a le_rfl
    have s2 := h.ideal2_slope le_rfl hDD le_rfl
    have s3 := h.ideal3_slope ho hη hmk a' h2
    constructor <;> linarith
  · have e : t = r.D := by linarith
    have e' : t' = r.D := by linarith
    subst e; rw [e'] at *
    constructor <;> linarith
  · have := h.ideal2_slope a h1 b'
    constructor <;> linarith
  · have s2 := h.ideal2_slope a b le_rfl
    have s3 := h.ideal3_slope ho hη hmk a' h2
    constructor <;> linarith
  · have e : t = r.D := by linarith
    have e' : t' = r.D := by linarith
    have e'' : r.mark = r.D := by linarith
    rw [e, e'] at *; rw [e''] at hj
    constructor <;> linarith
  · have e : t = r.mark := by linarith
    have e' : t' = r.mark := by linarith
    rw [e, e'] at *
    constructor <;> linarith
  · have := h.ideal3_slope ho hη (hmk.trans a) h1 h2
    constructor <;> linarith

theorem cube32_zero (J : ℝ) : cube32 J 0 = 0 := by unfold cube32; simp [rnd_zero]

theorem Ok.dist_zero (h : r.Ok V T) : r.dist 0 = 0 := by
  have hD := h.D_nonneg
  have hm : 0 ≤ r.mark := hD.trans h.mark_ge
  unfold dist
  split_ifs with a b
  · unfold dist1; simp [cube32_zero, rnd_zero]
  · exact absurd b (not_lt.2 hm)
  · have e : r.D = 0 := by linarith
    unfold dist2 s1
    rw [e]; simp [cube32_zero, rnd_zero]

/-- The computed distance ends near the computed length. -/
theorem Ok.ends (h : r.Ok V T) {δ η t : ℝ} (ho : r.Over V T δ) (hη : |r.J| * δ ^ 2 ≤ 2 * η) (h0 : 0 ≤ t)
    (h2 : t ≤ 2 * r.D + r.d2 + δ) :
    |r.dist t - r.len| ≤ V * |2 * r.D + r.d2 - t| + dip V T η := by
  have hj := abs_le.1 h.ideal_join
  have hl := abs_le.1 h.len_err
  have hDD := h.mark_ge
  have hD0 := h.D_nonneg
  have hd0 := h.d2_nonneg
  have hT := h.T_pos
  have hV := h.V_pos
  have hep := eps_pos
  have hδ0 := ho.nonneg
  have hη0 : 0 ≤ η := by have : 0 ≤ |r.J| * δ ^ 2 := by positivity
                         linarith
  have hW : 0 ≤ eps * (V * T) := by positivity
  have hηT : 0 ≤ η * T := by positivity
  have heT : 0 ≤ eps * T := by positivity
  obtain ⟨hm1, hm2⟩ := abs_le.1 h.mark_err
  have hmk : r.D + r.d2 - 101 / 100 * eps * T ≤ r.mark := by linarith
  have join : r.ideal1 r.D = r.ideal2 r.D := by unfold ideal1 ideal2; ring
  have e3 : r.ideal3 (2 * r.D + r.d2) = (r.v0 + r.v1) * (2 * r.D + r.d2) / 2 := by unfold ideal3; ring
  -- from any point of the third part to the end
  have toEnd : ∀ x, r.D + r.d2 - 101 / 100 * eps * T ≤ x → x ≤ 2 * r.D + r.d2 + δ →
      |r.ideal3 (2 * r.D + r.d2) - r.ideal3 x| ≤ V * |2 * r.D + r.d2 - x| + (6 * eps * (V * T) + η * T) := by
    intro x hx hx'
    rcases le_total x (2 * r.D + r.d2) with c | c
    · have := h.ideal3_slope ho hη hx c (by linarith)
      have hn := mul_nonneg hV.le (show 0 ≤ 2 * r.D + r.d2 - x by linarith)
      rw [abs_of_nonneg (show 0 ≤ 2 * r.D + r.d2 - x by linarith), abs_le]
      constructor <;> linarith
    · have := h.ideal3_slope ho hη (show r.D + r.d2 - 101 / 100 * eps * T ≤ 2 * r.D + r.d2 by linarith) c hx'
      have hn := mul_nonneg hV.le (show 0 ≤ x - (2 * r.D + r.d2) by linarith)
      rw [abs_of_nonpos (show 2 * r.D + r.d2 - x ≤ 0 by linarith), abs_le]
      constructor <;> linarith
  rw [e3] at toEnd
  -- from the end of the second part
  have fromMark : t ≤ r.mark → |(r.v0 + r.v1) * (2 * r.D + r.d2) / 2 - r.ideal3 r.mark| ≤
      V * (|2 * r.D + r.d2 - t| - (r.mark - t)) + (9 * eps * (V * T) + η * T) := by
    intro ht
    refine (toEnd r.mark hmk (by have := ho.ge; linarith)).trans ?_
    have : |2 * r.D + r.d2 - r.mark| ≤ |2 * r.D + r.d2 - t| - (r.mark - t) + 202 / 100 * eps * T := by
      rcases le_total r.mark (2 * r.D + r.d2) with c | c
      · rw [abs_of_nonneg (by linarith), abs_of_nonneg (by linarith)]; linarith
      · rw [abs_of_nonpos (by linarith)]
        have := le_abs_self (2 * r.D + r.d2 - t)
        linarith
    have := mul_le_mul_of_nonneg_left this hV.le
    linarith
  unfold dip
  rcases h.parts ho h0 h2 with ⟨a, p⟩ | ⟨a, b, p⟩ | ⟨a, p⟩ <;> replace p := abs_le.1 p <;> rw [abs_le]
  · have f := abs_le.1 (fromMark (a.trans hDD))
    have s1 := h.ideal1_slope h0 a le_rfl
    have s2 := h.ideal2_slope le_rfl hDD le_rfl
    have n1 := mul_nonneg hV.le (show 0 ≤ r.mark - t by linarith)
    constructor <;> linarith
  · have f := abs_le.1 (fromMark b)
    have s2 := h.ideal2_slope a b le_rfl
    have n1 := mul_nonneg hV.le (show 0 ≤ r.mark - t by linarith)
    constructor <;> linarith
  · have f := abs_le.1 (toEnd t (hmk.trans a) h2)
    constructor <;> linarith

/-- Until its end the computed distance does not exceed the computed length, but for errors. -/
theorem Ok.below (h : r.Ok V T) {δ η t : ℝ} (ho : r.Over V T δ) (hη : |r.J| * δ ^ 2 ≤ 2 * η) (h0 : 0 ≤ t)
    (h2 : t ≤ 2 * r.D + r.d2 + δ) : r.dist t ≤ r.len + V * max (t - (2 * r.D + r.d2)) 0 + dip V T η := by
  have hl := abs_le.1 h.len_err
  have hj := abs_le.1 h.ideal_join
  have hDD := h.mark_ge
  have hD0 := h.D_nonneg
  have hd0 := h.d2_nonneg
  have hT := h.T_pos
  have hV := h.V_pos
  have hep := eps_pos
  have hδ0 := ho.nonneg
  have hη0 : 0 ≤ η := by have : 0 ≤ |r.J| * δ ^ 2 := by positivity
                         linarith
  have hW : 0 ≤ eps * (V * T) := by positivity
  have hηT : 0 ≤ η * T := by positivity
  have heT : 0 ≤ eps * T := by positivity
  obtain ⟨hm1, hm2⟩ := abs_le.1 h.mark_err
  have hmk : r.D + r.d2 - 101 / 100 * eps * T ≤ r.mark := by linarith
  have join : r.ideal1 r.D = r.ideal2 r.D := by unfold ideal1 ideal2; ring
  have e3 : r.ideal3 (2 * r.D + r.d2) = (r.v0 + r.v1) * (2 * r.D + r.d2) / 2 := by unfold ideal3; ring
  have toEnd : ∀ x, r.D + r.d2 - 101 / 100 * eps * T ≤ x → x ≤ 2 * r.D + r.d2 + δ →
      r.ideal3 x ≤ r.ideal3 (2 * r.D + r.d2) + V * max (x - (2 * r.D + r.d2)) 0 + (6 * eps * (V * T) + η * T) := by
    intro x hx hx'
    rcases le_total x (2 * r.D + r.d2) with c | c
    · have := h.ideal3_slope ho hη hx c (by linarith)
      rw [max_eq_right (by linarith)]
      linarith
    · have := h.ideal3_slope ho hη (show r.D + r.d2 - 101 / 100 * eps * T ≤ 2 * r.D + r.d2 by linarith) c hx'
      rw [max_eq_left (by linarith)]
      linarith
  rw [e3] at toEnd
  have fromMark : r.ideal3 r.mark ≤ (r.v0 + r.v1) * (2 * r.D + r.d2) / 2 + (8 * eps * (V * T) + η * T) := by
    have h1 := toEnd r.mark hmk (by have := ho.ge; linarith)
    have h3 : V * max (r.mark - (2 * r.D + r.d2)) 0 ≤ V * (101 / 100 * eps * T) :=
      mul_le_mul_of_nonneg_left (max_le (by linarith) (by linarith)) hV.le
    linarith
  have hmax : 0 ≤ V * max (t - (2 * r.D + r.d2)) 0 := mul_nonneg hV.le (le_max_right _ _)
  unfold dip
  rcases h.parts ho h0 h2 with ⟨a, p⟩ | ⟨a, b, p⟩ | ⟨a, p⟩ <;> replace p := abs_le.1 p
  · have s1 := h.ideal1_slope h0 a le_rfl
    have s2 := h.ideal2_slope le_rfl hDD le_rfl
    linarith
  · have s2 := h.ideal2_slope a b le_rfl
    linarith
  · have f := toEnd t (hmk.trans a) h2
    linarith

end Ramp
end Moovr
