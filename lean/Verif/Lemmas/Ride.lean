import Mathlib.Analysis.Calculus.Deriv.MeanValue
import Mathlib.Analysis.Calculus.Deriv.Pow
import Mathlib.Analysis.Calculus.Deriv.Add
import Mathlib.Analysis.Calculus.Deriv.Mul
import Mathlib.Tactic.LinearCombination
import Mathlib.Tactic.Linarith
import Mathlib.Tactic.Ring
import Mathlib.Tactic.FieldSimp
import Mathlib.Tactic.Positivity
import Mathlib.Analysis.Real.Sqrt
import Verif.Spec.Ride
/-!
# Which speeds a ride can have
-/
namespace Moovr
open Set

namespace Ride
variable {a d vS vE L T : ℝ} {x v : ℝ → ℝ}

/-- If the speed is at least that of a quadratic in time, the distance grows at least as fast. -/
theorem grows (h : Ride a d vS vE L T x v) {p q r : ℝ} (hp : 0 ≤ p) (hpq : p ≤ q) (hq : q ≤ T) {b : ℝ}
    (hv : ∀ t ∈ Icc p q, b + r * (t - p) ≤ v t) : b * (q - p) + r * (q - p) ^ 2 / 2 ≤ x q - x p := by
  have hsub : Icc p q ⊆ Icc 0 T := Icc_subset_Icc hp hq
  have hd : ∀ t ∈ Icc p q, HasDerivWithinAt (fun t => x t - (b * (t - p) + r * (t - p) ^ 2 / 2)) (v t - (b + r * (t - p)))
      (Icc p q) t := by
    intro t ht
    refine ((h.speed t (hsub ht)).mono hsub).sub ?_
    have : HasDerivAt (fun t => b * (t - p) + r * (t - p) ^ 2 / 2) (b * 1 + r * (2 * (t - p) ^ (2 - 1) * 1) / 2) t := by
      refine HasDerivAt.add (((hasDerivAt_id t).sub_const p).const_mul b) ?_
      exact ((((hasDerivAt_id t).sub_const p).pow 2).const_mul r).div_const 2
    refine this.hasDerivWithinAt.congr_deriv ?_
    simp only [Nat.reduceSub, pow_one]
    ring
  have hm : MonotoneOn (fun t => x t - (b * (t - p) + r * (t - p) ^ 2 / 2)) (Icc p q) := by
    refine monotoneOn_of_deriv_nonneg (convex_Icc p q) (fun t ht => (hd t ht).continuousWithinAt) ?_ ?_
    · intro t ht
      exact ((hd t (interior_subset ht)).differentiableWithinAt).mono interior_subset
    · intro t ht
      have h1 := (hd t (interior_subset ht)).hasDerivAt (mem_interior_iff_mem_nhds.mp ht)
      rw [h1.deriv]
      linarith [hv t (interior_subset ht)]
  have := hm (left_mem_Icc.mpr hpq) (right_mem_Icc.mpr hpq) hpq
  simp only [sub_self, mul_zero, add_zero] at this
  nlinarith [this]

/-- The distance never falls. -/
theorem mono (h : Ride a d vS vE L T x v) {p q : ℝ} (hp : 0 ≤ p) (hpq : p ≤ q) (hq : q ≤ T) : x p ≤ x q := by
  have := h.grows hp hpq hq (b := 0) (r := 0) (fun t ht => by
    have := h.forward t ⟨hp.trans ht.1, ht.2.trans hq⟩
    linarith)
  linarith

/-- Speed gained between two times. -/
theorem gain (h : Ride a d vS vE L T x v) (ha : 0 < a) {p q : ℝ} (hp : 0 ≤ p) (hpq : p ≤ q) (hq : q ≤ T) :
    v q ^ 2 ≤ v p ^ 2 + 2 * a * (x q - x p) := by
  have hp' : p ∈ Icc 0 T := ⟨hp, hpq.trans hq⟩
  have hq' : q ∈ Icc 0 T := ⟨hp.trans hpq, hq⟩
  have hx := h.mono hp hpq hq
  have vp := h.forward p hp'
  have vq := h.forward q hq'
  rcases le_total (v q) (v p) with hle | hle
  · nlinarith
  -- the speed was at least `v q - a τ` during the last `τ`
  have hτ : (v q - v p) / a ≤ q - p := by
    rw [div_le_iff₀ ha]; linarith [(h.accel p hp' q hq' hpq).2]
  have hτ0 : 0 ≤ (v q - v p) / a := div_nonneg (by linarith) ha.le
  set τ := (v q - v p) / a with hdef
  have haτ : a * τ = v q - v p := by rw [hdef]; field_simp
  have hg := h.grows (p := q - τ) (q := q) (by linarith) (by linarith) hq (b := v p) (r := a) (fun t ht => by
    have := (h.accel t ⟨by linarith [ht.1], ht.2.trans hq⟩ q hq' ht.2).2
    nlinarith)
  have hm := h.mono (p := p) (q := q - τ) hp (by linarith) (by linarith)
  have e : q - (q - τ) = τ := by ring
  rw [e] at hg
  have : 2 * a * (v p * τ + a * τ ^ 2 / 2) = v q ^ 2 - v p ^ 2 := by
    have : 2 * a * (v p * τ + a * τ ^ 2 / 2) = 2 * v p * (a * τ) + (a * τ) ^ 2 := by ring
    rw [this, haτ]; ring
  nlinarith

/-- Speed lost between two times. -/
theorem loss (h : Ride a d vS vE L T x v) (hd : d < 0) {p q : ℝ} (hp : 0 ≤ p) (hpq : p ≤ q) (hq : q ≤ T) :
    v p ^ 2 + 2 * d * (x q - x p) ≤ v q ^ 2 := by
  have hp' : p ∈ Icc 0 T := ⟨hp, hpq.trans hq⟩
  have hq' : q ∈ Icc 0 T := ⟨hp.trans hpq, hq⟩
  have hx := h.mono hp hpq hq
  have vp := h.forward p hp'
  have vq := h.forward q hq'
  rcases le_total (v p) (v q) with hle | hle
  · nlinarith
  have hd' : 0 < -d := by linarith
  have hτ : (v p - v q) / (-d) ≤ q - p := by
    rw [div_le_iff₀ hd']; linarith [(h.accel p hp' q hq' hpq).1]
  have hτ0 : 0 ≤ (v p - v q) / (-d) := div_nonneg (by linarith) hd'.le
  set τ := (v p - v q) / (-d) with hdef
  have haτ : d * τ = v q - v p := by have := hd.ne; rw [hdef]; field_simp; ring
  have hg := h.grows (p := p) (q := p + τ) hp (by linarith) (by linarith) (b := v p) (r := d) (fun t ht => by
    have := (h.accel p hp' t ⟨by linarith [ht.1], by linarith [ht.2]⟩ ht.1).1
    linarith)
  have hm := h.mono (p := p + τ) (q := q) (by linarith) (by linarith) hq
  have e : p + τ - p = τ := by ring
  rw [e] at hg
  have : 2 * d * (v p * τ + d * τ ^ 2 / 2) = v q ^ 2 - v p ^ 2 := by
    have : 2 * d * (v p * τ + d * τ ^ 2 / 2) = 2 * v p * (d * τ) + (d * τ) ^ 2 := by ring
    rw [this, haτ]; ring
  nlinarith

end Ride

/-- The square of the positive part is differentiable. -/
theorem hasDerivAt_pos_sq (y : ℝ) : HasDerivAt (fun y : ℝ => (max 0 y) ^ 2) (2 * max 0 y) y := by
  rcases lt_trichotomy y 0 with hy | hy | hy
  · rw [max_eq_left hy.le, mul_zero]
    refine (hasDerivAt_const y (0 : ℝ)).congr_of_eventuallyEq ?_
    filter_upwards [gt_mem_nhds hy] with z hz
    rw [max_eq_left (le_of_lt hz)]; ring
  · subst hy
    rw [max_self, mul_zero, hasDerivAt_iff_isLittleO_nhds_zero]
    have h2 : (fun h : ℝ => h ^ 2) =o[nhds 0] (fun h : ℝ => h) := by
      simpa using (Asymptotics.isLittleO_pow_id (𝕜 := ℝ) (n := 2) (by norm_num))
    refine Asymptotics.IsBigO.trans_isLittleO ?_ h2
    refine Asymptotics.IsBigO.of_bound 1 (Filter.Eventually.of_forall fun h => ?_)
    simp only [zero_add, max_self, ne_eq, OfNat.ofNat_ne_zero, not_false_eq_true, zero_pow, sub_zero, smul_zero, norm_pow,
      Real.norm_eq_abs, one_mul]
    rcases le_total h 0 with hh | hh
    · rw [max_eq_left hh]; simp [sq_nonneg]
    · rw [max_eq_right hh]
  · rw [max_eq_right hy.le]
    have : HasDerivAt (fun y : ℝ => y ^ 2) (2 * y) y := by simpa using hasDerivAt_pow 2 y
    refine this.congr_of_eventuallyEq ?_
    filter_upwards [lt_mem_nhds hy] with z hz
    rw [max_eq_right (le_of_lt hz)]

/-- Accelerating to the highest speed and decelerating from it. -/
theorem ride_exists {a d vS vE L : ℝ} (ha : 0 < a) (hd : d < 0) (hvS : 0 ≤ vS) (hvE : 0 ≤ vE)
    (hslow : vS ^ 2 + 2 * d * L ≤ vE ^ 2) (hfast : vE ^ 2 ≤ vS ^ 2 + 2 * a * L) : CanRide a d L vS vE := by
  have had : 0 < a - d := by linarith
  -- the highest speed
  have hW : 0 ≤ (vE ^ 2 * a - vS ^ 2 * d - 2 * L * a * d) / (a - d) := by
    apply div_nonneg _ had.le
    nlinarith [mul_le_mul_of_nonneg_left hfast (by linarith : 0 ≤ -d), sq_nonneg vE]
  set W := (vE ^ 2 * a - vS ^ 2 * d - 2 * L * a * d) / (a - d) with hWd
  have hWe : W * (a - d) = vE ^ 2 * a - vS ^ 2 * d - 2 * L * a * d := by rw [hWd]; field_simp
  have hWS : vS ^ 2 ≤ W := by
    rw [hWd, le_div_iff₀ had]; nlinarith
  have hWE : vE ^ 2 ≤ W := by
    rw [hWd, le_div_iff₀ had]; nlinarith
  set w := Real.sqrt W with hw
  have hww : w ^ 2 = W := Real.sq_sqrt hW
  have hw0 : 0 ≤ w := Real.sqrt_nonneg W
  have hSw : vS ≤ w := by nlinarith
  have hEw : vE ≤ w := by nlinarith
  -- the times
  have hd' : 0 < -d := by linarith
  set t1 := (w - vS) / a with ht1
  set t2 := (w - vE) / (-d) with ht2
  have h1 : 0 ≤ t1 := div_nonneg (by linarith) ha.le
  have h2 : 0 ≤ t2 := div_nonneg (by linarith) hd'.le
  have e1 : a * t1 = w - vS := by rw [ht1]; field_simp
  have e2 : d * t2 = vE - w := by have := hd.ne; rw [ht2]; field_simp; ring
  refine ⟨t1 + t2, fun t => vS * t + a * t ^ 2 / 2 + (d - a) * (max 0 (t - t1)) ^ 2 / 2,
    fun t => vS + a * t + (d - a) * max 0 (t - t1), by linarith, ?_, ?_, ?_, ?_, ?_, ?_, ?_⟩
  · simp only [mul_zero, zero_sub, ne_eq, OfNat.ofNat_ne_zero, not_false_eq_true, zero_pow, zero_div, add_zero, zero_add]
    rw [max_eq_left (by linarith)]; ring
  · simp only [add_sub_cancel_left]
    rw [max_eq_right h2]
    have hL : 2 * L * (a * d) = (vE ^ 2 - w ^ 2) * a + (w ^ 2 - vS ^ 2) * d := by
      rw [hww]; linarith
    have hne : a * d ≠ 0 := mul_ne_zero ha.ne' hd.ne
    have ht : 2 * (vS * (t1 + t2) + a * (t1 + t2) ^ 2 / 2 + (d - a) * t2 ^ 2 / 2) * (a * d)
        = 2 * L * (a * d) := by
      have : 2 * (vS * (t1 + t2) + a * (t1 + t2) ^ 2 / 2 + (d - a) * t2 ^ 2 / 2) * (a * d)
          = 2 * vS * (a * t1) * d + (a * t1) ^ 2 * d + 2 * (vS + a * t1) * (d * t2) * a + (d * t2) ^ 2 * a := by ring
      rw [this, e1, e2, hL]; ring
    have := mul_right_cancel₀ hne ht
    linarith
  · simp only [mul_zero, zero_sub, add_zero]
    rw [max_eq_left (by linarith)]; ring
  · simp only [add_sub_cancel_left]
    rw [max_eq_right h2]; linarith
  · intro t ht
    rcases le_total t t1 with h | h
    · rw [max_eq_left (by linarith)]; nlinarith [ht.1]
    · rw [max_eq_right (by linarith)]
      have : vS + a * t + (d - a) * (t - t1) = vE + d * (t - t1 - t2) := by linarith
      rw [this]
      nlinarith [ht.2]
  · intro t _
    have hm : HasDerivAt (fun t : ℝ => (max 0 (t - t1)) ^ 2) (2 * max 0 (t - t1)) t := by
      have := HasDerivAt.comp t (hasDerivAt_pos_sq (t - t1)) ((hasDerivAt_id t).sub_const t1)
      simpa [Function.comp_def] using this
    have hd : HasDerivAt (fun t => vS * t + a * t ^ 2 / 2 + (d - a) * (max 0 (t - t1)) ^ 2 / 2)
        (vS * 1 + a * (2 * t) / 2 + (d - a) * (2 * max 0 (t - t1)) / 2) t := by
      refine ((((hasDerivAt_id t).const_mul vS).add ?_).add ?_)
      · have : HasDerivAt (fun y : ℝ => y ^ 2) (2 * t) t := by simpa using hasDerivAt_pow 2 t
        exact (this.const_mul a).div_const 2
      · exact (hm.const_mul (d - a)).div_const 2
    refine hd.hasDerivWithinAt.congr_deriv ?_
    ring
  · intro s _ t _ hst
    have hm1 : max 0 (s - t1) ≤ max 0 (t - t1) := max_le_max le_rfl (by linarith)
    have hm2 : max 0 (t - t1) ≤ max 0 (s - t1) + (t - s) := by
      apply max_le
      · linarith [le_max_left 0 (s - t1)]
      · linarith [le_max_right 0 (s - t1)]
    constructor <;> nlinarith

/-- Which pairs of speeds are possible. -/
theorem canRide_iff {a d vS vE L : ℝ} (ha : 0 < a) (hd : d < 0) (hvS : 0 ≤ vS) (hvE : 0 ≤ vE) :
    CanRide a d L vS vE ↔ vS ^ 2 + 2 * d * L ≤ vE ^ 2 ∧ vE ^ 2 ≤ vS ^ 2 + 2 * a * L := by
  constructor
  · rintro ⟨T, x, v, h⟩
    have h1 := h.gain ha le_rfl h.time le_rfl
    have h2 := h.loss hd le_rfl h.time le_rfl
    rw [h.v0, h.vT, h.x0, h.xT, sub_zero] at h1 h2
    exact ⟨h2, h1⟩
  · rintro ⟨h1, h2⟩
    exact ride_exists ha hd hvS hvE h1 h2

end Moovr
