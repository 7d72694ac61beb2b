import Verif.Lemmas.GCodeDouble
import Verif.Lemmas.GCodeParse
/-!
# Lemmas about positions in double precision
-/
namespace Moovr.Float64
open Float32 (nearestEven nearestEven_unique two_zpow_pos)

/-- Rounding a given number. -/
theorem rnd_eval {x : ℝ} (m e : ℤ) (he : -1074 ≤ e) (h1 : (2 : ℝ) ^ (e + 52) ≤ |x|) (h2 : |x| < 2 ^ (e + 53))
    (h : |x - m * 2 ^ e| < 2 ^ e / 2 ∨ |x - m * 2 ^ e| = 2 ^ e / 2 ∧ Even m) : rnd x = m * 2 ^ e := by
  have hx : 0 < |x| := (two_zpow_pos _).trans_le h1
  have el : Int.log 2 |x| = e + 52 := by
    apply le_antisymm
    · have := (Int.lt_zpow_iff_log_lt (b := 2) (by norm_num) hx (x := e + 53)).1 (by push_cast; exact h2)
      omega
    · exact (Int.zpow_le_iff_le_log (b := 2) (by norm_num) hx).1 (by push_cast; exact h1)
  have ee : expo x = e := by unfold expo; rw [el]; omega
  have hq := two_zpow_pos e
  unfold rnd
  rw [ee, nearestEven_unique (n := m)]
  rw [show x / 2 ^ e - m = (x - m * 2 ^ e) / 2 ^ e by field_simp, abs_div, abs_of_pos hq, div_lt_iff₀ hq, div_eq_iff hq.ne']
  refine h.imp (fun h => by linarith) fun h => ⟨by linarith [h.1], h.2⟩

end Moovr.Float64

namespace Moovr.GCode64
open GCode Float64

/-- The sum of errors in the calculation of a position. -/
theorem tiny : (2 : ℝ) ^ (-1075 : ℤ) ≤ 1 / 2 ^ 60 := by
  calc (2 : ℝ) ^ (-1075 : ℤ) ≤ 2 ^ (-60 : ℤ) := zpow_le_zpow_right₀ (by norm_num) (by norm_num)
    _ = _ := by norm_num

theorem rnd_le {x X : ℝ} (h : |x| ≤ X) (hX : 1 ≤ X) : |rnd x - x| ≤ X / 2 ^ 53 := by
  have h1 := rnd_scale (x := x) (X := X) h ((show (2 : ℝ) ^ (-1022 : ℤ) ≤ 1 from by
    have := zpow_le_zpow_right₀ (a := (2 : ℝ)) (by norm_num) (show (-1022 : ℤ) ≤ 0 by norm_num)
    simpa using this).trans hX)
  norm_num at h1 ⊢
  linarith

/-- A coordinate in mm. -/
theorem inMm_near {unit : UnitMode} {v : ℝ} {B : ℝ} (hB : 1 ≤ B) (hv : |if unit = .G20 then v * (254 / 10) else v| ≤ B) :
    |inMm unit (rnd v) - (if unit = .G20 then v * (254 / 10) else v)| ≤ B / 2 ^ 51 := by
  unfold inMm
  split_ifs at hv ⊢ with h
  · have hc : |rnd (254 / 10) - 254 / 10| ≤ 32 / 2 ^ 53 := rnd_le (by rw [abs_of_pos] <;> norm_num) (by norm_num)
    rw [abs_mul, show |(254 / 10 : ℝ)| = 254 / 10 by norm_num] at hv
    have h1 := rnd_error_add v
    have ht := tiny
    have hv0 := abs_nonneg v
    have e1 : |rnd v| ≤ |v| + |rnd v - v| := by
      have := abs_sub_abs_le_abs_sub (rnd v) v
      linarith
    have e2 : |rnd v * rnd (254 / 10) - v * (254 / 10)| ≤ |rnd v| * (32 / 2 ^ 53) + |rnd v - v| * (254 / 10) := by
      rw [show rnd v * rnd (254 / 10) - v * (254 / 10) = rnd v * (rnd (254 / 10) - 254 / 10) + (rnd v - v) * (254 / 10) by ring]
      refine (abs_add_le _ _).trans ?_
      rw [abs_mul, abs_mul, show |(254 / 10 : ℝ)| = 254 / 10 by norm_num]
      exact add_le_add (mul_le_mul_of_nonneg_left hc (abs_nonneg _)) le_rfl
    norm_num at h1 ht e2 hv ⊢
    have e3 : |rnd v * rnd (127 / 5)| ≤ B * (1 + 1 / 2 ^ 10) := by
      have := abs_sub_abs_le_abs_sub (rnd v * rnd (127 / 5)) (v * (127 / 5))
      rw [abs_mul v, show |(127 / 5 : ℝ)| = 127 / 5 by norm_num] at this
      linarith
    have e4 := rnd_le e3 (by norm_num; linarith)
    have e5 := abs_sub_le (rnd (rnd v * rnd (127 / 5))) (rnd v * rnd (127 / 5)) (v * (127 / 5))
    norm_num at e4
    linarith
  · have h1 := rnd_le hv hB
    norm_num at h1 ⊢
    linarith

end Moovr.GCode64
