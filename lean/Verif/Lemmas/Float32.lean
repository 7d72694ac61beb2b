import Mathlib.Tactic.Linarith
import Mathlib.Tactic.Positivity
import Mathlib.Tactic.FieldSimp
import Mathlib.Tactic.Ring
import Mathlib.Tactic.NormNum
import Mathlib.Algebra.Order.Floor.Ring
import Verif.Model.Float32
/-!
# Lemmas about single precision rounding
-/
namespace Moovr.Float32

/-! ## The nearest integer -/

theorem nearestEven_spec (y : ℝ) :
    |y - nearestEven y| < 1 / 2 ∨ (|y - nearestEven y| = 1 / 2 ∧ Even (nearestEven y)) := by
  have h1 := Int.floor_le y
  have h2 := Int.lt_floor_add_one y
  unfold nearestEven
  split
  · left; rw [abs_lt]; constructor <;> linarith
  · split
    · left; push_cast; rw [abs_lt]; constructor <;> linarith
    · have e : y - ⌊y⌋ = 1 / 2 := by linarith
      right
      split
      · next h => exact ⟨by rw [e]; norm_num, h⟩
      · next h =>
        refine ⟨?_, ?_⟩
        · push_cast
          rw [show y - (⌊y⌋ + 1) = -(1 / 2) by linarith]; norm_num
        · exact Int.even_add_one.2 h

theorem nearestEven_near (y : ℝ) : |nearestEven y - y| ≤ 1 / 2 := by
  rw [abs_sub_comm]
  rcases nearestEven_spec y with h | h
  · exact h.le
  · exact h.1.le

theorem nearestEven_unique {y : ℝ} {n : ℤ} (h : |y - n| < 1 / 2 ∨ (|y - n| = 1 / 2 ∧ Even n)) : nearestEven y = n := by
  have h' := nearestEven_spec y
  set m := nearestEven y
  by_contra hne
  have hd : (1 : ℝ) ≤ |(m : ℝ) - n| := by
    have : 1 ≤ |m - n| := Int.one_le_abs (sub_ne_zero.2 hne)
    exact_mod_cast this
  have ht : |(m : ℝ) - n| ≤ |y - n| + |y - m| := by
    have := abs_sub_abs_le_abs_sub (0 : ℝ) 0
    calc |(m : ℝ) - n| = |(y - n) - (y - m)| := by ring_nf
      _ ≤ |y - n| + |y - m| := abs_sub _ _
  rcases h with h | ⟨h, he⟩ <;> rcases h' with h' | ⟨h', he'⟩
  · linarith
  · linarith
  · linarith
  · have e : |(m : ℝ) - n| = 1 := by linarith
    have e' : |m - n| = 1 := by exact_mod_cast e
    have : Even (m - n) := he'.sub he
    rcases (abs_eq (by norm_num : (0 : ℤ) ≤ 1)).1 e' with h0 | h0 <;> rw [h0] at this <;> revert this <;> decide

@[simp] theorem nearestEven_int (n : ℤ) : nearestEven n = n := nearestEven_unique (.inl (by simp))

theorem nearestEven_neg (y : ℝ) : nearestEven (-y) = -nearestEven y := by
  apply nearestEven_unique
  have : |(-y) - ((-nearestEven y : ℤ) : ℝ)| = |y - nearestEven y| := by
    push_cast
    rw [← abs_neg]; ring_nf
  rw [this]
  rcases nearestEven_spec y with h | ⟨h, he⟩
  · exact .inl h
  · exact .inr ⟨h, he.neg⟩

theorem nearestEven_mono {y z : ℝ} (h : y ≤ z) : nearestEven y ≤ nearestEven z := by
  by_contra hc
  push_neg at hc
  have hy := abs_le.1 (nearestEven_near y)
  have hz := abs_le.1 (nearestEven_near z)
  have hc' : (nearestEven z : ℝ) + 1 ≤ nearestEven y := by exact_mod_cast hc
  have e : y = z := by linarith
  rw [e] at hc
  exact lt_irrefl _ hc

/-! ## Rounding -/

theorem two_zpow_pos (e : ℤ) : (0 : ℝ) < 2 ^ e := zpow_pos (by norm_num) e

theorem expo_ge (x : ℝ) : -149 ≤ expo x := le_max_right _ _

theorem expo_neg (x : ℝ) : expo (-x) = expo x := by simp [expo]

theorem rnd_neg (x : ℝ) : rnd (-x) = -rnd x := by
  unfold rnd
  rw [expo_neg, neg_div, nearestEven_neg]
  push_cast
  ring

@[simp] theorem rnd_zero : rnd 0 = 0 := by
  unfold rnd
  rw [zero_div]
  have := nearestEven_int 0
  simp only [Int.cast_zero] at this
  rw [this]; simp

theorem expo_mono {x y : ℝ} (hx : 0 < |x|) (h : |x| ≤ |y|) : expo x ≤ expo y :=
  max_le_max (by have := Int.log_mono_right (b := 2) hx h; omega) le_rfl

/-- The significand fits into 24 bits. -/
theorem abs_lt_expo (x : ℝ) : |x| < 2 ^ (expo x + 24) := by
  have h := Int.lt_zpow_succ_log_self (b := 2) (by norm_num) |x|
  push_cast at h
  refine h.trans_le (zpow_le_zpow_right₀ (by norm_num) ?_)
  have := le_max_left (Int.log 2 |x| - 23) (-149)
  unfold expo
  omega

/-- The first bit of the significand is set unless the exponent is the smallest. -/
theorem expo_le_abs {x : ℝ} (h0 : x ≠ 0) (h : -149 < expo x) : (2 : ℝ) ^ (expo x + 23) ≤ |x| := by
  have e : expo x = Int.log 2 |x| - 23 := by
    unfold expo at h ⊢
    rcases max_choice (Int.log 2 |x| - 23) (-149) with h0 | h0 <;> omega
  have hx : 0 < |x| := abs_pos.2 h0
  have := Int.zpow_log_le_self (b := 2) (by norm_num) hx
  push_cast at this
  rw [e, show Int.log 2 |x| - 23 + 23 = Int.log 2 |x| by ring]
  exact this

theorem rnd_near (x : ℝ) : |rnd x - x| ≤ 2 ^ expo x / 2 := by
  have hq := two_zpow_pos (expo x)
  have e : rnd x - x = (nearestEven (x / 2 ^ expo x) - x / 2 ^ expo x) * 2 ^ expo x := by
    unfold rnd
    field_simp
  rw [e, abs_mul, abs_of_pos hq]
  have := nearestEven_near (x / 2 ^ expo x)
  nlinarith

/-- A multiple of the quantum. -/
theorem rnd_of_mul {m : ℤ} {e : ℤ} {x : ℝ} (he : expo x ≤ e) (hx : x = m * 2 ^ e) : rnd x = x := by
  have hq := two_zpow_pos (expo x)
  have hd : x / 2 ^ expo x = ((m * 2 ^ (e - expo x).toNat : ℤ) : ℝ) := by
    have e1 : (2 : ℝ) ^ e = 2 ^ (e - expo x).toNat * 2 ^ expo x := by
      rw [← zpow_natCast (2 : ℝ), ← zpow_add₀ (by norm_num : (2 : ℝ) ≠ 0), Int.toNat_of_nonneg (by omega), sub_add_cancel]
    rw [div_eq_iff hq.ne']
    push_cast
    rw [mul_assoc, ← e1]
    exact hx
  unfold rnd
  rw [hd, nearestEven_int, ← hd, div_mul_cancel₀ _ hq.ne']

/-- Numbers with at most 24 significant bits are not changed. -/
theorem rnd_exact {m : ℤ} {e : ℤ} (hm : |m| ≤ 2 ^ 24) (he : -149 ≤ e) : rnd (m * 2 ^ e) = m * 2 ^ e := by
  rcases eq_or_ne m 0 with h0 | h0
  · subst h0; simp
  have hx : (0 : ℝ) < |(m : ℝ) * 2 ^ e| := abs_pos.2 (mul_ne_zero (by exact_mod_cast h0) (two_zpow_pos e).ne')
  have ha : |(m : ℝ) * 2 ^ e| = |(m : ℝ)| * 2 ^ e := by rw [abs_mul, abs_of_pos (two_zpow_pos e)]
  have hm' : |(m : ℝ)| ≤ 2 ^ 24 := by exact_mod_cast hm
  rcases eq_or_lt_of_le hm with h1 | h1
  · -- a power of two
    have ea : |(m : ℝ) * 2 ^ e| = 2 ^ (e + 24) := by
      rw [ha, show |(m : ℝ)| = 2 ^ 24 by exact_mod_cast h1, zpow_add₀ (by norm_num)]; norm_num; ring
    have el : Int.log 2 |(m : ℝ) * 2 ^ e| = e + 24 := by
      rw [ea]
      have := Int.log_zpow (R := ℝ) (b := 2) (by norm_num) (e + 24)
      push_cast at this
      exact this
    have ee : expo (m * 2 ^ e) = e + 1 := by
      unfold expo; rw [el]; omega
    have hev : ∃ k : ℤ, m = 2 * k := by
      rcases (abs_eq (by norm_num : (0 : ℤ) ≤ 2 ^ 24)).1 h1 with h2 | h2
      · exact ⟨2 ^ 23, by rw [h2]; norm_num⟩
      · exact ⟨-2 ^ 23, by rw [h2]; norm_num⟩
    obtain ⟨k, hk⟩ := hev
    refine rnd_of_mul (m := k) (e := e + 1) (by rw [ee]) ?_
    rw [hk, zpow_add₀ (by norm_num)]
    push_cast
    ring
  · refine rnd_of_mul (m := m) (e := e) ?_ rfl
    have hlt : |(m : ℝ) * 2 ^ e| < 2 ^ (e + 24) := by
      rw [ha, zpow_add₀ (by norm_num : (2 : ℝ) ≠ 0), mul_comm]
      have : |(m : ℝ)| < 2 ^ 24 := by exact_mod_cast h1
      have hq := two_zpow_pos e
      norm_num at this ⊢
      linarith [mul_lt_mul_of_pos_left this hq]
    have hl : Int.log 2 |(m : ℝ) * 2 ^ e| < e + 24 := by
      have := (Int.lt_zpow_iff_log_lt (b := 2) (by norm_num) hx (x := e + 24)).1 (by push_cast; exact hlt)
      exact this
    unfold expo
    exact max_le (by omega) he

/-- Integers of up to 24 bits are floats. -/
theorem rnd_int {m : ℤ} (hm : |m| ≤ 2 ^ 24) : rnd m = m := by
  have := rnd_exact (e := 0) hm (by norm_num)
  simpa using this

theorem rnd_pow {e : ℤ} (he : -149 ≤ e) : rnd (2 ^ e) = 2 ^ e := by
  have := rnd_exact (m := 1) (e := e) (by norm_num) he
  simpa using this

theorem rnd_mono_nonneg {x y : ℝ} (hx : 0 ≤ x) (h : x ≤ y) : rnd x ≤ rnd y := by
  rcases eq_or_lt_of_le hx with h0 | hx
  · subst h0
    rw [rnd_zero]
    unfold rnd
    have hq := two_zpow_pos (expo y)
    have : (0 : ℤ) ≤ nearestEven (y / 2 ^ expo y) := by
      have := nearestEven_mono (y := 0) (z := y / 2 ^ expo y) (by positivity)
      have h0 := nearestEven_int 0
      simp only [Int.cast_zero] at h0
      rwa [h0] at this
    have : (0 : ℝ) ≤ nearestEven (y / 2 ^ expo y) := by exact_mod_cast this
    positivity
  · have hy : 0 < y := hx.trans_le h
    have hex : expo x ≤ expo y := expo_mono (abs_pos.2 hx.ne') (by rwa [abs_of_pos hx, abs_of_pos hy])
    rcases eq_or_lt_of_le hex with he | he
    · unfold rnd
      rw [he]
      have hq := two_zpow_pos (expo y)
      have := nearestEven_mono (div_le_div_of_nonneg_right h hq.le)
      have : (nearestEven (x / 2 ^ expo y) : ℝ) ≤ nearestEven (y / 2 ^ expo y) := by exact_mod_cast this
      nlinarith
    · have h1 := abs_lt_expo x
      have h2 := expo_le_abs hy.ne' (lt_of_le_of_lt (expo_ge x) he)
      rw [abs_of_pos hx] at h1
      rw [abs_of_pos hy] at h2
      have hqx := two_zpow_pos (expo x)
      have hqy := two_zpow_pos (expo y)
      have ex : rnd x ≤ 2 ^ (expo x + 24) := by
        unfold rnd
        have : x / 2 ^ expo x ≤ ((2 ^ 24 : ℤ) : ℝ) := by
          rw [div_le_iff₀ hqx]
          rw [zpow_add₀ (by norm_num)] at h1
          norm_num at h1 ⊢
          linarith
        have := nearestEven_mono this
        rw [nearestEven_int] at this
        have : (nearestEven (x / 2 ^ expo x) : ℝ) ≤ 2 ^ 24 := by exact_mod_cast this
        rw [zpow_add₀ (by norm_num)]
        norm_num at this ⊢
        nlinarith
      have ey : 2 ^ (expo y + 23) ≤ rnd y := by
        unfold rnd
        have : ((2 ^ 23 : ℤ) : ℝ) ≤ y / 2 ^ expo y := by
          rw [le_div_iff₀ hqy]
          rw [zpow_add₀ (by norm_num)] at h2
          norm_num at h2 ⊢
          linarith
        have := nearestEven_mono this
        rw [nearestEven_int] at this
        have : (2 ^ 23 : ℝ) ≤ nearestEven (y / 2 ^ expo y) := by exact_mod_cast this
        rw [zpow_add₀ (by norm_num)]
        norm_num at this ⊢
        nlinarith
      exact ex.trans ((zpow_le_zpow_right₀ (by norm_num) (by omega)).trans ey)

theorem rnd_nonneg {x : ℝ} (h : 0 ≤ x) : 0 ≤ rnd x := by
  have := rnd_mono_nonneg le_rfl h
  rwa [rnd_zero] at this

/-- Rounding keeps the order. -/
theorem rnd_mono {x y : ℝ} (h : x ≤ y) : rnd x ≤ rnd y := by
  rcases le_total 0 x with hx | hx
  · exact rnd_mono_nonneg hx h
  · rcases le_total 0 y with hy | hy
    · have h1 := rnd_nonneg hy
      have h2 := rnd_nonneg (x := -x) (by linarith)
      rw [rnd_neg] at h2
      linarith
    · have := rnd_mono_nonneg (x := -y) (y := -x) (by linarith) (by linarith)
      rw [rnd_neg, rnd_neg] at this
      linarith

theorem rnd_nonpos {x : ℝ} (h : x ≤ 0) : rnd x ≤ 0 := by
  have := rnd_mono h
  rwa [rnd_zero] at this

/-- Rounding gives a float (up to overflow). -/
theorem rnd_rnd (x : ℝ) : rnd (rnd x) = rnd x := by
  have hq := two_zpow_pos (expo x)
  have h := abs_lt_expo x
  have hb : |x / 2 ^ expo x| < 2 ^ 24 := by
    rw [abs_div, abs_of_pos hq, div_lt_iff₀ hq]
    rw [zpow_add₀ (by norm_num)] at h
    norm_num at h ⊢
    linarith
  have hn : |nearestEven (x / 2 ^ expo x)| ≤ 2 ^ 24 := by
    rw [abs_lt] at hb
    have h1 := nearestEven_mono (z := ((2 ^ 24 : ℤ) : ℝ)) (y := x / 2 ^ expo x) (by push_cast; norm_num at hb ⊢; exact hb.2.le)
    have h2 := nearestEven_mono (y := ((-2 ^ 24 : ℤ) : ℝ)) (z := x / 2 ^ expo x) (by push_cast; norm_num at hb ⊢; exact hb.1.le)
    rw [nearestEven_int] at h1 h2
    exact abs_le.2 ⟨h2, h1⟩
  exact rnd_exact hn (expo_ge x)

/-- The error of rounding: relative, or absolute for numbers near zero. -/
theorem rnd_error (x : ℝ) : |rnd x - x| ≤ |x| * 2 ^ (-24 : ℤ) ∨ |rnd x - x| ≤ 2 ^ (-150 : ℤ) := by
  rcases eq_or_ne x 0 with h0 | h0
  · subst h0; left; simp
  have h := rnd_near x
  rcases eq_or_lt_of_le (expo_ge x) with he | he
  · right
    rw [← he] at h
    rw [show (-150 : ℤ) = -149 - 1 by norm_num, zpow_sub₀ (by norm_num)]
    simpa using h
  · left
    have h2 := expo_le_abs h0 he
    refine h.trans ?_
    have e : (2 : ℝ) ^ expo x / 2 = 2 ^ (expo x + 23) * 2 ^ (-24 : ℤ) := by
      rw [← zpow_add₀ (by norm_num), show expo x + 23 + -24 = expo x - 1 by ring, zpow_sub₀ (by norm_num)]
      norm_num
    rw [e]
    exact mul_le_mul_of_nonneg_right h2 (two_zpow_pos _).le

theorem rnd_error_add (x : ℝ) : |rnd x - x| ≤ |x| * 2 ^ (-24 : ℤ) + 2 ^ (-150 : ℤ) := by
  rcases rnd_error x with h | h
  · exact h.trans (le_add_of_nonneg_right (two_zpow_pos _).le)
  · exact h.trans (le_add_of_nonneg_left (mul_nonneg (abs_nonneg _) (two_zpow_pos _).le))

/-- The relative error, for numbers that are not tiny. -/
theorem rnd_relative {x : ℝ} (h : 2 ^ (-126 : ℤ) ≤ |x|) : |rnd x - x| ≤ |x| * 2 ^ (-24 : ℤ) := by
  rcases rnd_error x with h1 | h1
  · exact h1
  · refine h1.trans ?_
    calc (2 : ℝ) ^ (-150 : ℤ) = 2 ^ (-126 : ℤ) * 2 ^ (-24 : ℤ) := by
          rw [← zpow_add₀ (by norm_num)]; norm_num
      _ ≤ _ := mul_le_mul_of_nonneg_right h (two_zpow_pos _).le

/-- The error of rounding a number of at most `X`. -/
theorem rnd_scale {x X : ℝ} (hx : |x| ≤ X) (hX : 2 ^ (-126 : ℤ) ≤ X) : |rnd x - x| ≤ X * 2 ^ (-24 : ℤ) := by
  have hu : (0 : ℝ) < 2 ^ (-24 : ℤ) := two_zpow_pos _
  rcases rnd_error x with h | h
  · exact h.trans (mul_le_mul_of_nonneg_right hx hu.le)
  · refine h.trans ?_
    calc (2 : ℝ) ^ (-150 : ℤ) = 2 ^ (-126 : ℤ) * 2 ^ (-24 : ℤ) := by
          rw [← zpow_add₀ (by norm_num)]; norm_num
      _ ≤ _ := mul_le_mul_of_nonneg_right hX hu.le

/-- Numbers between two floats stay there. -/
theorem rnd_between {a b x : ℝ} (ha : rnd a = a) (hb : rnd b = b) (h1 : a ≤ x) (h2 : x ≤ b) : a ≤ rnd x ∧ rnd x ≤ b :=
  ⟨by rw [← ha]; exact rnd_mono h1, by rw [← hb]; exact rnd_mono h2⟩

end Moovr.Float32
