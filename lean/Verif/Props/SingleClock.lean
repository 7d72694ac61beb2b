import Verif.Lemmas.Single
/-!
# Property C93: the clock in single precision

`sampleTime::next` computes the time from the number of samples with `float` arithmetic. Here rounding is taken into account
(C66 uses exact arithmetic).
-/
namespace Moovr.Props
open Num Float32 Single MotionCtrl

/-- The sample time at the beginning of a motion: no samples yet, samples of width `w`, the first at `w + z`. -/
structure ClockStart {M : Machine} {fpu : Fpu} (t : SampleTime (M.kit32 fpu)) (w z : ℝ) : Prop where
  index : t.sampleIndex = 0
  width : t.minStepPulseWidth = num w
  offset : t.sampleZeroOffset = num z

/-- The time after `k` more samples. -/
noncomputable def clock {M : Machine} {fpu : Fpu} (t : SampleTime (M.kit32 fpu)) (k : Nat) : Single :=
  (SampleTime.next^[k] t).timeInMotion

private noncomputable def reading (fpu : Fpu) (w z : ℝ) (k : Nat) : ℝ := mulAddR fpu (rnd k) w z

private theorem iterate_next {M : Machine} {fpu : Fpu} {t : SampleTime (M.kit32 fpu)} {w z : ℝ} (h : ClockStart t w z)
    (k : Nat) (hk : k < 2 ^ 32) :
    (SampleTime.next^[k] t).sampleIndex = k ∧ (SampleTime.next^[k] t).minStepPulseWidth = num w ∧
    (SampleTime.next^[k] t).sampleZeroOffset = num z := by
  induction k with
  | zero => exact ⟨h.index, h.width, h.offset⟩
  | succ k ih =>
    obtain ⟨h1, h2, h3⟩ := ih (by omega)
    rw [Function.iterate_succ_apply']
    refine ⟨?_, h2, h3⟩
    simp only [SampleTime.next, h1, u32add]
    omega

private theorem clock_eq {M : Machine} {fpu : Fpu} {t : SampleTime (M.kit32 fpu)} {w z : ℝ} (h : ClockStart t w z)
    (k : Nat) (hk : k + 1 < 2 ^ 32) : clock t (k + 1) = num (reading fpu w z (k + 1)) := by
  obtain ⟨h1, h2, h3⟩ := iterate_next h k (by omega)
  unfold clock
  rw [Function.iterate_succ_apply']
  have e : u32add (SampleTime.next^[k] t).sampleIndex 1 = k + 1 := by
    rw [h1]; simp only [u32add]; omega
  show (M.kit32 fpu).sample (u32add (SampleTime.next^[k] t).sampleIndex 1) _ _ = _
  rw [e, h2, h3]
  exact mulAdd_num _ _ _ _

/-- Error of a reading: one rounding of the index (none up to 2^24), and the two of the multiplication and addition. -/
private theorem reading_error (fpu : Fpu) {w z : ℝ} (hw : 2 ^ (-126 : ℤ) ≤ w) (hz : 0 ≤ z) {k : Nat} (hk : 1 ≤ k)
    {r : ℝ} (hr : rnd k = r) (hr0 : 0 ≤ r) (h1 : 1 ≤ r) :
    |reading fpu w z k - (r * w + z)| ≤ (r * w + z) * (2 * 2 ^ (-24 : ℤ) + 2 ^ (-24 : ℤ) * 2 ^ (-24 : ℤ)) := by
  have hw0 : 0 < w := (two_zpow_pos _).trans_le hw
  have hb : 2 ^ (-126 : ℤ) ≤ r * w := by nlinarith
  have := mulAddR_error fpu r w z (B := r * w) (by rw [abs_of_nonneg (by positivity)]) hb
  unfold reading
  rw [hr]
  refine this.trans ?_
  rw [abs_of_nonneg hz]
  have hu : (0 : ℝ) < 2 ^ (-24 : ℤ) := two_zpow_pos _
  nlinarith [mul_nonneg hu.le hz, mul_nonneg (mul_nonneg hu.le hu.le) hz]

/-- **C93** In single precision, with or without contracted operations: the clock never goes back; every reading is within a relative
error of `2^-22` of the exact time `k w + z`; and as long as a motion has had fewer than `2^22` samples (69 s at 60 kHz), the
clock advances at every sample, if the offset is at most one sample. -/
theorem clock_single {M : Machine} {fpu : Fpu} {t : SampleTime (M.kit32 fpu)} {w z : ℝ} (h : ClockStart t w z)
    (hw : 2 ^ (-126 : ℤ) ≤ w) (hz : 0 ≤ z) :
    ∃ x : Nat → ℝ, (∀ k, 1 ≤ k → k < 2 ^ 32 → clock t k = num (x k)) ∧
      (∀ k, 1 ≤ k → k < 2 ^ 32 → |x k - (k * w + z)| ≤ (k * w + z) * 2 ^ (-22 : ℤ)) ∧
      (∀ k, x k ≤ x (k + 1)) ∧
      (z ≤ w → ∀ k, 1 ≤ k → k + 2 ≤ 2 ^ 22 → x k < x (k + 1)) := by
  have hw0 : 0 < w := (two_zpow_pos _).trans_le hw
  have hu : (2 : ℝ) ^ (-24 : ℤ) = 1 / 16777216 := by norm_num [zpow_neg]
  refine ⟨reading fpu w z, ?_, ?_, ?_, ?_⟩
  · intro k h1 hk
    obtain ⟨k, rfl⟩ : ∃ j, k = j + 1 := ⟨k - 1, by omega⟩
    exact clock_eq h k hk
  · intro k h1 hk
    have hk1 : (1 : ℝ) ≤ k := by exact_mod_cast h1
    have hr1 : 1 ≤ rnd (k : ℝ) := by
      have := rnd_mono hk1
      have h0 := rnd_int (m := 1) (by norm_num)
      simp only [Int.cast_one] at h0
      rwa [h0] at this
    have he := reading_error fpu hw hz h1 rfl (by linarith) hr1
    have hi := rnd_scale (x := (k : ℝ)) (X := k) (by rw [abs_of_nonneg (by positivity)])
      (by rw [zpow_neg]; refine le_trans ?_ hk1; norm_num)
    have hi' := abs_le.1 hi
    have h5 : |rnd (k : ℝ) * w + z - (k * w + z)| ≤ k * w * 2 ^ (-24 : ℤ) := by
      rw [show rnd (k : ℝ) * w + z - (k * w + z) = (rnd (k : ℝ) - k) * w by ring, abs_mul, abs_of_pos hw0]
      nlinarith
    have h6 := abs_le.1 h5
    have h7 := abs_le.1 he
    have hkw : 0 < (k : ℝ) * w := by positivity
    rw [show ((2 : ℝ) ^ (-22 : ℤ)) = 1 / 4194304 by norm_num [zpow_neg]]
    rw [hu] at h6 h7
    rw [abs_le]
    constructor <;> nlinarith
  · intro k
    refine mulAddR_mono fpu ?_ le_rfl
    refine mul_le_mul_of_nonneg_right (rnd_mono ?_) hw0.le
    push_cast; linarith
  · intro hzw k h1 hk
    have e : ∀ j : Nat, j ≤ 2 ^ 22 → rnd (j : ℝ) = j := by
      intro j hj
      have := rnd_int (m := (j : ℤ)) (by rw [abs_of_nonneg (by positivity)]; exact_mod_cast hj.trans (by norm_num))
      simpa using this
    have hk1 : (1 : ℝ) ≤ k := by exact_mod_cast h1
    have a := reading_error fpu hw hz h1 (e k (by omega)) (by positivity) hk1
    have b := reading_error fpu hw hz (k := k + 1) (by omega) (e (k + 1) (by omega)) (by positivity)
      (by push_cast; linarith)
    have hk2 : (k : ℝ) + 2 ≤ 4194304 := by
      have : ((k + 2 : Nat) : ℝ) ≤ ((2 ^ 22 : Nat) : ℝ) := by exact_mod_cast hk
      push_cast at this; norm_num at this; exact this
    rw [hu] at a b
    have a := (abs_le.1 a).2
    have b := (abs_le.1 b).1
    push_cast at b
    -- the sum of the errors is less than one sample
    have hs : ((k : ℝ) * w + z + (((k : ℝ) + 1) * w + z)) ≤ 8388607 * w := by nlinarith
    nlinarith

/-- C93 does not hold for all sample numbers: after `2^24` samples (280 s at 60 kHz) the clock stands still for one sample. -/
theorem clock_advances_violated {M : Machine} {fpu : Fpu} {t : SampleTime (M.kit32 fpu)} {w z : ℝ}
    (h : ClockStart t w z) : clock t (2 ^ 24 + 1) = clock t (2 ^ 24) := by
  rw [clock_eq h (2 ^ 24) (by norm_num), show (2 : Nat) ^ 24 = (2 ^ 24 - 1) + 1 by norm_num,
    clock_eq h (2 ^ 24 - 1) (by norm_num)]
  congr 1
  unfold reading
  congr 1
  have h0 : rnd (((2 ^ 24 : ℤ)) : ℝ) = ((2 ^ 24 : ℤ) : ℝ) := rnd_int (by norm_num)
  have h1 : rnd ((2 ^ 24 + 1 : ℝ)) = 2 ^ 24 := by
    have hl : Int.log 2 |(2 ^ 24 + 1 : ℝ)| = 24 := by
      rw [abs_of_pos (by norm_num)]
      have := Int.log_natCast (R := ℝ) 2 (2 ^ 24 + 1)
      push_cast at this
      rw [show (2 ^ 24 + 1 : ℝ) = 16777217 by norm_num, this]
      have h2 : Nat.log 2 16777217 = 24 := by
        rw [Nat.log_eq_iff (by norm_num)]; norm_num
      rw [h2]; norm_num
    have he : expo (2 ^ 24 + 1) = 1 := by unfold expo; rw [hl]; norm_num
    unfold rnd
    rw [he]
    have hn : nearestEven ((2 ^ 24 + 1) / 2 ^ (1 : ℤ)) = 2 ^ 23 :=
      nearestEven_unique (.inr ⟨by norm_num [abs_of_pos], by decide⟩)
    rw [hn]; norm_num
  push_cast at h0 ⊢
  norm_num at h0 h1 ⊢
  rw [h0, h1]

/-- The clock of a controller on the 3-axis machine (samples of 1/60000 s, rounded) meets the conditions. -/
example : ∃ t : SampleTime (Machine.kit32 ⟨3, fun _ => 200, 1 / 20, fun _ => 30, fun _ => 200, fun _ => -200, 600, 0, fun _ => 0⟩
    (.correct true)), ClockStart t (rnd (1 / 60000)) 0 ∧ (2 : ℝ) ^ (-126 : ℤ) ≤ rnd (1 / 60000) := by
  refine ⟨⟨num 0, num 0, 0, num (rnd (1 / 60000))⟩, ⟨rfl, rfl, rfl⟩, ?_⟩
  have h := rnd_mono (x := 2 ^ (-126 : ℤ)) (y := 1 / 60000) (by norm_num [zpow_neg])
  rwa [rnd_pow (by norm_num)] at h

end Moovr.Props
