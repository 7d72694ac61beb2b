import Verif.Lemmas.Float32
import Verif.Lemmas.Num
import Verif.Lemmas.Steps
import Verif.Model.Single
/-!
# Arithmetic in single precision: ordinary numbers
-/
namespace Moovr
open Num Float32

namespace Single

theorem num_inj {x y : ℝ} (h : num x = num y) : x = y := fin_injective (congrArg val h)

@[simp] theorem num_add (x y : ℝ) : num x + num y = num (rnd (x + y)) := rfl
@[simp] theorem num_sub (x y : ℝ) : num x - num y = num (rnd (x - y)) := by
  show (⟨round32 (fin x - fin y)⟩ : Single) = _
  rw [fin_sub]; rfl
@[simp] theorem num_mul (x y : ℝ) : num x * num y = num (rnd (x * y)) := rfl
theorem num_div {x y : ℝ} (h : y ≠ 0) : num x / num y = num (rnd (x / y)) := by
  show (⟨round32 (fin x / fin y)⟩ : Single) = _
  rw [fin_div h]; rfl
@[simp] theorem num_neg (x : ℝ) : -num x = num (-x) := rfl
@[simp] theorem lit_num (q : ℚ) : (Arith.lit q : Single) = num (rnd q) := rfl
theorem sqrt_num {x : ℝ} (h : 0 ≤ x) : (Arith.sqrt (num x) : Single) = num (rnd (√x)) := by
  show (⟨round32 (fin x).sqrt⟩ : Single) = _
  rw [sqrt_fin h]; rfl
@[simp] theorem lt_num (x y : ℝ) : (num x).lt (num y) = decide (x < y) := lt_fin x y
@[simp] theorem arith_lt_num (x y : ℝ) : Arith.lt (num x) (num y) = decide (x < y) := lt_fin x y
@[simp] theorem le_num (x y : ℝ) : (num x).le (num y) = decide (x ≤ y) := le_fin x y
@[simp] theorem eq_num (x y : ℝ) : (num x).eq (num y) = decide (x = y) := eq_fin x y
@[simp] theorem ofNum_fin (x : ℝ) : ofNum (fin x) = num (rnd x) := rfl
@[simp] theorem num_val (x : ℝ) : (num x).val = fin x := rfl

/-- `a * b + c` on numbers. -/
noncomputable def mulAddR (fpu : Fpu) (a b c : ℝ) : ℝ := if fpu.contract then rnd (a * b + c) else rnd (rnd (a * b) + c)

theorem mulAdd_num (fpu : Fpu) (a b c : ℝ) : mulAdd fpu (num a) (num b) (num c) = num (mulAddR fpu a b c) := by
  unfold mulAdd mulAddR; split <;> rfl

theorem mulSub_num (fpu : Fpu) (a b c : ℝ) : mulSub fpu (num a) (num b) (num c) = num (mulAddR fpu a b (-c)) := by
  unfold mulSub mulAddR
  split
  · show (⟨round32 (fin a * fin b - fin c)⟩ : Single) = _
    rw [fin_mul, fin_sub, sub_eq_add_neg]; rfl
  · simp only [num_mul, num_sub, sub_eq_add_neg]

/-- The error of `a * b + c`. -/
theorem mulAddR_error (fpu : Fpu) (a b c : ℝ) {B : ℝ} (hB : |a * b| ≤ B) (h1 : 2 ^ (-126 : ℤ) ≤ B) :
    |mulAddR fpu a b c - (a * b + c)| ≤ 2 ^ (-24 : ℤ) * (2 * B + 2 ^ (-24 : ℤ) * B + |c|) := by
  have hu : (0 : ℝ) < 2 ^ (-24 : ℤ) := two_zpow_pos _
  have hB0 : 0 ≤ B := (abs_nonneg _).trans hB
  unfold mulAddR
  split
  · have := rnd_scale (x := a * b + c) (X := B + |c|) ((abs_add_le _ _).trans (by linarith)) (by linarith [abs_nonneg c])
    have h5 : 0 ≤ 2 ^ (-24 : ℤ) * (B + 2 ^ (-24 : ℤ) * B) := by positivity
    linarith
  · have h2 := rnd_scale hB h1
    have hr : |rnd (a * b)| ≤ B + B * 2 ^ (-24 : ℤ) := by
      have : |rnd (a * b)| ≤ |a * b| + |rnd (a * b) - a * b| := by
        have := abs_add_le (a * b) (rnd (a * b) - a * b)
        simpa using this
      linarith
    have h3 := rnd_scale (x := rnd (a * b) + c) (X := B + B * 2 ^ (-24 : ℤ) + |c|) ((abs_add_le _ _).trans (by linarith))
      (by nlinarith [abs_nonneg c])
    have h4 : |rnd (rnd (a * b) + c) - (a * b + c)| ≤ |rnd (rnd (a * b) + c) - (rnd (a * b) + c)| + |rnd (a * b) - a * b| := by
      have := abs_add_le (rnd (rnd (a * b) + c) - (rnd (a * b) + c)) (rnd (a * b) - a * b)
      refine le_trans (le_of_eq ?_) this
      congr 1; ring
    refine h4.trans ((add_le_add h3 h2).trans (le_of_eq ?_))
    ring

theorem mulAddR_mono (fpu : Fpu) {a b c a' b' c' : ℝ} (h : a * b ≤ a' * b') (hc : c ≤ c') :
    mulAddR fpu a b c ≤ mulAddR fpu a' b' c' := by
  unfold mulAddR
  split
  · exact rnd_mono (by linarith)
  · exact rnd_mono (by linarith [rnd_mono h])

/-- An implementation with correctly rounded functions, with or without contraction. -/
noncomputable def _root_.Moovr.Fpu.correct (contract : Bool) : Fpu where
  contract := contract
  cos x := rnd (Real.cos x)
  sin x := rnd (Real.sin x)
  cos_float _ := rnd_rnd _
  sin_float _ := rnd_rnd _
  cos_near x _ := by
    have := rnd_scale (x := Real.cos x) (X := 1) (Real.abs_cos_le_one x) (by rw [zpow_neg]; norm_num)
    refine this.trans ?_
    norm_num [zpow_neg]
  sin_near x _ := by
    have := rnd_scale (x := Real.sin x) (X := 1) (Real.abs_sin_le_one x) (by rw [zpow_neg]; norm_num)
    refine this.trans ?_
    norm_num [zpow_neg]

end Single

open Single PulseSpec

/-- The decision of an axis in single precision. -/
noncomputable def Machine.choose32 (M : Machine) (fpu : Fpu) (axis : Nat) (p : Single) (m : Int) : Cmd :=
  if M.needStepForward32 fpu axis p m then some .forward
  else if M.needStepBackward32 fpu axis p m then some .backward else none

/-- The position in steps, less (plus) the hysteresis, as computed. -/
noncomputable def Machine.below32 (M : Machine) (fpu : Fpu) (axis : Nat) (p : ℝ) : ℝ :=
  mulAddR fpu p (M.stepsPerMm axis) (-M.hysteresis)

@[inherit_doc Machine.below32]
noncomputable def Machine.above32 (M : Machine) (fpu : Fpu) (axis : Nat) (p : ℝ) : ℝ :=
  mulAddR fpu p (M.stepsPerMm axis) M.hysteresis

theorem needStepForward32_iff {M : Machine} {fpu : Fpu} {axis : Nat} {p : ℝ} {m : Int}
    (hr : |M.below32 fpu axis p| ≤ 2 ^ 31 - 2) :
    M.needStepForward32 fpu axis (num p) m = true ↔ m < roundf (M.below32 fpu axis p) := by
  unfold Machine.needStepForward32
  rw [mulSub_num, num_val, ← Machine.below32, toInt32_round hr, decide_eq_true_eq]

theorem needStepBackward32_iff {M : Machine} {fpu : Fpu} {axis : Nat} {p : ℝ} {m : Int} (hm : |m| ≤ 2 ^ 24) :
    M.needStepBackward32 fpu axis (num p) m = true ↔ roundf (M.above32 fpu axis p) < m := by
  unfold Machine.needStepBackward32
  rw [mulAdd_num, num_val, ← Machine.above32, Num.round, rnd_int hm, lt_fin, decide_eq_true_eq, Int.cast_lt]

theorem choose32_forward {M : Machine} {fpu : Fpu} {axis : Nat} {p : ℝ} {m : Int}
    (hr : |M.below32 fpu axis p| ≤ 2 ^ 31 - 2) (h : M.choose32 fpu axis (num p) m = some .forward) :
    (m : ℝ) + 1 / 2 ≤ M.below32 fpu axis p := by
  unfold Machine.choose32 at h
  split_ifs at h with h1
  · rw [needStepForward32_iff hr] at h1
    have h2 := roundf_le (M.below32 fpu axis p)
    have h3 : (m : ℝ) + 1 ≤ roundf (M.below32 fpu axis p) := by exact_mod_cast h1
    linarith
  · simp at h

theorem choose32_backward {M : Machine} {fpu : Fpu} {axis : Nat} {p : ℝ} {m : Int} (hm : |m| ≤ 2 ^ 24)
    (h : M.choose32 fpu axis (num p) m = some .backward) : M.above32 fpu axis p ≤ (m : ℝ) - 1 / 2 := by
  unfold Machine.choose32 at h
  split_ifs at h with h1 h2
  all_goals first | (simp at h; done) | skip
  rw [needStepBackward32_iff hm] at h2
  have h3 := le_roundf (M.above32 fpu axis p)
  have h4 : (roundf (M.above32 fpu axis p) : ℝ) + 1 ≤ m := by exact_mod_cast h2
  linarith

theorem choose32_none {M : Machine} {fpu : Fpu} {axis : Nat} {p : ℝ} {m : Int} (hm : |m| ≤ 2 ^ 24)
    (hr : |M.below32 fpu axis p| ≤ 2 ^ 31 - 2) (h : M.choose32 fpu axis (num p) m = none) :
    M.below32 fpu axis p ≤ (m : ℝ) + 1 / 2 ∧ (m : ℝ) - 1 / 2 ≤ M.above32 fpu axis p := by
  unfold Machine.choose32 at h
  split_ifs at h with h1 h2
  rw [needStepForward32_iff hr, not_lt] at h1
  rw [needStepBackward32_iff hm, not_lt] at h2
  have h3 := le_roundf (M.below32 fpu axis p)
  have h4 := roundf_le (M.above32 fpu axis p)
  have h5 : (roundf (M.below32 fpu axis p) : ℝ) ≤ m := by exact_mod_cast h1
  have h6 : (m : ℝ) ≤ roundf (M.above32 fpu axis p) := by exact_mod_cast h2
  constructor <;> linarith

end Moovr
