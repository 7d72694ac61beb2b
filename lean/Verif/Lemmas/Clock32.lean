import Verif.Lemmas.Run32
import Verif.Lemmas.Course32
/-!
# The clock of the 3-axis machine in single precision
-/
namespace Moovr
open Num Float32 Single Ramp

/-- The width of a sample: 1/60000 s, rounded. -/
noncomputable def width32 : ℝ := rnd (1 / 60000)

theorem width32_near : (1 - eps) / 60000 ≤ width32 ∧ width32 ≤ (1 + eps) / 60000 := by
  have := rnd_scale (x := 1 / 60000) (X := 1 / 60000) (by rw [abs_of_pos (by norm_num)]) (by rw [zpow_neg]; norm_num)
  rw [eps_eq] at this
  have := abs_le.1 this
  unfold width32
  constructor <;> linarith

theorem width32_pos : 0 < width32 := by have := width32_near.1; unfold eps at this; norm_num at this; linarith

theorem reading32_float (fpu : Fpu) (w : ℝ) (k : Nat) : rnd (reading32 fpu w k) = reading32 fpu w k := by
  unfold reading32 mulAddR; split <;> exact rnd_rnd _

theorem reading32_zero (fpu : Fpu) (w : ℝ) : reading32 fpu w 0 = 0 := by
  unfold reading32 mulAddR; split <;> simp [rnd_zero]

theorem reading32_mono (fpu : Fpu) {w : ℝ} (hw : 0 ≤ w) : Monotone (reading32 fpu w) := by
  refine monotone_nat_of_le_succ fun k => mulAddR_mono fpu (mul_le_mul_of_nonneg_right (rnd_mono ?_) hw) le_rfl
  push_cast; linarith

theorem reading32_near (fpu : Fpu) (k : Nat) : |reading32 fpu width32 k - k * width32| ≤ k * width32 * (4 * eps) := by
  rcases Nat.eq_zero_or_pos k with rfl | hk
  · rw [reading32_zero]; simp
  · have hk1 : (1 : ℝ) ≤ k := by exact_mod_cast hk
    have hw := width32_near
    have hw0 := width32_pos
    have hi := rnd_scale (x := (k : ℝ)) (X := k) (by rw [abs_of_nonneg (by positivity)])
      (by rw [zpow_neg]; refine le_trans ?_ hk1; norm_num)
    rw [eps_eq] at hi
    have hi' := abs_le.1 hi
    have hr1 : 1 ≤ rnd (k : ℝ) := by
      have := rnd_mono hk1
      have h0 := rnd_int (m := 1) (by norm_num)
      simp only [Int.cast_one] at h0
      rwa [h0] at this
    have hb : (2 : ℝ) ^ (-126 : ℤ) ≤ rnd (k : ℝ) * width32 := by
      have : (2 : ℝ) ^ (-126 : ℤ) ≤ 1 * width32 := by
        have h1 : (2 : ℝ) ^ (-126 : ℤ) ≤ 1 / 120000 := by rw [zpow_neg]; norm_num
        unfold eps at hw; norm_num at hw ⊢; linarith
      exact this.trans (mul_le_mul_of_nonneg_right hr1 hw0.le)
    have he := mulAddR_error fpu (rnd k) width32 0 (B := rnd k * width32) (by rw [abs_of_nonneg (by positivity)]) hb
    rw [eps_eq, abs_zero, add_zero, add_zero] at he
    unfold reading32
    have h1 : rnd (k : ℝ) * width32 ≤ (1 + eps) * (k * width32) := by
      have := mul_le_mul_of_nonneg_right (show rnd (k : ℝ) ≤ (1 + eps) * k by linarith) hw0.le
      linarith
    have h2 : (1 - eps) * (k * width32) ≤ rnd (k : ℝ) * width32 := by
      have := mul_le_mul_of_nonneg_right (show (1 - eps) * k ≤ rnd (k : ℝ) by linarith) hw0.le
      linarith
    have hkw : 0 < (k : ℝ) * width32 := by positivity
    have he := abs_le.1 he
    generalize (k : ℝ) * width32 = z at *
    generalize rnd (k : ℝ) * width32 = z' at *
    generalize mulAddR fpu (rnd ↑k) width32 0 = m at *
    rw [abs_le]
    unfold eps at *
    constructor <;> linarith

namespace Straight32
variable {x d : Nat → ℝ} {L v D : ℝ} {S : ℝ → ℝ}

/-- Within a tick an axis moves little, in exact arithmetic. -/
theorem Law.hop (h : Straight32 x d L) (hv : Speed d L v) (hl : Law d L v D S) {fpu : Fpu} {i k : Nat} (hi : i < 3)
    (hk : reading32 fpu width32 k ≤ D) :
    |dir d L i| * (v * (reading32 fpu width32 (k + 1) - reading32 fpu width32 k)) ≤ 7 / 10000 := by
  have a := abs_le.1 (reading32_near fpu k)
  have b := abs_le.1 (reading32_near fpu (k + 1))
  have hw := width32_near
  have hw0 := width32_pos
  have hv0 : 0 < v := lt_of_lt_of_le (by norm_num) hv.ge
  have hd := abs_nonneg (dir d L i)
  have hdv : |dir d L i| * v ≤ 30001 / 1000 :=
    (mul_le_mul_of_nonneg_right (dir_top hi) hv0.le).trans (h.speed_top hv)
  have hdv0 : 0 ≤ |dir d L i| * v := by positivity
  obtain ⟨-, -, s3⟩ := h.sizes hv hi
  have hlen := h.dir_length hi
  have hD : |dir d L i| * v * D ≤ 3785 / 10 := by
    have := mul_le_mul_of_nonneg_left hl.brief hd
    linarith
  push_cast at b
  have hkw : (k : ℝ) * width32 ≤ 1001 / 1000 * D := by
    have := hl.pos
    unfold eps at a
    linarith
  have hkw0 : 0 ≤ (k : ℝ) * width32 := by positivity
  have hstep : reading32 fpu width32 (k + 1) - reading32 fpu width32 k ≤ 17 / 10 ^ 6 + 5 / 10 ^ 7 * D := by
    have := hl.pos
    unfold eps at a b hw
    norm_num at a b hw ⊢
    linarith
  have h1 := mul_le_mul_of_nonneg_left hstep hdv0
  rw [← mul_assoc]
  norm_num at h1 ⊢
  linarith

/-- A bound of the duration. -/
theorem Law.duration_le (h : Straight32 x d L) (hv : Speed d L v) (hl : Law d L v D S) : D ≤ 102 / 100 * (rnd L / v) + 242 / 100 := by
  have hv0 : 0 < v := lt_of_lt_of_le (by norm_num) hv.ge
  have h1 := hl.brief
  have h2 : Props.rampDistance v (acc d L) (acc d L) 600 = v * (205 / 100 * rise v (acc d L)) := rfl
  have h3 := (h.rise_le hv).1
  rw [h2] at h1
  have h4 : v * D ≤ v * (102 / 100 * (rnd L / v) + 242 / 100) := by
    have e : v * (102 / 100 * (rnd L / v) + 242 / 100) = 102 / 100 * rnd L + v * (242 / 100) := by field_simp
    rw [e]
    have := mul_le_mul_of_nonneg_left h3 hv0.le
    linarith
  exact le_of_mul_le_mul_left h4 hv0

/-- The clock passes the duration. -/
theorem exists_past (fpu : Fpu) (hD : 0 < D) : ∃ k : Nat, (k : ℝ) ≤ 60010 * D + 2 ∧ D < reading32 fpu width32 k := by
  refine ⟨⌈60010 * D⌉₊ + 1, ?_, ?_⟩
  · have := Nat.ceil_lt_add_one (show 0 ≤ 60010 * D by positivity)
    push_cast; linarith
  · have h1 := Nat.le_ceil (60010 * D)
    have a := abs_le.1 (reading32_near fpu (⌈60010 * D⌉₊ + 1))
    have hw := width32_near.1
    have hk : 60010 * D + 1 ≤ ((⌈60010 * D⌉₊ + 1 : ℕ) : ℝ) := by push_cast; linarith
    generalize ((⌈60010 * D⌉₊ + 1 : ℕ) : ℝ) = k at *
    have h2 : (60010 * D + 1) * ((1 - eps) / 60000) ≤ k * width32 :=
      mul_le_mul hk hw (by unfold eps; norm_num) (by linarith)
    unfold eps at *
    norm_num at *
    linarith

end Straight32
end Moovr
