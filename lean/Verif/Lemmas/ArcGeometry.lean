import Mathlib.Analysis.SpecialFunctions.Complex.Arg
import Mathlib.Tactic.Linarith
import Mathlib.Tactic.LinearCombination
import Mathlib.Tactic.FieldSimp
import Mathlib.Tactic.Ring
/-!
# Plane geometry of arcs
-/
namespace Moovr.Arc

/-- The swept angle from direction `θ` to direction `η`, clockwise or counter-clockwise. -/
noncomputable def sweep (cw : Bool) (θ η : ℝ) : ℝ :=
  if cw then (if 0 ≤ η - θ then η - θ - 2 * Real.pi else η - θ) else (if η - θ ≤ 0 then η - θ + 2 * Real.pi else η - θ)

theorem polar (x y : ℝ) : x = √(x ^ 2 + y ^ 2) * Real.cos (Complex.arg ⟨x, y⟩) ∧ y = √(x ^ 2 + y ^ 2) * Real.sin (Complex.arg ⟨x, y⟩) := by
  have hn : ‖(⟨x, y⟩ : ℂ)‖ = √(x ^ 2 + y ^ 2) := by
    rw [Complex.norm_def, Complex.normSq_apply]
    congr 1
    ring
  have h1 := Complex.norm_mul_cos_arg ⟨x, y⟩
  have h2 := Complex.norm_mul_sin_arg ⟨x, y⟩
  rw [hn] at h1 h2
  exact ⟨h1.symm, h2.symm⟩

theorem sweep_cw {z w : ℂ} : -(2 * Real.pi) ≤ sweep true z.arg w.arg ∧ sweep true z.arg w.arg < 0 := by
  have h1 := Complex.neg_pi_lt_arg z
  have h2 := Complex.arg_le_pi z
  have h3 := Complex.neg_pi_lt_arg w
  have h4 := Complex.arg_le_pi w
  unfold sweep
  rw [if_pos rfl]
  split_ifs with h <;> constructor <;> linarith [Real.pi_pos]

theorem sweep_ccw {z w : ℂ} : 0 < sweep false z.arg w.arg ∧ sweep false z.arg w.arg ≤ 2 * Real.pi := by
  have h1 := Complex.neg_pi_lt_arg z
  have h2 := Complex.arg_le_pi z
  have h3 := Complex.neg_pi_lt_arg w
  have h4 := Complex.arg_le_pi w
  unfold sweep
  rw [if_neg (by decide)]
  split_ifs with h <;> constructor <;> linarith [Real.pi_pos]

theorem sweep_cos (cw : Bool) (θ η : ℝ) : Real.cos (θ + sweep cw θ η) = Real.cos η := by
  unfold sweep
  split_ifs
  · rw [show θ + (η - θ - 2 * Real.pi) = η - 2 * Real.pi by ring, Real.cos_sub_two_pi]
  · rw [show θ + (η - θ) = η by ring]
  · rw [show θ + (η - θ + 2 * Real.pi) = η + 2 * Real.pi by ring, Real.cos_add_two_pi]
  · rw [show θ + (η - θ) = η by ring]

theorem sweep_sin (cw : Bool) (θ η : ℝ) : Real.sin (θ + sweep cw θ η) = Real.sin η := by
  unfold sweep
  split_ifs
  · rw [show θ + (η - θ - 2 * Real.pi) = η - 2 * Real.pi by ring, Real.sin_sub_two_pi]
  · rw [show θ + (η - θ) = η by ring]
  · rw [show θ + (η - θ + 2 * Real.pi) = η + 2 * Real.pi by ring, Real.sin_add_two_pi]
  · rw [show θ + (η - θ) = η by ring]

/-- The centre of an arc through the origin and `(d0, d1)`, of radius `r`, at side `σ` (1 or -1) of the chord. -/
theorem center {d0 d1 r σ : ℝ} (hd : 0 < d0 ^ 2 + d1 ^ 2) (hr : d0 ^ 2 + d1 ^ 2 ≤ 4 * r ^ 2) (hσ : σ ^ 2 = 1) :
    let k := σ * (√(4 * r * r - d0 * d0 - d1 * d1) * (1 / 2) / √(d0 * d0 + d1 * d1))
    (d0 * (1 / 2) - d1 * k) ^ 2 + (d1 * (1 / 2) + d0 * k) ^ 2 = r ^ 2 ∧
    (d0 - (d0 * (1 / 2) - d1 * k)) ^ 2 + (d1 - (d1 * (1 / 2) + d0 * k)) ^ 2 = r ^ 2 := by
  intro k
  have e1 : √(4 * r * r - d0 * d0 - d1 * d1) ^ 2 = 4 * r * r - d0 * d0 - d1 * d1 := Real.sq_sqrt (by nlinarith)
  have e2 : √(d0 * d0 + d1 * d1) ^ 2 = d0 * d0 + d1 * d1 := Real.sq_sqrt (by nlinarith)
  have hne : d0 * d0 + d1 * d1 ≠ 0 := by nlinarith
  have hk : k ^ 2 * (d0 * d0 + d1 * d1) = (4 * r * r - d0 * d0 - d1 * d1) / 4 := by
    show (σ * (√(4 * r * r - d0 * d0 - d1 * d1) * (1 / 2) / √(d0 * d0 + d1 * d1))) ^ 2 * _ = _
    rw [mul_pow, hσ, div_pow, mul_pow, e1, e2]
    field_simp
    ring
  constructor <;> linear_combination hk

/-- The arc around this centre is at most a half turn on one side of the chord and at least a half turn on the other. -/
theorem short_or_long {a b c d r : ℝ} (hr : 0 < r) (h1 : a ^ 2 + b ^ 2 = r ^ 2) (h2 : c ^ 2 + d ^ 2 = r ^ 2) (hne : (a, b) ≠ (c, d)) :
    (0 ≤ a * d - b * c → sweep false (Complex.arg ⟨a, b⟩) (Complex.arg ⟨c, d⟩) ≤ Real.pi ∧
      sweep true (Complex.arg ⟨a, b⟩) (Complex.arg ⟨c, d⟩) ≤ -Real.pi) ∧
    (a * d - b * c ≤ 0 → Real.pi ≤ sweep false (Complex.arg ⟨a, b⟩) (Complex.arg ⟨c, d⟩) ∧
      -Real.pi ≤ sweep true (Complex.arg ⟨a, b⟩) (Complex.arg ⟨c, d⟩)) := by
  obtain ⟨p1, p2⟩ := polar a b
  obtain ⟨p3, p4⟩ := polar c d
  rw [h1, Real.sqrt_sq hr.le] at p1 p2
  rw [h2, Real.sqrt_sq hr.le] at p3 p4
  generalize hθ : Complex.arg ⟨a, b⟩ = θ at *
  generalize hη : Complex.arg ⟨c, d⟩ = η at *
  have b1 : -Real.pi < θ ∧ θ ≤ Real.pi := by rw [← hθ]; exact ⟨Complex.neg_pi_lt_arg _, Complex.arg_le_pi _⟩
  have b2 : -Real.pi < η ∧ η ≤ Real.pi := by rw [← hη]; exact ⟨Complex.neg_pi_lt_arg _, Complex.arg_le_pi _⟩
  have hcross : a * d - b * c = r ^ 2 * Real.sin (η - θ) := by
    rw [Real.sin_sub, p1, p2, p3, p4]; ring
  have hdiff : η ≠ θ := by
    rintro rfl
    exact hne (by rw [p1, p2, p3, p4])
  have hr2 : 0 < r ^ 2 := by positivity
  unfold sweep
  constructor
  · intro hc
    have hs : 0 ≤ Real.sin (η - θ) := by
      rw [hcross] at hc
      exact nonneg_of_mul_nonneg_right hc hr2
    -- η - θ in (0, π] or in [-2π, -π]
    have : (0 < η - θ ∧ η - θ ≤ Real.pi) ∨ (η - θ ≤ -Real.pi) := by
      by_cases h0 : 0 ≤ η - θ
      · left
        refine ⟨lt_of_le_of_ne h0 (fun h => hdiff (by linarith)), ?_⟩
        by_contra hgt
        have : Real.sin (η - θ - 2 * Real.pi) < 0 := Real.sin_neg_of_neg_of_neg_pi_lt (by linarith) (by linarith)
        rw [Real.sin_sub_two_pi] at this
        linarith
      · right
        by_contra hgt
        have : Real.sin (η - θ) < 0 := Real.sin_neg_of_neg_of_neg_pi_lt (by linarith) (by linarith)
        linarith
    simp only [Bool.false_eq_true, if_false, if_true]
    constructor <;> split_ifs <;> rcases this with ⟨h, h'⟩ | h <;> linarith [Real.pi_pos]
  · intro hc
    have hs : Real.sin (η - θ) ≤ 0 := by
      rw [hcross] at hc
      exact nonpos_of_mul_nonpos_right hc hr2
    have : (η - θ < 0 ∧ -Real.pi ≤ η - θ) ∨ (Real.pi ≤ η - θ) := by
      by_cases h0 : η - θ ≤ 0
      · left
        refine ⟨lt_of_le_of_ne h0 (fun h => hdiff (by linarith)), ?_⟩
        by_contra hgt
        have : 0 < Real.sin (η - θ + 2 * Real.pi) := Real.sin_pos_of_pos_of_lt_pi (by linarith) (by linarith)
        rw [Real.sin_add_two_pi] at this
        linarith
      · right
        by_contra hgt
        have : 0 < Real.sin (η - θ) := Real.sin_pos_of_pos_of_lt_pi (by linarith) (by linarith)
        linarith
    simp only [Bool.false_eq_true, if_false, if_true]
    constructor <;> split_ifs <;> rcases this with ⟨h, h'⟩ | h <;> linarith [Real.pi_pos]

end Moovr.Arc
