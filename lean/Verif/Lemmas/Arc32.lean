import Mathlib.Analysis.SpecialFunctions.Trigonometric.Bounds
import Verif.Lemmas.Early32
/-!
# Arcs on the 3-axis machine in single precision: positions
-/
namespace Moovr
open Num Float32 Single

/-- A circular arc: its two axes, centre, start angle, sweep and radius. -/
structure Curve where
  i0 : Nat
  i1 : Nat
  c0 : ℝ
  c1 : ℝ
  θ : ℝ
  φ : ℝ
  ρ : ℝ

/-- An arc (with a straight motion in the third axis) in the workspace of the machine (in mm), from `x` by `d`; its length is `L`. -/
structure Arc32 (A : Curve) (x d : Nat → ℝ) (L : ℝ) : Prop where
  axes : A.i0 < 3 ∧ A.i1 < 3 ∧ A.i0 ≠ A.i1
  long : 1 / 256 ≤ L
  short : L ≤ 420
  radius : 1 / 64 ≤ A.ρ ∧ A.ρ ≤ 100
  angle : |A.θ| ≤ 4
  sweep : |A.φ| ≤ 7
  chord : A.ρ * |A.φ| ≤ L
  centre : |A.c0| ≤ 400 ∧ |A.c1| ≤ 400
  start : ∀ i, i < 3 → i ≠ A.i0 → i ≠ A.i1 → |x i| ≤ 300
  stop : ∀ i, i < 3 → i ≠ A.i0 → i ≠ A.i1 → |x i + d i| ≤ 300
  span : ∀ i, i < 3 → i ≠ A.i0 → i ≠ A.i1 → |d i| ≤ 300 ∧ |d i| ≤ L
  inside : ∀ u, 0 ≤ u → u ≤ 1 → |A.c0 + A.ρ * Real.cos (A.θ + A.φ * u)| ≤ 300 ∧ |A.c1 + A.ρ * Real.sin (A.θ + A.φ * u)| ≤ 300

namespace Arc32

/-- The position of an axis at a distance from the start. -/
noncomputable def point (A : Curve) (x d : Nat → ℝ) (L : ℝ) (i : Nat) (s : ℝ) : ℝ :=
  if i = A.i0 then A.c0 + A.ρ * Real.cos (A.θ + A.φ / L * s)
  else if i = A.i1 then A.c1 + A.ρ * Real.sin (A.θ + A.φ / L * s)
  else x i + d i / L * s

/-- The same, as computed. -/
noncomputable def spot (fpu : Fpu) (A : Curve) (x d : Nat → ℝ) (L : ℝ) (i : Nat) (s : ℝ) : ℝ :=
  if i = A.i0 then mulAddR fpu (rnd A.ρ) (fpu.cos (mulAddR fpu (rnd (A.φ / L)) s (rnd A.θ))) (rnd A.c0)
  else if i = A.i1 then mulAddR fpu (rnd A.ρ) (fpu.sin (mulAddR fpu (rnd (A.φ / L)) s (rnd A.θ))) (rnd A.c1)
  else mulAddR fpu (rnd (d i / L)) s (rnd (x i))

variable {A : Curve} {x d : Nat → ℝ} {L : ℝ} {fpu : Fpu}

theorem L_pos (h : Arc32 A x d L) : 0 < L := lt_of_lt_of_le (by norm_num) h.long

theorem ρ_pos (h : Arc32 A x d L) : 0 < A.ρ := lt_of_lt_of_le (by norm_num) h.radius.1

theorem rate_le (h : Arc32 A x d L) : A.ρ * |A.φ / L| ≤ 1 := by
  rw [abs_div, abs_of_pos h.L_pos, ← mul_div_assoc, div_le_one h.L_pos]
  exact h.chord

/-- On the path, an axis moves at most as far as the distance travelled. -/
theorem point_lipschitz (h : Arc32 A x d L) {i : Nat} (hi : i < 3) (s s' : ℝ) :
    |point A x d L i s - point A x d L i s'| ≤ |s - s'| := by
  have hr := h.rate_le
  have h0 := h.ρ_pos
  have key : ∀ f : ℝ → ℝ, (∀ a b, |f a - f b| ≤ |a - b|) → ∀ c : ℝ,
      |c + A.ρ * f (A.θ + A.φ / L * s) - (c + A.ρ * f (A.θ + A.φ / L * s'))| ≤ |s - s'| := by
    intro f hf c
    rw [add_sub_add_left_eq_sub, ← mul_sub, abs_mul, abs_of_pos h0]
    have h1 := hf (A.θ + A.φ / L * s) (A.θ + A.φ / L * s')
    rw [add_sub_add_left_eq_sub, ← mul_sub, abs_mul] at h1
    have h2 := mul_le_mul_of_nonneg_left h1 h0.le
    rw [← mul_assoc] at h2
    exact h2.trans (mul_le_of_le_one_left (abs_nonneg _) hr)
  unfold point
  split_ifs with e0 e1
  · exact key _ Real.abs_cos_sub_cos_le _
  · exact key _ Real.abs_sin_sub_sin_le _
  · rw [add_sub_add_left_eq_sub, ← mul_sub, abs_mul, abs_div, abs_of_pos h.L_pos]
    refine mul_le_of_le_one_left (abs_nonneg _) ?_
    rw [div_le_one h.L_pos]
    exact (h.span i hi e0 e1).2

/-- One of the two coordinates on the circle. -/
theorem circle_near (h : Arc32 A x d L) {f g : ℝ → ℝ} (hf : ∀ a b, |f a - f b| ≤ |a - b|) (hf1 : ∀ a, |f a| ≤ 1)
    (hg : ∀ y, |y| ≤ 16 → |g y - f y| ≤ 1 / 2 ^ 23) {c s : ℝ} (hc : |c| ≤ 400) (hs : |s| ≤ L + 1 / 1000) :
    |mulAddR fpu (rnd A.ρ) (g (mulAddR fpu (rnd (A.φ / L)) s (rnd A.θ))) (rnd c) - (c + A.ρ * f (A.θ + A.φ / L * s))| ≤ 4300 / 2 ^ 24 := by
  have hL := h.L_pos
  have hρ := h.ρ_pos
  have hn := Straight32.tiny_small
  have hn0 := tiny_pos
  have hlen := h.short
  have hρ' := h.radius
  norm_num at hn
  -- the angle
  have q64 : |A.φ / L| ≤ 64 := by
    have h1 := h.rate_le
    have h2 := mul_le_mul_of_nonneg_right hρ'.1 (abs_nonneg (A.φ / L))
    linarith
  have qL : |A.φ / L| * L ≤ 7 := by
    rw [abs_div, abs_of_pos hL, div_mul_cancel₀ _ hL.ne']; exact h.sweep
  have qs : |A.φ / L| * |s| ≤ 7065 / 1000 := by
    have := mul_le_mul_of_nonneg_left hs (abs_nonneg (A.φ / L))
    linarith
  have hs421 : |s| ≤ 421 := by linarith
  have a1 : |rnd (A.φ / L) * s - A.φ / L * s| ≤ 7066 / 1000 * eps := by
    rw [← sub_mul, abs_mul]
    have h1 := mul_le_mul_of_nonneg_right (rnd_err (A.φ / L)) (abs_nonneg s)
    have h2 : tiny * |s| ≤ tiny * 421 := mul_le_mul_of_nonneg_left hs421 hn0.le
    unfold eps at *
    linarith
  have a2 : |rnd (A.φ / L) * s| ≤ 7066 / 1000 := by
    have := abs_add_le (A.φ / L * s) (rnd (A.φ / L) * s - A.φ / L * s)
    rw [add_sub_cancel, abs_mul (A.φ / L)] at this
    unfold eps at *
    linarith
  have a3 : |rnd A.θ - A.θ| ≤ 401 / 100 * eps := by
    have h1 := rnd_err A.θ
    have h2 := h.angle
    unfold eps at *
    linarith
  have a4 : |rnd A.θ| ≤ 401 / 100 := by
    have := abs_add_le A.θ (rnd A.θ - A.θ)
    rw [add_sub_cancel] at this
    have h2 := h.angle
    unfold eps at *
    linarith
  have a5 := mulAddR_error fpu (rnd (A.φ / L)) s (rnd A.θ) a2 (by rw [zpow_neg]; norm_num)
  rw [eps_eq] at a5
  have a6 : |mulAddR fpu (rnd (A.φ / L)) s (rnd A.θ) - (A.θ + A.φ / L * s)| ≤ 2940 / 100 * eps := by
    have h1 := abs_le.1 a1
    have h3 := abs_le.1 a3
    have h5 := abs_le.1 a5
    rw [abs_le]
    unfold eps at *
    constructor <;> linarith
  generalize mulAddR fpu (rnd (A.φ / L)) s (rnd A.θ) = α at *
  have a7 : |α| ≤ 16 := by
    have h1 := abs_add_le (A.θ + A.φ / L * s) (α - (A.θ + A.φ / L * s))
    rw [add_sub_cancel] at h1
    have h2 := abs_add_le A.θ (A.φ / L * s)
    rw [abs_mul] at h2
    have h3 := h.angle
    unfold eps at *
    linarith
  -- the function
  have b1 : |g α - f (A.θ + A.φ / L * s)| ≤ 3141 / 100 * eps := by
    have h1 := hg α a7
    have h2 := hf α (A.θ + A.φ / L * s)
    have h3 := abs_add_le (g α - f α) (f α - f (A.θ + A.φ / L * s))
    rw [sub_add_sub_cancel] at h3
    unfold eps at *
    norm_num at h1
    linarith
  have b2 : |g α| ≤ 101 / 100 := by
    have h1 := abs_add_le (f (A.θ + A.φ / L * s)) (g α - f (A.θ + A.φ / L * s))
    rw [add_sub_cancel] at h1
    have h2 := hf1 (A.θ + A.φ / L * s)
    unfold eps at *
    linarith
  generalize g α = y at *
  generalize f (A.θ + A.φ / L * s) = z at *
  -- radius and centre
  have c1 : |rnd A.ρ - A.ρ| ≤ 1001 / 10 * eps := by
    have h1 := rnd_err A.ρ
    rw [abs_of_pos hρ] at h1
    unfold eps at *
    linarith
  have c2 : |rnd A.ρ * y - A.ρ * z| ≤ 3245 * eps := by
    have e : rnd A.ρ * y - A.ρ * z = (rnd A.ρ - A.ρ) * y + A.ρ * (y - z) := by ring
    rw [e]
    refine (abs_add_le _ _).trans ?_
    rw [abs_mul, abs_mul, abs_of_pos hρ]
    have h1 := mul_le_mul c1 b2 (abs_nonneg _) (by have := eps_pos; positivity)
    have h2 := mul_le_mul hρ'.2 b1 (abs_nonneg _) (by norm_num)
    unfold eps at *
    linarith
  have c3 : |rnd A.ρ * y| ≤ 102 := by
    rw [abs_mul]
    have h1 := abs_add_le A.ρ (rnd A.ρ - A.ρ)
    rw [add_sub_cancel, abs_of_pos hρ] at h1
    have h2 : |rnd A.ρ| ≤ 1001 / 10 := by unfold eps at *; linarith
    have h3 := mul_le_mul h2 b2 (abs_nonneg _) (by norm_num)
    linarith
  have c4 : |rnd c - c| ≤ 4001 / 10 * eps := by
    have h1 := rnd_err c
    unfold eps at *
    linarith
  have c5 : |rnd c| ≤ 4001 / 10 := by
    have h1 := abs_add_le c (rnd c - c)
    rw [add_sub_cancel] at h1
    unfold eps at *
    linarith
  have c6 := mulAddR_error fpu (rnd A.ρ) y (rnd c) c3 (by rw [zpow_neg]; norm_num)
  rw [eps_eq] at c6
  have h2 := abs_le.1 c2
  have h4 := abs_le.1 c4
  have h6 := abs_le.1 c6
  rw [abs_le]
  unfold eps at *
  norm_num at *
  constructor <;> linarith

/-- The computed positions are near those on the path. -/
theorem spot_near (h : Arc32 A x d L) {i : Nat} (hi : i < 3) {s : ℝ} (hs : |s| ≤ L + 1 / 1000) :
    |spot fpu A x d L i s - point A x d L i s| ≤ 4300 / 2 ^ 24 := by
  unfold spot point
  split_ifs with e0 e1
  · exact h.circle_near Real.abs_cos_sub_cos_le Real.abs_cos_le_one fpu.cos_near h.centre.1 hs
  · exact h.circle_near Real.abs_sin_sub_sin_le Real.abs_sin_le_one fpu.sin_near h.centre.2 hs
  · have hL := h.L_pos
    have hn := Straight32.tiny_small
    have hn0 := tiny_pos
    norm_num at hn
    have hlen := h.short
    obtain ⟨s1, s2⟩ := h.span i hi e0 e1
    have hs421 : |s| ≤ 421 := by linarith
    have q1 : |d i / L| ≤ 1 := by rw [abs_div, abs_of_pos hL, div_le_one hL]; exact s2
    have qL : |d i / L| * L ≤ 300 := by
      rw [abs_div, abs_of_pos hL, div_mul_cancel₀ _ hL.ne']; exact s1
    have qs : |d i / L| * |s| ≤ 300001 / 1000 := by
      have := mul_le_mul_of_nonneg_left hs (abs_nonneg (d i / L))
      linarith
    have a1 : |rnd (d i / L) * s - d i / L * s| ≤ 301 * eps := by
      rw [← sub_mul, abs_mul]
      have h1 := mul_le_mul_of_nonneg_right (rnd_err (d i / L)) (abs_nonneg s)
      have h2 : tiny * |s| ≤ tiny * 421 := mul_le_mul_of_nonneg_left hs421 hn0.le
      unfold eps at *
      linarith
    have a2 : |rnd (d i / L) * s| ≤ 301 := by
      have := abs_add_le (d i / L * s) (rnd (d i / L) * s - d i / L * s)
      rw [add_sub_cancel, abs_mul (d i / L)] at this
      unfold eps at *
      linarith
    have a3 : |rnd (x i) - x i| ≤ 301 * eps := by
      have h1 := rnd_err (x i)
      have h2 := h.start i hi e0 e1
      unfold eps at *
      linarith
    have a4 : |rnd (x i)| ≤ 301 := by
      have := abs_add_le (x i) (rnd (x i) - x i)
      rw [add_sub_cancel] at this
      have h2 := h.start i hi e0 e1
      unfold eps at *
      linarith
    have a5 := mulAddR_error fpu (rnd (d i / L)) s (rnd (x i)) a2 (by rw [zpow_neg]; norm_num)
    rw [eps_eq] at a5
    have h1 := abs_le.1 a1
    have h3 := abs_le.1 a3
    have h5 := abs_le.1 a5
    rw [abs_le]
    unfold eps at *
    norm_num at *
    constructor <;> linarith

/-- The path is in the workspace. -/
theorem point_inside (h : Arc32 A x d L) {i : Nat} (hi : i < 3) {s : ℝ} (h0 : 0 ≤ s) (h1 : s ≤ L) : |point A x d L i s| ≤ 300 := by
  have hL := h.L_pos
  have q0 : 0 ≤ s / L := by positivity
  have q1 : s / L ≤ 1 := by rw [div_le_one hL]; exact h1
  have e : A.φ / L * s = A.φ * (s / L) := by field_simp
  unfold point
  rw [e]
  split_ifs with e0 e1
  · exact (h.inside _ q0 q1).1
  · exact (h.inside _ q0 q1).2
  · have a := h.start i hi e0 e1
    have b := h.stop i hi e0 e1
    have e' : x i + d i / L * s = (1 - s / L) * x i + (s / L) * (x i + d i) := by field_simp; ring
    rw [e']
    generalize s / L = u at *
    rw [abs_le] at a b ⊢
    constructor <;> nlinarith

end Arc32
end Moovr
