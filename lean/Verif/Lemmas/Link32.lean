import Verif.Lemmas.Phase32
/-!
# `AccDec` in single precision computes the distances of `Ramp`
-/
namespace Moovr
open Num Float32 Single

theorem lit_zero32 : (Arith.lit 0 : Single) = num 0 := by rw [lit_num]; simp
theorem lit_half32 : (Arith.lit (1 / 2) : Single) = num (1 / 2) := by
  rw [lit_num]; push_cast; rw [rnd_half]
theorem lit_sixth32 : (Arith.lit (1 / 6) : Single) = num (rnd (1 / 6)) := by
  rw [lit_num]; push_cast; rfl

/-- The phase computes the distances of the ramp. -/
structure Computes (p : AccDec Single) (r : Ramp) : Prop where
  s : ∀ t, p.s (num t) = num (r.dist t)
  length : p.length = num r.len
  duration : p.duration = num r.dur

/-- The members of a calculated phase that speeds up. -/
structure Members (p : AccDec Single) (r : Ramp) (sign : ℝ) (hs : sign = 1 ∨ sign = -1) : Prop where
  vStart : p.vStart = num r.v0
  vEnd : p.vEnd = num r.v1
  jMax : p.jMax = num (sign * r.J)
  acc : (if sign = 1 then p.aMax else p.dMax) = num r.A
  dV1 : p.dV1 = num r.dV1
  s1 : p.s1 = num r.s1
  length : p.length = num r.len
  d1d3 : p.d1d3 = num r.D
  d2 : p.d2 = num r.d2
  duration : p.duration = num r.dur
  order : decide (r.v0 < r.v1) = decide (sign = 1)

theorem cube32_neg (J t : ℝ) : cube32 (-J) t = -cube32 J t := by
  unfold cube32
  simp only [neg_mul, rnd_neg]

theorem cube_num (J t : ℝ) : num J * num t * num t * num t * num (rnd (1 / 6)) = num (cube32 J t) := rfl

theorem Members.computes_up {p : AccDec Single} {r : Ramp} (h : Members p r 1 (.inl rfl)) : Computes p r := by
  refine ⟨fun t => ?_, h.length, h.duration⟩
  have hA : p.aMax = num r.A := by have := h.acc; rwa [if_pos rfl] at this
  have ho : (r.v0 < r.v1) := by have := h.order; simpa using this
  have hJ : p.jMax = num r.J := by rw [h.jMax, one_mul]
  unfold AccDec.s
  simp only [h.vStart, h.vEnd, hJ, hA, h.dV1, h.s1, h.length, h.d1d3, h.d2, h.duration, arith_lt_num, ho, decide_true, if_true,
    lit_half32, lit_sixth32, num_add, num_sub, cube_num, decide_eq_true_eq]
  simp only [num_mul, num_add, num_sub]
  unfold Ramp.dist
  rw [show rnd (r.D + r.d2) = r.mark from rfl]
  split_ifs
  · rfl
  · rfl
  · rfl

theorem Members.computes_down {p : AccDec Single} {r : Ramp} (h : Members p r (-1) (.inr rfl)) : Computes p r := by
  refine ⟨fun t => ?_, h.length, h.duration⟩
  have hne : ¬ ((-1 : ℝ) = 1) := by norm_num
  have hA : p.dMax = num r.A := by have := h.acc; rwa [if_neg hne] at this
  have ho : ¬ (r.v0 < r.v1) := by have := h.order; simp only [hne, decide_false, decide_eq_false_iff_not] at this; exact this
  have hJ : p.jMax = num (-r.J) := by rw [h.jMax]; congr 1; ring
  unfold AccDec.s
  simp only [h.vStart, h.vEnd, hJ, hA, h.dV1, h.s1, h.length, h.d1d3, h.d2, h.duration, arith_lt_num, ho, decide_false,
    lit_half32, lit_sixth32, num_add, num_sub, cube_num, decide_eq_true_eq, Bool.false_eq_true, if_false, cube32_neg]
  simp only [num_mul, num_add, num_sub, sub_neg_eq_add, ← sub_eq_add_neg]
  unfold Ramp.dist
  rw [show rnd (r.D + r.d2) = r.mark from rfl]
  split_ifs
  · rfl
  · rfl
  · rfl

variable {V a j : ℝ}

namespace Ramp

theorem members_up {p : AccDec Single} (hs : Sizes V a j) (h0 : p.vStart = num 0) (h1 : p.vEnd = num V) (h2 : p.aMax = num a)
    (h3 : p.jMax = num j) (o : Order) : Members (p.calculate o) (up V a j o) 1 (.inl rfl) := by
  have hV := hs.V_pos
  have ha := hs.a_pos
  have hj := hs.j_pos
  cases o with
  | firstOrder =>
    have hd : (up V a j .firstOrder).dur = rnd (V / a) := by
      simp only [dur, up, parts]; rw [zero_add, add_zero, rnd_rnd, rnd_rnd]
    simp only [AccDec.calculate, AccDec.calculateFirst, h0, h1, h2, arith_lt_num, hV, decide_true, if_true, num_sub, sub_zero,
      hs.V_float, num_div ha.ne', lit_zero32, lit_half32, num_add, num_mul]
    refine ⟨rfl, rfl, by simpa [up] using h3, ?_, ?_, ?_, ?_, rfl, rfl, ?_, ?_⟩
    · simp [up, parts]
    · simp [dV1, up, parts]
    · simp [s1, up, parts, cube32_zero]
    · rw [len, hd]; simp [up]
    · rw [hd]
    · simp [up, hV]
  | secondOrder =>
    simp only [AccDec.calculate, h0, h1, arith_lt_num, hV, decide_true, if_true]
    unfold AccDec.calculateAcc
    simp only [h0, h1, h2, h3, arith_lt_num, num_sub, sub_zero,
      hs.V_float, num_div ha.ne', num_div hj.ne', lit_zero32, lit_half32, num_mul, decide_eq_true_eq, sqrt_num (rnd_nonneg (show 0 ≤ V / j by positivity))]
    by_cases h : V < rnd (rnd (j * rnd (a / j)) * rnd (a / j))
    · simp only [if_pos h, AccDec.finishSecond, lit_sixth32, lit_half32]
      refine ⟨rfl, rfl, by simp [up], ?_, ?_, ?_, ?_, ?_, ?_, ?_, ?_⟩ <;>
        simp only [up, parts, if_pos h, dV1, s1, len, dur, if_true, hV, decide_true] <;> rfl
    · simp only [if_neg h, AccDec.finishSecond, lit_sixth32, lit_half32]
      refine ⟨rfl, rfl, by simp [up], ?_, ?_, ?_, ?_, ?_, ?_, ?_, ?_⟩ <;>
        simp only [up, parts, if_neg h, dV1, s1, len, dur, if_true, hV, decide_true] <;> rfl

theorem members_down {p : AccDec Single} (hs : Sizes V a j) (h0 : p.vStart = num V) (h1 : p.vEnd = num 0) (h2 : p.dMax = num (-a))
    (h3 : p.jMax = num j) (o : Order) : Members (p.calculate o) (down V a j o) (-1) (.inr rfl) := by
  have hV := hs.V_pos
  have ha := hs.a_pos
  have hj := hs.j_pos
  have hV' : ¬ V < 0 := not_lt.2 hV.le
  have hne : ¬ ((-1 : ℝ) = 1) := by norm_num
  cases o with
  | firstOrder =>
    have hd : (down V a j .firstOrder).dur = rnd (V / a) := by
      simp only [dur, down, parts]; rw [zero_add, add_zero, rnd_rnd, rnd_rnd]
    simp only [AccDec.calculate, AccDec.calculateFirst, h0, h1, h2, arith_lt_num, hV', decide_false, Bool.false_eq_true, if_false,
      num_sub, zero_sub, rnd_neg, neg_div_neg_eq,
      hs.V_float, num_div (neg_ne_zero.2 ha.ne'), lit_zero32, lit_half32, num_add, num_mul]
    refine ⟨rfl, rfl, by simpa [down] using h3, ?_, ?_, ?_, ?_, rfl, rfl, ?_, ?_⟩
    · simp [down, parts, hne]
    · simp [dV1, down, parts]
    · simp [s1, down, parts, cube32_zero]
    · rw [len, hd]; simp [down]
    · rw [hd]
    · simp [down, hV', hne]
  | secondOrder =>
    simp only [AccDec.calculate, h0, h1, arith_lt_num, hV', decide_false, Bool.false_eq_true, if_false]
    unfold AccDec.calculateDec
    simp only [h0, h1, h2, h3, arith_lt_num, num_sub, sub_zero, zero_sub, num_neg, neg_neg,
      hs.V_float, num_div ha.ne', num_div hj.ne', num_div (neg_ne_zero.2 ha.ne'), lit_zero32, lit_half32, num_mul, num_add, decide_eq_true_eq, sqrt_num (rnd_nonneg (show 0 ≤ V / j by positivity))]
    by_cases h : V < rnd (rnd (j * rnd (a / j)) * rnd (a / j))
    · simp only [if_pos h, AccDec.finishSecond, lit_sixth32, lit_half32]
      refine ⟨rfl, rfl, by simp [down], ?_, ?_, ?_, ?_, ?_, ?_, ?_, ?_⟩ <;>
        simp only [down, parts, if_pos h, dV1, s1, len, dur, if_false, hV', decide_false, hne, cube32_neg, ← sub_eq_add_neg] <;>
        first | rfl | simp only [num_neg, num_mul] | simp only [neg_mul, rnd_neg]
    · have e : rnd (-V) = -V := by rw [rnd_neg, hs.V_float]
      have e2 : rnd (rnd (-V) + rnd (rnd (j * rnd (a / j)) * rnd (a / j))) / -a =
          rnd (V - rnd (rnd (j * rnd (a / j)) * rnd (a / j))) / a := by
        rw [e, neg_add_eq_sub, ← neg_sub, rnd_neg, neg_div_neg_eq]
      simp only [if_neg h, AccDec.finishSecond, lit_sixth32, lit_half32, e2]
      refine ⟨rfl, rfl, by simp [down], ?_, ?_, ?_, ?_, ?_, ?_, ?_, ?_⟩ <;>
        simp only [down, parts, if_neg h, dV1, s1, len, dur, if_false, hV', decide_false, hne, cube32_neg, ← sub_eq_add_neg] <;>
        first | rfl | simp only [num_neg, num_mul] | simp only [neg_mul, rnd_neg]

end Ramp
end Moovr
