import Verif.Lemmas.SpeedProfile
/-!
# Computing with finite numbers

On finite numbers with non-zero denominators the operations of `Num` are those of the reals.
-/
namespace Moovr
namespace Num

@[simp] theorem fin_add (x y : ℝ) : fin x + fin y = fin (x + y) := rfl
@[simp] theorem fin_neg (x : ℝ) : -fin x = fin (-x) := rfl
@[simp] theorem fin_sub (x y : ℝ) : fin x - fin y = fin (x - y) := by
  show fin x + -fin y = _
  rw [fin_neg, fin_add, sub_eq_add_neg]
@[simp] theorem fin_mul (x y : ℝ) : fin x * fin y = fin (x * y) := rfl
theorem fin_div {x y : ℝ} (h : y ≠ 0) : fin x / fin y = fin (x / y) := by
  show Num.div _ _ = _
  simp [Num.div, h]
theorem fin_div_zero (x : ℝ) : fin x / fin 0 = infOfSign x := by
  show Num.div _ _ = _
  simp [Num.div]
theorem fin_div_zero_pos {x : ℝ} (h : 0 < x) : fin x / fin 0 = posInf := by
  rw [fin_div_zero, infOfSign, if_pos h]
theorem zero_div_zero : fin 0 / fin 0 = nan := by
  rw [fin_div_zero, infOfSign, if_neg (lt_irrefl _), if_neg (lt_irrefl _)]
@[simp] theorem lt_fin (x y : ℝ) : (fin x).lt (fin y) = decide (x < y) := by simp [lt]
@[simp] theorem le_fin (x y : ℝ) : (fin x).le (fin y) = decide (x ≤ y) := by simp [le]
@[simp] theorem eq_fin (x y : ℝ) : (fin x).eq (fin y) = decide (x = y) := by simp [eq]
@[simp] theorem abs_fin (x : ℝ) : (fin x).abs = fin |x| := rfl
@[simp] theorem cos_fin (x : ℝ) : (fin x).cos = fin (Real.cos x) := rfl
@[simp] theorem sin_fin (x : ℝ) : (fin x).sin = fin (Real.sin x) := rfl
theorem sqrt_fin {x : ℝ} (h : 0 ≤ x) : (fin x).sqrt = fin (√x) := by simp [sqrt, not_lt.2 h]
@[simp] theorem arith_lt_fin (x y : ℝ) : (Arith.lt (fin x) (fin y)) = Arith.lt x y := rfl
@[simp] theorem arith_lit (q : ℚ) : (Arith.lit q : Num) = fin (Arith.lit q) := rfl
theorem arith_sqrt {x : ℝ} (h : 0 ≤ x) : Arith.sqrt (fin x) = fin (Arith.sqrt x) := sqrt_fin h
theorem fin_injective {x y : ℝ} (h : fin x = fin y) : x = y := by cases h; rfl

@[simp] theorem ite_fin (c : Prop) [Decidable c] (x y : ℝ) : (if c then fin x else fin y) = fin (if c then x else y) := by
  split_ifs <;> rfl

end Num

open Num
namespace AccDec

/-- A phase with finite members. -/
noncomputable def toNum (p : AccDec ℝ) : AccDec Num :=
  ⟨fin p.vStart, fin p.vEnd, fin p.aMax, fin p.dMax, fin p.jMax, fin p.dV1, fin p.s1, fin p.s2, fin p.s3, fin p.length,
    fin p.d1d3, fin p.d2, fin p.duration⟩

theorem toNum_length (p : AccDec ℝ) : p.toNum.length = fin p.length := rfl
theorem toNum_duration (p : AccDec ℝ) : p.toNum.duration = fin p.duration := rfl

theorem toNum_v (p : AccDec ℝ) (t : ℝ) : p.toNum.v (fin t) = fin (p.v t) := by
  simp only [v, toNum, fin_add, fin_sub, fin_mul, arith_lt_fin, arith_lit, ite_fin]

theorem toNum_s (p : AccDec ℝ) (t : ℝ) : p.toNum.s (fin t) = fin (p.s t) := by
  simp only [s, toNum, fin_add, fin_sub, fin_mul, arith_lt_fin, arith_lit, ite_fin]

theorem toNum_a (p : AccDec ℝ) (t : ℝ) : p.toNum.a (fin t) = fin (p.a t) := by
  simp only [a, toNum, fin_add, fin_sub, fin_mul, arith_lt_fin, arith_lit, ite_fin]

/-- The inputs of `calculate` are finite. -/
structure Inputs (r : AccDec Num) (p : AccDec ℝ) : Prop where
  vStart : r.vStart = fin p.vStart
  vEnd : r.vEnd = fin p.vEnd
  aMax : r.aMax = fin p.aMax
  dMax : r.dMax = fin p.dMax
  jMax : r.jMax = fin p.jMax

/-- `calculate` on finite inputs within the sensible range gives finite results, the same as over the reals. -/
theorem calculate_toNum {r : AccDec Num} {p : AccDec ℝ} (h : r.Inputs p) (hp : p.Params) (o : Order) :
    r.calculate o = (p.calculate o).toNum := by
  obtain ⟨e1, e2, e3, e4, e5⟩ := h
  obtain ⟨hvs, hve, ha, hd, hj⟩ := hp
  have ha' := ha.ne'; have hd' := hd.ne; have hj' := hj.ne'
  cases o
  · simp only [calculate, calculateFirst, e1, e2, e3, e4, e5, toNum, fin_add, fin_sub, fin_mul, arith_lt_fin, arith_lit,
      fin_div ha', fin_div hd', ite_fin]
  · simp only [calculate, e1, e2, arith_lt_fin]
    by_cases hlt : p.vStart < p.vEnd
    · rw [if_pos ((lt_real _ _).2 hlt), if_pos ((lt_real _ _).2 hlt)]
      have hq : 0 ≤ (p.vEnd - p.vStart) / p.jMax := div_nonneg (by linarith) hj.le
      simp only [calculateAcc, finishSecond, e1, e2, e3, e4, e5, toNum, fin_add, fin_sub, fin_mul, arith_lt_fin, arith_lit,
        fin_div ha', fin_div hj', arith_sqrt hq]
      split_ifs <;> simp only [e1, e2, e3, e4, e5, fin_add, fin_sub, fin_mul, arith_lit]
    · rw [if_neg (by simpa using hlt), if_neg (by simpa using hlt)]
      have hq : 0 ≤ (p.vStart - p.vEnd) / p.jMax := div_nonneg (by linarith) hj.le
      simp only [calculateDec, finishSecond, e1, e2, e3, e4, e5, toNum, fin_add, fin_sub, fin_mul, fin_neg, arith_lt_fin,
        arith_lit, fin_div hd', fin_div hj', arith_sqrt hq]
      split_ifs <;> simp only [e1, e2, e3, e4, e5, fin_add, fin_sub, fin_mul, fin_neg, arith_lit]

end AccDec
end Moovr
