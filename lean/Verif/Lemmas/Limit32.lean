import Verif.Lemmas.Single
/-!
# The limits of a straight path in single precision
-/
namespace Moovr
open Num Float32 Single

/-- Largest component among the first `m`. -/
noncomputable def most (u : Nat → ℝ) : Nat → ℝ
  | 0 => 0
  | m + 1 => max (most u m) |u m|

theorem most_attained {u : Nat → ℝ} {m : Nat} (h : 0 < most u m) : ∃ i, i < m ∧ |u i| = most u m := by
  induction m with
  | zero => exact absurd h (lt_irrefl _)
  | succ m ih =>
    rcases le_total (most u m) |u m| with hc | hc
    · exact ⟨m, Nat.lt_succ_self m, (max_eq_right hc).symm⟩
    · have e : most u (m + 1) = most u m := max_eq_left hc
      rw [e] at h ⊢
      obtain ⟨i, hi, h⟩ := ih h
      exact ⟨i, by omega, h⟩

theorem most_nonneg (u : Nat → ℝ) (m : Nat) : 0 ≤ most u m := by
  induction m with
  | zero => exact le_rfl
  | succ m ih => exact ih.trans (le_max_left _ _)

theorem le_most (u : Nat → ℝ) {i m : Nat} (h : i < m) : |u i| ≤ most u m := by
  induction m with
  | zero => omega
  | succ m ih =>
    rcases Nat.lt_succ_iff_lt_or_eq.1 h with h | rfl
    · exact (ih h).trans (le_max_left _ _)
    · exact le_max_right _ _

theorem most_le {u : Nat → ℝ} {m : Nat} {B : ℝ} (h0 : 0 ≤ B) (h : ∀ i, i < m → |u i| ≤ B) : most u m ≤ B := by
  induction m with
  | zero => exact h0
  | succ m ih => exact max_le (ih fun i hi => h i (by omega)) (h m (by omega))

/-- The limit along the path, from that of the axes. -/
noncomputable def lim32 (c U : ℝ) : Single := if U = 0 then ⟨posInf⟩ else num (rnd (c / U))

theorem lim32_axis {c u : ℝ} (hc : 0 < c) : (⟨(num c / num u).val.abs⟩ : Single) = lim32 c |u| := by
  unfold lim32
  by_cases h : u = 0
  · subst h
    rw [abs_zero, if_pos rfl]
    show (⟨(round32 (fin c / fin 0)).abs⟩ : Single) = _
    rw [fin_div_zero_pos hc]; rfl
  · rw [if_neg (abs_ne_zero.2 h), num_div h, num_val, abs_fin]
    congr 1
    rcases lt_or_gt_of_ne h with h1 | h1
    · have h2 : c / u ≤ 0 := div_nonpos_of_nonneg_of_nonpos hc.le h1.le
      rw [abs_of_neg h1, abs_of_nonpos (rnd_nonpos h2), ← rnd_neg, div_neg]
    · rw [abs_of_pos h1, abs_of_nonneg (rnd_nonneg (by positivity))]

theorem lim32_axis_neg {c u : ℝ} (hc : 0 < c) : (⟨(num (-c) / num u).val.abs⟩ : Single) = lim32 c |u| := by
  rw [← lim32_axis hc]
  by_cases h : u = 0
  · subst h
    show (⟨(round32 (fin (-c) / fin 0)).abs⟩ : Single) = ⟨(round32 (fin c / fin 0)).abs⟩
    rw [fin_div_zero_pos hc, fin_div_zero]
    unfold infOfSign
    rw [if_neg (by linarith), if_pos (by linarith)]; rfl
  · rw [num_div h, num_div h, neg_div, rnd_neg, num_val, num_val, abs_fin, abs_fin, abs_neg]

theorem lim32_min {c U u : ℝ} (hc : 0 < c) (hU : 0 ≤ U) (hu : 0 ≤ u) :
    (if (lim32 c u).lt (lim32 c U) then lim32 c u else lim32 c U) = lim32 c (max U u) := by
  by_cases h0 : u = 0
  · subst h0
    rw [max_eq_left hU]
    have : (lim32 c 0).lt (lim32 c U) = false := by
      unfold lim32; rw [if_pos rfl]; rfl
    rw [this]; simp
  · have hu' : 0 < u := lt_of_le_of_ne hu (Ne.symm h0)
    by_cases h1 : U = 0
    · subst h1
      rw [max_eq_right hu]
      have : (lim32 c u).lt (lim32 c 0) = true := by
        unfold lim32; rw [if_pos rfl, if_neg h0]; rfl
      rw [this]; simp
    · have hU' : 0 < U := lt_of_le_of_ne hU (Ne.symm h1)
      have e : ∀ x, 0 < x → lim32 c x = num (rnd (c / x)) := fun x hx => if_neg hx.ne'
      rw [e u hu', e U hU', e _ (lt_max_of_lt_left hU'), lt_num]
      rcases le_total u U with h | h
      · have := rnd_mono (div_le_div_of_nonneg_left hc.le hu' h)
        rw [max_eq_left h, if_neg (by simpa using this)]
      · have := rnd_mono (div_le_div_of_nonneg_left hc.le hU' h)
        rw [max_eq_right h]
        split_ifs with h2
        · rfl
        · rw [decide_eq_true_eq, not_lt] at h2
          rw [le_antisymm h2 this]

theorem lim32_abs {c U : ℝ} (hc : 0 < c) (hU : 0 ≤ U) : (⟨(-lim32 c U).val.abs⟩ : Single) = lim32 c U := by
  unfold lim32
  split_ifs with h
  · rfl
  · rw [num_neg, num_val, abs_fin, abs_neg, abs_of_nonneg (rnd_nonneg (by positivity))]; rfl

namespace Profile32

/-- A profile with limits along the path. -/
noncomputable def limited (p : Profile32) (v a U : ℝ) : Profile32 :=
  { p with vMax := lim32 v U, aMax := lim32 a U, dMax := -lim32 a U }

theorem limitAxis_eq {M : Machine} {t : Trajectory32} {p : Profile32} {v a U u : ℝ} {i : Nat} (hv : 0 < v) (ha : 0 < a) (hU : 0 ≤ U)
    (h0 : i ≠ t.arcAxis0) (h1 : i ≠ t.arcAxis1) (hu : t.directionUnitVector i = num u) (hvM : M.vMax i = v) (haM : M.aMax i = a)
    (hdM : M.dMax i = -a) : limitAxis M t (p.limited v a U) i = p.limited v a (max U |u|) := by
  have e1 := lim32_min hv hU (abs_nonneg u)
  have e2 := lim32_min ha hU (abs_nonneg u)
  unfold limitAxis
  simp only [hu, hvM, haM, hdM, lim32_axis hv, lim32_axis ha, lim32_axis_neg ha, h0, h1, or_self, if_false]
  unfold limited
  by_cases c1 : (lim32 v |u|).lt (lim32 v U) = true <;> by_cases c2 : (lim32 a |u|).lt (lim32 a U) = true <;>
    simp only [c1, c2, if_true, if_false, lim32_abs ha hU, Bool.false_eq_true] at e1 e2 ⊢ <;> rw [← e1, ← e2]

theorem limit_eq {M : Machine} {t : Trajectory32} {p : Profile32} {v a : ℝ} {u : Nat → ℝ} (hv : 0 < v) (ha : 0 < a)
    (h0 : M.n ≤ t.arcAxis0) (h1 : M.n ≤ t.arcAxis1) (hu : ∀ i, i < M.n → t.directionUnitVector i = num (u i))
    (hvM : ∀ i, i < M.n → M.vMax i = v) (haM : ∀ i, i < M.n → M.aMax i = a) (hdM : ∀ i, i < M.n → M.dMax i = -a) :
    p.limit M t = { p.limited v a (most u M.n) with jMax := num M.jMax } := by
  have : ∀ m, m ≤ M.n → (List.range m).foldl (limitAxis M t) (p.limited v a 0) = p.limited v a (most u m) := by
    intro m
    induction m with
    | zero => intro _; rfl
    | succ m ih =>
      intro hm
      rw [List.range_succ, List.foldl_append, ih (by omega)]
      exact limitAxis_eq hv ha (most_nonneg u m) (by omega) (by omega) (hu m (by omega)) (hvM m (by omega)) (haM m (by omega))
        (hdM m (by omega))
  have e := this M.n le_rfl
  unfold limit
  rw [← e]
  congr 1 <;> (unfold limited lim32; simp only [if_true]; rfl)

end Profile32
end Moovr
