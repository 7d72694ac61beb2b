import Verif.Model.SpeedProfile
import Verif.Lemmas.SCurve
import Mathlib.Tactic.NormNum
/-!
# The phases computed by `speedProfileAccDec` are S-curves (real numbers)
-/
namespace Moovr
namespace AccDec

@[simp] theorem lit_real (q : ℚ) : (Arith.lit q : ℝ) = (q : ℝ) := rfl
@[simp] theorem sqrt_real (x : ℝ) : Arith.sqrt x = Real.sqrt x := rfl
@[simp] theorem lt_real (x y : ℝ) : (Arith.lt x y = true) ↔ x < y := by simp [Arith.lt]

/-- The phase as an S-curve. -/
noncomputable def curve (p : AccDec ℝ) : SCurve :=
  if p.vStart < p.vEnd then ⟨p.vStart, p.vEnd, p.d1d3, p.d2, p.aMax, p.jMax⟩
  else ⟨p.vStart, p.vEnd, p.d1d3, p.d2, p.dMax, -p.jMax⟩

/-- Sensible parameters. -/
structure Params (p : AccDec ℝ) : Prop where
  vStart : 0 ≤ p.vStart
  vEnd : 0 ≤ p.vEnd
  aMax : 0 < p.aMax
  dMax : p.dMax < 0
  jMax : 0 < p.jMax

/-- The computed members belong to the S-curve. -/
structure Good (q : AccDec ℝ) : Prop where
  ok : q.curve.Ok
  dV1 : q.dV1 = q.curve.J * q.curve.d ^ 2 / 2
  s1 : q.s1 = q.curve.vS * q.curve.d + q.curve.J * q.curve.d ^ 3 / 6
  length : q.length = q.curve.len
  duration : q.duration = q.curve.dur
  aMax : 0 ≤ q.aMax
  dMax : q.dMax ≤ 0
  jMax : 0 < q.jMax
  vStart : 0 ≤ q.vStart
  vEnd : 0 ≤ q.vEnd

theorem Good.v {q : AccDec ℝ} (h : q.Good) (t : ℝ) : q.v t = q.curve.v t := by
  have h1 := h.dV1; have h2 := h.duration
  unfold AccDec.v SCurve.v
  rw [h1, h2]
  simp only [lt_real, lit_real]
  unfold curve SCurve.dur
  split_ifs <;> push_cast <;> ring

theorem Good.s {q : AccDec ℝ} (h : q.Good) (t : ℝ) : q.s t = q.curve.s t := by
  have h1 := h.dV1; have h2 := h.duration; have h3 := h.s1; have h4 := h.length
  unfold AccDec.s SCurve.s
  rw [h1, h2, h3, h4]
  simp only [lt_real, lit_real]
  unfold curve SCurve.dur SCurve.len
  split_ifs <;> push_cast <;> ring

theorem Good.a {q : AccDec ℝ} (_ : q.Good) (t : ℝ) : q.a t = q.curve.a t := by
  unfold AccDec.a SCurve.a
  simp only [lt_real, lit_real]
  unfold curve SCurve.dur
  split_ifs <;> push_cast <;> ring

theorem good_first {p : AccDec ℝ} (hp : p.Params) : (p.calculate .firstOrder).Good := by
  obtain ⟨hvs, hve, ha, hd, hj⟩ := hp
  by_cases hlt : p.vStart < p.vEnd
  · have e : (p.calculate .firstOrder).curve = ⟨p.vStart, p.vEnd, 0, (p.vEnd - p.vStart) / p.aMax, p.aMax, p.jMax⟩ := by
      simp [calculate, calculateFirst, curve, hlt]
    constructor <;> try rw [e]
    · refine ⟨le_refl _, div_nonneg (by linarith) ha.le, by simp, ?_⟩
      simp; field_simp; ring
    · simp [calculate, calculateFirst]
    · simp [calculate, calculateFirst]
    · simp [calculate, calculateFirst, hlt, SCurve.len]
    · simp [calculate, calculateFirst, hlt, SCurve.dur]
    all_goals (simp only [calculate, calculateFirst]; linarith)
  · have e : (p.calculate .firstOrder).curve = ⟨p.vStart, p.vEnd, 0, (p.vEnd - p.vStart) / p.dMax, p.dMax, -p.jMax⟩ := by
      simp [calculate, calculateFirst, curve, hlt]
    have hd' := hd.ne
    constructor <;> try rw [e]
    · refine ⟨le_refl _, div_nonneg_of_nonpos (by linarith) hd.le, by simp, ?_⟩
      simp; field_simp; ring
    · simp [calculate, calculateFirst]
    · simp [calculate, calculateFirst]
    · simp [calculate, calculateFirst, hlt, SCurve.len]
    · simp [calculate, calculateFirst, hlt, SCurve.dur]
    all_goals (simp only [calculate, calculateFirst]; linarith)

/-- Second half of the accelerating branch. -/
noncomputable def accOf (p : AccDec ℝ) (d A d2 : ℝ) : AccDec ℝ :=
  { vStart := p.vStart, vEnd := p.vEnd, aMax := A, dMax := p.dMax, jMax := p.jMax
    dV1 := p.jMax * d * d * (1 / 2)
    s1 := p.vStart * d + p.jMax * d * d * d * (1 / 6)
    s2 := (p.vStart + p.vEnd) * d2 * (1 / 2)
    s3 := p.vEnd * d - p.jMax * d * d * d * (1 / 6)
    length := (p.vStart + p.vEnd) * (d + d2 + d) * (1 / 2)
    d1d3 := d, d2 := d2, duration := d + d2 + d }

/-- Second half of the decelerating branch. -/
noncomputable def decOf (p : AccDec ℝ) (d D d2 : ℝ) : AccDec ℝ :=
  { vStart := p.vStart, vEnd := p.vEnd, aMax := p.aMax, dMax := D, jMax := p.jMax
    dV1 := -p.jMax * d * d * (1 / 2)
    s1 := p.vStart * d - p.jMax * d * d * d * (1 / 6)
    s2 := (p.vStart + p.vEnd) * d2 * (1 / 2)
    s3 := p.vEnd * d + p.jMax * d * d * d * (1 / 6)
    length := (p.vStart + p.vEnd) * (d + d2 + d) * (1 / 2)
    d1d3 := d, d2 := d2, duration := d + d2 + d }

theorem good_accOf {p : AccDec ℝ} (hp : p.Params) (hlt : p.vStart < p.vEnd) {d A d2 : ℝ} (hd : 0 ≤ d) (hd2 : 0 ≤ d2)
    (hA : 0 ≤ A) (hpl : A * d = p.jMax * d ^ 2) (hv : p.vEnd = p.vStart + p.jMax * d ^ 2 + A * d2) :
    (accOf p d A d2).Good := by
  have e : (accOf p d A d2).curve = ⟨p.vStart, p.vEnd, d, d2, A, p.jMax⟩ := by simp [accOf, curve, hlt]
  constructor <;> try rw [e]
  · exact ⟨hd, hd2, hpl, hv⟩
  · simp only [accOf]; ring
  · simp only [accOf]; ring
  · simp only [accOf, SCurve.len]
  · simp only [accOf, SCurve.dur]
  · exact hA
  · exact hp.dMax.le
  · exact hp.jMax
  · exact hp.vStart
  · exact hp.vEnd

theorem good_decOf {p : AccDec ℝ} (hp : p.Params) (hlt : ¬ p.vStart < p.vEnd) {d D d2 : ℝ} (hd : 0 ≤ d) (hd2 : 0 ≤ d2)
    (hA : D ≤ 0) (hpl : D * d = -p.jMax * d ^ 2) (hv : p.vEnd = p.vStart - p.jMax * d ^ 2 + D * d2) :
    (decOf p d D d2).Good := by
  have e : (decOf p d D d2).curve = ⟨p.vStart, p.vEnd, d, d2, D, -p.jMax⟩ := by simp [decOf, curve, hlt]
  constructor <;> try rw [e]
  · exact ⟨hd, hd2, hpl, by simp only; linarith⟩
  · simp only [decOf]; ring
  · simp only [decOf]; ring
  · simp only [decOf, SCurve.len]
  · simp only [decOf, SCurve.dur]
  · exact hp.aMax.le
  · exact hA
  · exact hp.jMax
  · exact hp.vStart
  · exact hp.vEnd

/-- Peak acceleration not reached. -/
theorem peak_le {dv a j : ℝ} (hj : 0 < j) (ha : 0 < a) (hc : dv < j * (a / j) * (a / j)) : j * √(dv / j) ≤ a := by
  have : √(dv / j) ≤ a / j := by
    rw [Real.sqrt_le_left (by positivity), div_le_iff₀ hj]
    have : j * (a / j) * (a / j) = (a / j) ^ 2 * j := by ring
    linarith
  rw [le_div_iff₀ hj] at this
  linarith

theorem acc_eq {p : AccDec ℝ} (hp : p.Params) (hlt : p.vStart < p.vEnd) :
    ∃ d A d2, p.calculateAcc = accOf p d A d2 ∧ 0 ≤ d ∧ 0 ≤ d2 ∧ 0 ≤ A ∧ A * d = p.jMax * d ^ 2 ∧
      p.vEnd = p.vStart + p.jMax * d ^ 2 + A * d2 ∧ A ≤ p.aMax ∧ 0 < d := by
  obtain ⟨hvs, hve, ha, hd, hj⟩ := hp
  have hj' := hj.ne'
  by_cases hc : p.vEnd - p.vStart < p.jMax * (p.aMax / p.jMax) * (p.aMax / p.jMax)
  · have hq : 0 < (p.vEnd - p.vStart) / p.jMax := div_pos (by linarith) hj
    have hs := Real.sq_sqrt hq.le
    refine ⟨√((p.vEnd - p.vStart) / p.jMax), p.jMax * √((p.vEnd - p.vStart) / p.jMax), 0,
      by simp [calculateAcc, finishSecond, accOf, hc], Real.sqrt_nonneg _, le_refl _, by positivity, by ring, ?_,
      peak_le hj ha hc, Real.sqrt_pos.2 hq⟩
    rw [hs]; field_simp; ring
  · refine ⟨p.aMax / p.jMax, p.aMax,
      ((p.vEnd - p.vStart) - p.jMax * (p.aMax / p.jMax) * (p.aMax / p.jMax)) / p.aMax,
      by simp [calculateAcc, finishSecond, accOf, hc], by positivity, div_nonneg (by linarith) ha.le, ha.le, ?_, ?_,
      le_refl _, by positivity⟩
    · field_simp
    · field_simp; ring

theorem dec_eq {p : AccDec ℝ} (hp : p.Params) (hlt : ¬ p.vStart < p.vEnd) :
    ∃ d D d2, p.calculateDec = decOf p d D d2 ∧ 0 ≤ d ∧ 0 ≤ d2 ∧ D ≤ 0 ∧ D * d = -p.jMax * d ^ 2 ∧
      p.vEnd = p.vStart - p.jMax * d ^ 2 + D * d2 ∧ p.dMax ≤ D ∧ (p.vStart ≠ p.vEnd → 0 < d) ∧
      (d = 0 → d2 = 0) := by
  obtain ⟨hvs, hve, ha, hd, hj⟩ := hp
  have hj' := hj.ne'
  have hd' := hd.ne
  by_cases hc : p.vStart - p.vEnd < p.jMax * (-p.dMax / p.jMax) * (-p.dMax / p.jMax)
  · have hq : 0 ≤ (p.vStart - p.vEnd) / p.jMax := div_nonneg (by linarith) hj.le
    have hs := Real.sq_sqrt hq
    have hr := Real.sqrt_nonneg ((p.vStart - p.vEnd) / p.jMax)
    refine ⟨√((p.vStart - p.vEnd) / p.jMax), -p.jMax * √((p.vStart - p.vEnd) / p.jMax), 0,
      by simp [calculateDec, finishSecond, decOf, hc], hr, le_refl _, by nlinarith, by ring, ?_, ?_, ?_, fun _ => rfl⟩
    · rw [hs]; field_simp; ring
    · have := peak_le hj (by linarith : 0 < -p.dMax) hc
      linarith
    · intro hne
      exact Real.sqrt_pos.2 (div_pos (by rcases lt_or_eq_of_le (not_lt.1 hlt) with h | h
                                         · linarith
                                         · exact absurd h.symm hne) hj)
  · have hpos : 0 < -p.dMax / p.jMax := div_pos (by linarith) hj
    refine ⟨-p.dMax / p.jMax, p.dMax,
      ((p.vEnd - p.vStart) + p.jMax * (-p.dMax / p.jMax) * (-p.dMax / p.jMax)) / p.dMax,
      by simp [calculateDec, finishSecond, decOf, hc], hpos.le, div_nonneg_of_nonpos (by linarith) hd.le, hd.le, ?_, ?_,
      le_refl _, fun _ => hpos, fun h => absurd h hpos.ne'⟩
    · field_simp
    · field_simp; ring

/-- Every computed phase is an S-curve within the limits. -/
theorem good_calculate {p : AccDec ℝ} (hp : p.Params) (o : Order) :
    (p.calculate o).Good ∧ (p.calculate o).aMax ≤ p.aMax ∧ p.dMax ≤ (p.calculate o).dMax := by
  cases o
  · exact ⟨good_first hp, by simp [calculate, calculateFirst], by simp [calculate, calculateFirst]⟩
  · by_cases hlt : p.vStart < p.vEnd
    · have e : p.calculate .secondOrder = p.calculateAcc := by simp [calculate, hlt]
      rw [e]
      obtain ⟨d, A, d2, e, h1, h2, h3, h4, h5, h6, h7⟩ := acc_eq hp hlt
      rw [e]
      exact ⟨good_accOf hp hlt h1 h2 h3 h4 h5, h6, le_refl _⟩
    · have e : p.calculate .secondOrder = p.calculateDec := by simp [calculate, hlt]
      rw [e]
      obtain ⟨d, A, d2, e, h1, h2, h3, h4, h5, h6, h7⟩ := dec_eq hp hlt
      rw [e]
      exact ⟨good_decOf hp hlt h1 h2 h3 h4 h5, le_refl _, h6⟩

@[simp] theorem calculate_vStart (p : AccDec ℝ) (o : Order) : (p.calculate o).vStart = p.vStart := by
  cases o
  · rfl
  · simp only [calculate]
    split_ifs
    · simp only [calculateAcc, finishSecond]; split_ifs <;> rfl
    · simp only [calculateDec, finishSecond]; split_ifs <;> rfl

@[simp] theorem calculate_vEnd (p : AccDec ℝ) (o : Order) : (p.calculate o).vEnd = p.vEnd := by
  cases o
  · rfl
  · simp only [calculate]
    split_ifs
    · simp only [calculateAcc, finishSecond]; split_ifs <;> rfl
    · simp only [calculateDec, finishSecond]; split_ifs <;> rfl

@[simp] theorem calculate_jMax (p : AccDec ℝ) (o : Order) : (p.calculate o).jMax = p.jMax := by
  cases o
  · rfl
  · simp only [calculate]
    split_ifs
    · simp only [calculateAcc, finishSecond]; split_ifs <;> rfl
    · simp only [calculateDec, finishSecond]; split_ifs <;> rfl

@[simp] theorem curve_vS (p : AccDec ℝ) : p.curve.vS = p.vStart := by unfold curve; split_ifs <;> rfl
@[simp] theorem curve_vE (p : AccDec ℝ) : p.curve.vE = p.vEnd := by unfold curve; split_ifs <;> rfl
@[simp] theorem curve_d (p : AccDec ℝ) : p.curve.d = p.d1d3 := by unfold curve; split_ifs <;> rfl
@[simp] theorem curve_d2 (p : AccDec ℝ) : p.curve.d2 = p.d2 := by unfold curve; split_ifs <;> rfl

/-- Second-order phases have jerk segments, unless they are empty. -/
theorem second_pos {p : AccDec ℝ} (hp : p.Params) :
    0 < (p.calculate .secondOrder).d1d3 ∨ (p.calculate .secondOrder).duration = 0 := by
  by_cases hlt : p.vStart < p.vEnd
  · have e : p.calculate .secondOrder = p.calculateAcc := by simp [calculate, hlt]
    rw [e]
    obtain ⟨d, A, d2, e, h1, h2, h3, h4, h5, h6, h7⟩ := acc_eq hp hlt
    rw [e]
    exact Or.inl h7
  · have e : p.calculate .secondOrder = p.calculateDec := by simp [calculate, hlt]
    rw [e]
    obtain ⟨d, A, d2, e, h1, h2, h3, h4, h5, h6, h7, h8⟩ := dec_eq hp hlt
    rw [e]
    rcases lt_or_eq_of_le h1 with h | h
    · exact Or.inl h
    · have := h8 h.symm
      right; simp [decOf, ← h, this]

namespace Good
variable {q : AccDec ℝ}

/-- Acceleration within the phase. -/
theorem a_bounds (h : q.Good) {t : ℝ} (h0 : 0 ≤ t) (h1 : t ≤ q.duration) : q.dMax ≤ q.a t ∧ q.a t ≤ q.aMax := by
  rw [h.duration] at h1
  rw [h.a]
  have := h.aMax; have := h.dMax; have := h.jMax
  by_cases hlt : q.vStart < q.vEnd
  · have e : q.curve = ⟨q.vStart, q.vEnd, q.d1d3, q.d2, q.aMax, q.jMax⟩ := by simp [curve, hlt]
    have := h.ok.a_up (by rw [e]; exact h.aMax) (by rw [e]; exact h.jMax.le) h0 h1
    rw [show q.curve.A = q.aMax by rw [e]] at this
    constructor <;> linarith
  · have e : q.curve = ⟨q.vStart, q.vEnd, q.d1d3, q.d2, q.dMax, -q.jMax⟩ := by simp [curve, hlt]
    have hA : q.curve.A = q.dMax := by rw [e]
    have hJ : q.curve.J = -q.jMax := by rw [e]
    have := h.ok.neg.a_up (by simp only [SCurve.neg, hA]; linarith) (by simp only [SCurve.neg, hJ]; linarith) h0 h1
    rw [SCurve.neg_a, show q.curve.neg.A = -q.dMax by simp only [SCurve.neg, hA]] at this
    constructor <;> linarith

/-- No acceleration while slowing down. -/
theorem a_nonpos (h : q.Good) (hle : q.vEnd ≤ q.vStart) {t : ℝ} (h0 : 0 ≤ t) (h1 : t ≤ q.duration) : q.a t ≤ 0 := by
  rw [h.duration] at h1
  rw [h.a]
  have := h.aMax; have := h.dMax; have := h.jMax
  have e : q.curve = ⟨q.vStart, q.vEnd, q.d1d3, q.d2, q.dMax, -q.jMax⟩ := by simp [curve, not_lt.2 hle]
  have hA : q.curve.A = q.dMax := by rw [e]
  have hJ : q.curve.J = -q.jMax := by rw [e]
  have := h.ok.neg.a_up (by simp only [SCurve.neg, hA]; linarith) (by simp only [SCurve.neg, hJ]; linarith) h0 h1
  rw [SCurve.neg_a, show q.curve.neg.A = -q.dMax by simp only [SCurve.neg, hA]] at this
  linarith [this.1]

/-- Speed is monotone. -/
theorem v_monotone (h : q.Good) :
    (q.vStart < q.vEnd → MonotoneOn q.v (Set.Icc 0 q.duration)) ∧
    (q.vEnd ≤ q.vStart → AntitoneOn q.v (Set.Icc 0 q.duration)) := by
  rw [h.duration, show q.v = q.curve.v from funext h.v]
  have := h.aMax; have := h.dMax; have := h.jMax
  constructor
  · intro hlt
    have e : q.curve = ⟨q.vStart, q.vEnd, q.d1d3, q.d2, q.aMax, q.jMax⟩ := by simp [curve, hlt]
    exact h.ok.monotone_v (by rw [e]; exact h.aMax) (by rw [e]; exact h.jMax.le)
  · intro hle
    have e : q.curve = ⟨q.vStart, q.vEnd, q.d1d3, q.d2, q.dMax, -q.jMax⟩ := by simp [curve, not_lt.2 hle]
    have hA : q.curve.A = q.dMax := by rw [e]
    have hJ : q.curve.J = -q.jMax := by rw [e]
    have := h.ok.neg.monotone_v (by simp only [SCurve.neg, hA]; linarith) (by simp only [SCurve.neg, hJ]; linarith)
    intro x hx y hy hxy
    have := this hx hy hxy
    rw [SCurve.neg_v, SCurve.neg_v] at this
    linarith

theorem v_zero (h : q.Good) : q.v 0 = q.vStart := by rw [h.v, h.ok.v_zero, curve_vS]
theorem v_dur (h : q.Good) : q.v q.duration = q.vEnd := by rw [h.v, h.duration, h.ok.v_dur, curve_vE]
theorem s_zero (h : q.Good) : q.s 0 = 0 := by rw [h.s, h.ok.s_zero]
theorem s_dur (h : q.Good) : q.s q.duration = q.length := by rw [h.s, h.duration, h.ok.s_dur, h.length]
theorem dur_nonneg (h : q.Good) : 0 ≤ q.duration := by rw [h.duration]; exact h.ok.dur_nonneg
theorem len_nonneg (h : q.Good) : 0 ≤ q.length := by
  rw [h.length]; exact h.ok.len_nonneg (by rw [curve_vS]; exact h.vStart) (by rw [curve_vE]; exact h.vEnd)

/-- Speed stays between start and end speed. -/
theorem v_bounds (h : q.Good) {t : ℝ} (h0 : 0 ≤ t) (h1 : t ≤ q.duration) :
    min q.vStart q.vEnd ≤ q.v t ∧ q.v t ≤ max q.vStart q.vEnd := by
  have hd := h.dur_nonneg
  rcases lt_or_ge q.vStart q.vEnd with hlt | hle
  · have m := h.v_monotone.1 hlt
    have l := m ⟨le_refl _, hd⟩ ⟨h0, h1⟩ h0
    have r := m ⟨h0, h1⟩ ⟨hd, le_refl _⟩ h1
    rw [h.v_zero] at l; rw [h.v_dur] at r
    rw [min_eq_left hlt.le, max_eq_right hlt.le]
    exact ⟨l, r⟩
  · have m := h.v_monotone.2 hle
    have l := m ⟨le_refl _, hd⟩ ⟨h0, h1⟩ h0
    have r := m ⟨h0, h1⟩ ⟨hd, le_refl _⟩ h1
    rw [h.v_zero] at l; rw [h.v_dur] at r
    rw [min_eq_right hle, max_eq_left hle]
    exact ⟨r, l⟩

theorem v_nonneg (h : q.Good) {t : ℝ} (h0 : 0 ≤ t) (h1 : t ≤ q.duration) : 0 ≤ q.v t :=
  le_trans (le_min h.vStart h.vEnd) (h.v_bounds h0 h1).1

theorem s_monotone (h : q.Good) : MonotoneOn q.s (Set.Icc 0 q.duration) := by
  rw [h.duration, show q.s = q.curve.s from funext h.s]
  refine h.ok.monotone_s fun t h0 h1 => ?_
  rw [← h.v]
  exact h.v_nonneg h0 (by rw [h.duration]; exact h1)

theorem continuous_s (h : q.Good) : Continuous q.s := by
  rw [show q.s = q.curve.s from funext h.s]; exact h.ok.continuous_s

theorem continuous_v (h : q.Good) : Continuous q.v := by
  rw [show q.v = q.curve.v from funext h.v]; exact h.ok.continuous_v

theorem s_bounds (h : q.Good) {t : ℝ} (h0 : 0 ≤ t) (h1 : t ≤ q.duration) : 0 ≤ q.s t ∧ q.s t ≤ q.length := by
  have l := h.s_monotone ⟨le_refl _, h.dur_nonneg⟩ ⟨h0, h1⟩ h0
  have r := h.s_monotone ⟨h0, h1⟩ ⟨h.dur_nonneg, le_refl _⟩ h1
  rw [h.s_zero] at l; rw [h.s_dur] at r
  exact ⟨l, r⟩

end Good
end AccDec
end Moovr
