import Verif.Lemmas.Plan
import Mathlib.Analysis.Calculus.Deriv.Shift
/-!
# Distance and speed of a planned motion as functions of time
-/
namespace Moovr
open Num AccDec Set Filter Topology

namespace AccDec.Good
variable {q : AccDec ℝ}

theorem deriv_s (h : q.Good) (t : ℝ) : HasDerivAt q.s (q.v t) t := by
  rw [show q.s = q.curve.s from funext h.s, h.v]; exact h.ok.deriv_s t

theorem deriv_v (h : q.Good) (t : ℝ) (h0 : 0 < t) (h1 : t < q.duration) : HasDerivAt q.v (q.a t) t := by
  rw [show q.v = q.curve.v from funext h.v, h.a]
  rw [h.duration] at h1
  exact h.ok.deriv_v t h0 h1

/-- Decelerating at most at `d`, the end speed stays reachable. -/
theorem slow (h : q.Good) {d : ℝ} (hd : d ≤ q.dMax) {t : ℝ} (h0 : 0 ≤ t) (h1 : t ≤ q.duration) :
    q.v t ^ 2 - 2 * d * q.s t ≤ q.vEnd ^ 2 - 2 * d * q.length := by
  have hm : MonotoneOn (fun t => q.v t ^ 2 - 2 * d * q.s t) (Icc 0 q.duration) := by
    refine monotoneOn_of_deriv_nonneg (convex_Icc _ _) ?_ ?_ ?_
    · exact ((h.continuous_v.pow 2).sub (continuous_const.mul h.continuous_s)).continuousOn
    · rw [interior_Icc]
      intro x hx
      exact (((h.deriv_v x hx.1 hx.2).pow 2).sub ((h.deriv_s x).const_mul (2 * d))).differentiableAt.differentiableWithinAt
    · rw [interior_Icc]
      intro x hx
      have e := ((h.deriv_v x hx.1 hx.2).pow 2).sub ((h.deriv_s x).const_mul (2 * d))
      rw [show (fun t => q.v t ^ 2 - 2 * d * q.s t) = (q.v ^ 2 - fun y => 2 * d * q.s y) from rfl, e.deriv]
      have hv := h.v_nonneg hx.1.le hx.2.le
      have ha := (h.a_bounds hx.1.le hx.2.le).1
      have : 0 ≤ q.v x * (q.a x - d) := mul_nonneg hv (by linarith)
      push_cast
      simp only [pow_one]
      linarith
  have := hm ⟨h0, h1⟩ ⟨h.dur_nonneg, le_refl _⟩ h1
  simp only at this
  rw [h.v_dur, h.s_dur] at this
  exact this

/-- The acceleration bounds the change of speed. -/
theorem lip_v (h : q.Good) {t u : ℝ} (h0 : 0 ≤ t) (htu : t ≤ u) (h1 : u ≤ q.duration) :
    q.dMax * (u - t) ≤ q.v u - q.v t ∧ q.v u - q.v t ≤ q.aMax * (u - t) := by
  have hc : ContinuousOn q.v (Icc t u) := h.continuous_v.continuousOn
  have hd : ∀ x ∈ interior (Icc t u), HasDerivAt q.v (q.a x) x := by
    rw [interior_Icc]
    exact fun x hx => h.deriv_v x (by linarith [hx.1]) (by linarith [hx.2])
  have hdo : DifferentiableOn ℝ q.v (interior (Icc t u)) := fun x hx => (hd x hx).differentiableAt.differentiableWithinAt
  have hb : ∀ x ∈ interior (Icc t u), q.dMax ≤ q.a x ∧ q.a x ≤ q.aMax := by
    rw [interior_Icc]
    exact fun x hx => h.a_bounds (by linarith [hx.1]) (by linarith [hx.2])
  constructor
  · exact (convex_Icc t u).mul_sub_le_image_sub_of_le_deriv hc hdo
      (fun x hx => by rw [(hd x hx).deriv]; exact (hb x hx).1) t (left_mem_Icc.2 htu) u (right_mem_Icc.2 htu) htu
  · exact (convex_Icc t u).image_sub_le_mul_sub_of_deriv_le hc hdo
      (fun x hx => by rw [(hd x hx).deriv]; exact (hb x hx).2) t (left_mem_Icc.2 htu) u (right_mem_Icc.2 htu) htu

end AccDec.Good

/-- Bounds on differences hold on an interval if they hold on both parts. -/
theorem lip_join {f : ℝ → ℝ} {A D x y z : ℝ} (h1 : ∀ a b, x ≤ a → a ≤ b → b ≤ y → D * (b - a) ≤ f b - f a ∧ f b - f a ≤ A * (b - a))
    (h2 : ∀ a b, y ≤ a → a ≤ b → b ≤ z → D * (b - a) ≤ f b - f a ∧ f b - f a ≤ A * (b - a)) :
    ∀ a b, x ≤ a → a ≤ b → b ≤ z → D * (b - a) ≤ f b - f a ∧ f b - f a ≤ A * (b - a) := by
  intro a b ha hab hb
  rcases le_total b y with hy | hy
  · exact h1 a b ha hab hy
  · rcases le_total a y with hy' | hy'
    · have e1 := h1 a y ha hy' le_rfl
      have e2 := h2 y b le_rfl hy hb
      constructor <;> linarith [e1.1, e1.2, e2.1, e2.2]
    · exact h2 a b hy' hab hb

namespace Planned
variable {i : PlanIn} {q : Profile} {l r : AccDec ℝ} {w m : ℝ}

/-- Duration of the motion. -/
noncomputable def tEnd (i : PlanIn) (l r : AccDec ℝ) (w m : ℝ) : ℝ := i.doneT + l.duration + m / w + r.duration

theorem mw (h : Planned i q l r w m) : 0 ≤ m / w := div_nonneg h.m0 h.w0

theorem dur_eq (h : Planned i q l r w m) (hw : 0 < w) : q.duration = fin (tEnd i l r w m) := by
  rw [h.duration, fin_div hw.ne']; rfl

theorem s_start (_ : Planned i q l r w m) : sFun i l r w m i.doneT = i.doneL := by
  unfold sFun; rw [if_pos le_rfl]

theorem v_start (h : Planned i q l r w m) : vFun i l r w m i.doneT = i.vS := by
  unfold vFun; rw [if_pos le_rfl, h.lOk.good.v_zero, h.lOk.vStart]

theorem s_end (h : Planned i q l r w m) (hw : 0 < w) : sFun i l r w m (tEnd i l r w m) = i.doneL + i.L := by
  have hl := h.lOk.good.dur_nonneg; have hr := h.rOk.good.dur_nonneg; have hm := h.mw
  have ht := h.total
  have ls := h.lOk.good.s_dur; have rs := h.rOk.good.s_dur
  have rz := h.rOk.good.s_zero; have lz := h.lOk.good.s_zero
  unfold sFun tEnd
  split_ifs with c1 c2 c3
  · have e1 : l.duration = 0 := by linarith
    have e2 : m / w = 0 := by linarith
    have e3 : r.duration = 0 := by linarith
    rw [e1, lz] at ls; rw [e3, rz] at rs
    have e4 : m = 0 := by rcases div_eq_zero_iff.1 e2 with h | h; exact h; linarith
    linarith
  · have e2 : m / w = 0 := by linarith
    have e3 : r.duration = 0 := by linarith
    rw [e3, rz] at rs
    have e4 : m = 0 := by rcases div_eq_zero_iff.1 e2 with h | h; exact h; linarith
    rw [e2, e3, show i.doneT + l.duration + 0 + 0 - i.doneT = l.duration by ring, ls]
    linarith
  · have e3 : r.duration = 0 := by linarith
    rw [e3, rz] at rs
    rw [e3, show i.doneT + l.duration + m / w + 0 - i.doneT - l.duration = m / w by ring, mul_div_cancel₀ _ hw.ne']
    linarith
  · rw [show i.doneT + l.duration + m / w + r.duration - i.doneT - l.duration - m / w = r.duration by ring, rs]
    linarith

theorem v_end (h : Planned i q l r w m) (hw : 0 < w) : vFun i l r w m (tEnd i l r w m) = i.vE := by
  have hl := h.lOk.good.dur_nonneg; have hr := h.rOk.good.dur_nonneg; have hm := h.mw
  have lv := h.lOk.good.v_dur; have rv := h.rOk.good.v_dur
  have rz := h.rOk.good.v_zero; have lz := h.lOk.good.v_zero
  have x1 := h.lOk.vStart; have x2 := h.lOk.vEnd; have x3 := h.rOk.vStart; have x4 := h.rOk.vEnd
  unfold vFun tEnd
  split_ifs with c1 c2 c3
  · have e1 : l.duration = 0 := by linarith
    have e3 : r.duration = 0 := by linarith
    rw [e1] at lv; rw [e3] at rv
    linarith
  · have e2 : m / w = 0 := by linarith
    have e3 : r.duration = 0 := by linarith
    rw [e3] at rv
    rw [e2, e3, show i.doneT + l.duration + 0 + 0 - i.doneT = l.duration by ring]
    linarith
  · have e3 : r.duration = 0 := by linarith
    rw [e3] at rv
    linarith
  · rw [show i.doneT + l.duration + m / w + r.duration - i.doneT - l.duration - m / w = r.duration by ring, rv]
    linarith

/-- Speed is the derivative of distance, also where the phases meet. -/
theorem deriv_sFun (h : Planned i q l r w m) (hw : 0 < w) {t : ℝ} (ht : i.doneT < t) :
    HasDerivAt (sFun i l r w m) (vFun i l r w m t) t := by
  have hl := h.lOk.good.dur_nonneg; have hr := h.rOk.good.dur_nonneg; have hm := h.mw
  have ls := h.lOk.good.s_dur
  have x2 := h.lOk.vEnd; have x3 := h.rOk.vStart
  have lv := h.lOk.good.v_dur
  have rv := h.rOk.good.v_zero
  have rz := h.rOk.good.s_zero
  have e := hasDerivAt_three (a := i.doneT + l.duration) (b := i.doneT + l.duration + m / w)
    (f := fun t => if t < i.doneT + l.duration then i.doneL + l.s (t - i.doneT)
      else if i.doneT + l.duration + m / w < t then i.doneL + l.length + m + r.s (t - (i.doneT + l.duration + m / w))
      else i.doneL + l.length + w * (t - (i.doneT + l.duration)))
    (g₁' := fun t => l.v (t - i.doneT)) (g₂' := fun _ => w) (g₃' := fun t => r.v (t - (i.doneT + l.duration + m / w)))
    (by linarith) (fun _ => rfl)
    (fun t => (HasDerivAt.comp_sub_const t i.doneT (h.lOk.good.deriv_s (t - i.doneT))).const_add _)
    (fun t => by
      have := (((hasDerivAt_id t).sub_const (i.doneT + l.duration)).const_mul w).const_add (i.doneL + l.length)
      simpa using this)
    (fun t => (HasDerivAt.comp_sub_const t _ (h.rOk.good.deriv_s (t - (i.doneT + l.duration + m / w)))).const_add _)
    t
    (fun _ => by
      constructor
      · rw [show i.doneT + l.duration - i.doneT = l.duration by ring, ls]; ring
      · rw [show i.doneT + l.duration - i.doneT = l.duration by ring, lv, x2])
    (fun _ => by
      constructor
      · rw [show i.doneT + l.duration + m / w - (i.doneT + l.duration) = m / w by ring, mul_div_cancel₀ _ hw.ne', sub_self,
          rz]; ring
      · rw [sub_self, rv, x3])
  have e1 : vFun i l r w m t = if t < i.doneT + l.duration then l.v (t - i.doneT)
      else if i.doneT + l.duration + m / w < t then r.v (t - (i.doneT + l.duration + m / w)) else w := by
    unfold vFun
    rw [if_neg (not_le.2 ht)]
    rcases lt_trichotomy t (i.doneT + l.duration) with c | c | c
    · rw [if_pos c.le, if_pos c]
    · rw [if_pos c.le, if_neg (by linarith), if_neg (by linarith), c,
        show i.doneT + l.duration - i.doneT = l.duration by ring, lv, x2]
    · rw [if_neg (not_le.2 c), if_neg (not_lt.2 c.le)]
      by_cases c2 : t ≤ i.doneT + l.duration + m / w
      · rw [if_pos c2, if_neg (not_lt.2 c2)]
      · rw [if_neg c2, if_pos (not_le.1 c2)]
        congr 1; ring
  rw [e1]
  refine e.congr_of_eventuallyEq ?_
  filter_upwards [Ioi_mem_nhds ht] with x hx
  unfold sFun
  rw [if_neg (not_le.2 hx)]
  rcases lt_trichotomy x (i.doneT + l.duration) with c | c | c
  · rw [if_pos c.le, if_pos c]
  · rw [if_pos c.le, if_neg (by linarith), if_neg (by linarith), c,
      show i.doneT + l.duration - i.doneT = l.duration by ring, ls]
    ring
  · rw [if_neg (not_le.2 c), if_neg (not_lt.2 c.le)]
    by_cases c2 : x ≤ i.doneT + l.duration + m / w
    · rw [if_pos c2, if_neg (not_lt.2 c2)]; ring
    · rw [if_neg c2, if_pos (not_le.1 c2)]
      congr 2; ring

theorem continuous_sFun (h : Planned i q l r w m) (hw : 0 < w) : Continuous (sFun i l r w m) := by
  have hl := h.lOk.good.dur_nonneg; have hm := h.mw
  have ls := h.lOk.good.s_dur; have lz := h.lOk.good.s_zero; have rz := h.rOk.good.s_zero
  unfold sFun
  have c1 := h.lOk.good.continuous_s; have c2 := h.rOk.good.continuous_s
  refine Continuous.if_le continuous_const (Continuous.if_le (by fun_prop) (Continuous.if_le (by fun_prop) (by fun_prop)
    continuous_id continuous_const ?_) continuous_id continuous_const ?_) continuous_id continuous_const ?_
  · intro x hx
    have hx : x = _ := hx
    rw [hx, show i.doneT + l.duration + m / w - i.doneT - l.duration = m / w by ring, sub_self, rz,
      mul_div_cancel₀ _ hw.ne']; ring
  · intro x hx
    have hx : x = _ := hx
    rw [hx, if_pos (by linarith), show i.doneT + l.duration - i.doneT = l.duration by ring, ls]; ring
  · intro x hx
    have hx : x = _ := hx
    rw [hx, if_pos (by linarith), sub_self, lz]; ring

theorem continuous_vFun (h : Planned i q l r w m) : Continuous (vFun i l r w m) := by
  have hl := h.lOk.good.dur_nonneg; have hm := h.mw
  have lv := h.lOk.good.v_dur; have rz := h.rOk.good.v_zero
  have x2 := h.lOk.vEnd; have x3 := h.rOk.vStart
  unfold vFun
  have c1 := h.lOk.good.continuous_v; have c2 := h.rOk.good.continuous_v
  refine Continuous.if_le continuous_const (Continuous.if_le (by fun_prop) (Continuous.if_le continuous_const (by fun_prop)
    continuous_id continuous_const ?_) continuous_id continuous_const ?_) continuous_id continuous_const ?_
  · intro x hx
    have hx : x = _ := hx
    rw [hx, show i.doneT + l.duration + m / w - i.doneT - l.duration - m / w = 0 by ring, rz, x3]
  · intro x hx
    have hx : x = _ := hx
    rw [hx, if_pos (by linarith), show i.doneT + l.duration - i.doneT = l.duration by ring, lv, x2]
  · intro x hx
    have hx : x = _ := hx
    rw [hx, if_pos (by linarith), sub_self]

theorem v_bounds (h : Planned i q l r w m) {t : ℝ} (ht1 : t ≤ tEnd i l r w m) :
    min (min i.vS i.vE) w ≤ vFun i l r w m t ∧ vFun i l r w m t ≤ max (max i.vS i.vE) w := by
  unfold tEnd at ht1
  unfold vFun
  have hr := h.rOk.good.dur_nonneg
  have hl := h.lOk.good.dur_nonneg
  split_ifs with c1 c2 c3
  · rw [h.lOk.good.v_zero, h.lOk.vStart]
    exact ⟨(min_le_left _ _).trans (min_le_left _ _), (le_max_left _ _).trans (le_max_left _ _)⟩
  · have b := h.lOk.good.v_bounds (t := t - i.doneT) (by linarith) (by linarith)
    rw [h.lOk.vStart, h.lOk.vEnd] at b
    exact ⟨(min_le_min (min_le_left _ _) le_rfl).trans b.1, b.2.trans (max_le_max (le_max_left _ _) le_rfl)⟩
  · exact ⟨min_le_right _ _, le_max_right _ _⟩
  · have b := h.rOk.good.v_bounds (t := t - i.doneT - l.duration - m / w) (by linarith) (by linarith)
    rw [h.rOk.vStart, h.rOk.vEnd] at b
    refine ⟨le_trans ?_ b.1, b.2.trans ?_⟩
    · exact le_min (min_le_right _ _) ((min_le_left _ _).trans (min_le_right _ _))
    · exact max_le (le_max_right _ _) ((le_max_right _ _).trans (le_max_left _ _))

theorem a_bounds (h : Planned i q l r w m) (hf : i.Feasible) {t : ℝ} (ht1 : t ≤ tEnd i l r w m) :
    i.d ≤ aFun i l r w m t ∧ aFun i l r w m t ≤ i.a := by
  unfold tEnd at ht1
  unfold aFun
  have hr := h.rOk.good.dur_nonneg
  have hl := h.lOk.good.dur_nonneg
  have la := h.lOk.aMax; have ld := h.lOk.dMax; have ra := h.rOk.aMax; have rd := h.rOk.dMax
  have := hf.a; have := hf.d
  split_ifs with c1 c2 c3
  · have b := h.lOk.good.a_bounds (le_refl 0) hl
    exact ⟨ld.trans b.1, b.2.trans la⟩
  · have b := h.lOk.good.a_bounds (t := t - i.doneT) (by linarith) (by linarith)
    exact ⟨ld.trans b.1, b.2.trans la⟩
  · constructor <;> linarith
  · have b := h.rOk.good.a_bounds (t := t - i.doneT - l.duration - m / w) (by linarith) (by linarith)
    exact ⟨rd.trans b.1, b.2.trans ra⟩

theorem lip_vFun (h : Planned i q l r w m) (hf : i.Feasible) (ht : i.doneT ≤ tEnd i l r w m) :
    ∀ a b, i.doneT ≤ a → a ≤ b → b ≤ tEnd i l r w m →
      i.d * (b - a) ≤ vFun i l r w m b - vFun i l r w m a ∧ vFun i l r w m b - vFun i l r w m a ≤ i.a * (b - a) := by
  have hl := h.lOk.good.dur_nonneg; have hr := h.rOk.good.dur_nonneg; have hm := h.mw
  have la := h.lOk.aMax; have ld := h.lOk.dMax; have ra := h.rOk.aMax; have rd := h.rOk.dMax
  have lv := h.lOk.good.v_dur; have rz := h.rOk.good.v_zero; have lz := h.lOk.good.v_zero
  have x2 := h.lOk.vEnd; have x3 := h.rOk.vStart
  have e1 : ∀ t, i.doneT ≤ t → t ≤ i.doneT + l.duration → vFun i l r w m t = l.v (t - i.doneT) := by
    intro t h0 h1
    unfold vFun
    rcases h0.eq_or_lt with e | h0
    · rw [if_pos (by linarith), ← e, sub_self]
    · rw [if_neg (not_le.2 h0), if_pos h1]
  have e2 : ∀ t, i.doneT + l.duration ≤ t → t ≤ i.doneT + l.duration + m / w → vFun i l r w m t = w := by
    intro t h0 h1
    rcases h0.eq_or_lt with e | h0
    · rw [e1 t (by linarith) (by linarith), ← e, show i.doneT + l.duration - i.doneT = l.duration by ring, lv, x2]
    · unfold vFun
      rw [if_neg (by linarith), if_neg (not_le.2 h0), if_pos h1]
  have e3 : ∀ t, i.doneT + l.duration + m / w ≤ t → vFun i l r w m t = r.v (t - (i.doneT + l.duration + m / w)) := by
    intro t h0
    rcases h0.eq_or_lt with e | h0
    · rw [e2 t (by linarith) (by linarith), ← e, sub_self, rz, x3]
    · unfold vFun
      rw [if_neg (by linarith), if_neg (by linarith), if_neg (not_le.2 h0)]
      congr 1; ring
  refine lip_join (y := i.doneT + l.duration) ?_ (lip_join (y := i.doneT + l.duration + m / w) ?_ ?_)
  · intro a b ha hab hb
    rw [e1 a ha (hab.trans hb), e1 b (ha.trans hab) hb]
    have := h.lOk.good.lip_v (t := a - i.doneT) (u := b - i.doneT) (by linarith) (by linarith) (by linarith)
    rw [show b - i.doneT - (a - i.doneT) = b - a by ring] at this
    exact ⟨(mul_le_mul_of_nonneg_right ld (by linarith)).trans this.1, this.2.trans (mul_le_mul_of_nonneg_right la (by linarith))⟩
  · intro a b ha hab hb
    rw [e2 a ha (hab.trans hb), e2 b (ha.trans hab) hb, sub_self]
    exact ⟨mul_nonpos_of_nonpos_of_nonneg hf.d.le (by linarith), mul_nonneg hf.a.le (by linarith)⟩
  · intro a b ha hab hb
    unfold tEnd at hb
    rw [e3 a ha, e3 b (ha.trans hab)]
    have := h.rOk.good.lip_v (t := a - (i.doneT + l.duration + m / w)) (u := b - (i.doneT + l.duration + m / w))
      (by linarith) (by linarith) (by linarith)
    rw [show b - (i.doneT + l.duration + m / w) - (a - (i.doneT + l.duration + m / w)) = b - a by ring] at this
    exact ⟨(mul_le_mul_of_nonneg_right rd (by linarith)).trans this.1, this.2.trans (mul_le_mul_of_nonneg_right ra (by linarith))⟩

/-- The speed of a phase that speeds up, and of one that slows down. -/
theorem _root_.Moovr.AccDec.Good.monotone {q : AccDec ℝ} (h : q.Good) :
    (q.vStart ≤ q.vEnd → ∀ x y, 0 ≤ x → x ≤ y → y ≤ q.duration → q.v x ≤ q.v y) ∧
    (q.vEnd ≤ q.vStart → ∀ x y, 0 ≤ x → x ≤ y → y ≤ q.duration → q.v y ≤ q.v x) := by
  have anti := h.v_monotone.2
  refine ⟨fun hle x y h0 h1 h2 => ?_, fun hle x y h0 h1 h2 => anti hle ⟨h0, h1.trans h2⟩ ⟨h0.trans h1, h2⟩ h1⟩
  rcases hle.eq_or_lt with he | hlt
  · have hd := h0.trans (h1.trans h2)
    have a1 := anti he.ge ⟨le_rfl, hd⟩ ⟨h0, h1.trans h2⟩ h0
    have a2 := anti he.ge ⟨h0.trans h1, h2⟩ ⟨hd, le_rfl⟩ h2
    rw [h.v_zero] at a1; rw [h.v_dur] at a2
    linarith
  · exact h.v_monotone.1 hlt ⟨h0, h1.trans h2⟩ ⟨h0.trans h1, h2⟩ h1

/-- Speeding up, keeping the speed, slowing down. -/
theorem shape (h : Planned i q l r w m) (hw : 0 < w) (hS : i.vS ≤ w) (hE : i.vE ≤ w) :
    (∀ x y, i.doneT ≤ x → x ≤ y → y ≤ i.doneT + l.duration → vFun i l r w m x ≤ vFun i l r w m y) ∧
    (∀ x, i.doneT + l.duration ≤ x → x ≤ i.doneT + l.duration + m / w → vFun i l r w m x = w) ∧
    ∀ x y, i.doneT + l.duration + m / w ≤ x → x ≤ y → y ≤ tEnd i l r w m → vFun i l r w m y ≤ vFun i l r w m x := by
  have hl := h.lOk.good.dur_nonneg; have hr := h.rOk.good.dur_nonneg; have hm := h.mw
  have lv := h.lOk.good.v_dur; have rz := h.rOk.good.v_zero
  rw [h.lOk.vEnd] at lv; rw [h.rOk.vStart] at rz
  have e1 : ∀ x, i.doneT ≤ x → x ≤ i.doneT + l.duration → vFun i l r w m x = l.v (x - i.doneT) := by
    intro x h1 h2
    unfold vFun
    split_ifs with c1
    · rw [le_antisymm c1 h1, sub_self]
    · rfl
  have e2 : ∀ x, i.doneT + l.duration ≤ x → x ≤ i.doneT + l.duration + m / w → vFun i l r w m x = w := by
    intro x h1 h2
    rcases h1.eq_or_lt with rfl | h1
    · rw [e1 _ (by linarith) le_rfl, add_sub_cancel_left, lv]
    · unfold vFun
      rw [if_neg (by linarith), if_neg (by linarith), if_pos h2]
  have e3 : ∀ x, i.doneT + l.duration + m / w ≤ x → vFun i l r w m x = r.v (x - i.doneT - l.duration - m / w) := by
    intro x h1
    rcases h1.eq_or_lt with rfl | h1
    · rw [e2 _ (by linarith) le_rfl, show i.doneT + l.duration + m / w - i.doneT - l.duration - m / w = 0 by ring, rz]
    · unfold vFun
      rw [if_neg (by linarith), if_neg (by linarith), if_neg (by linarith)]
  refine ⟨fun x y h0 h1 h2 => ?_, e2, fun x y h0 h1 h2 => ?_⟩
  · rw [e1 x h0 (h1.trans h2), e1 y (h0.trans h1) h2]
    exact h.lOk.good.monotone.1 (by rw [h.lOk.vStart, h.lOk.vEnd]; exact hS) _ _ (by linarith) (by linarith) (by linarith)
  · rw [e3 x h0, e3 y (h0.trans h1)]
    unfold tEnd at h2
    exact h.rOk.good.monotone.2 (by rw [h.rOk.vStart, h.rOk.vEnd]; exact hE) _ _ (by linarith) (by linarith) (by linarith)

theorem monotone_sFun (h : Planned i q l r w m) (hf : i.Feasible) (hw : 0 < w) :
    MonotoneOn (sFun i l r w m) (Iic (tEnd i l r w m)) := by
  have key : MonotoneOn (sFun i l r w m) (Icc i.doneT (tEnd i l r w m)) := by
    refine monotoneOn_of_deriv_nonneg (convex_Icc _ _) (h.continuous_sFun hw).continuousOn ?_ ?_
    · rw [interior_Icc]
      exact fun x hx => (h.deriv_sFun hw hx.1).differentiableAt.differentiableWithinAt
    · rw [interior_Icc]
      intro x hx
      rw [(h.deriv_sFun hw hx.1).deriv]
      exact le_trans (le_min (le_min hf.vS hf.vE) hw.le) (h.v_bounds hx.2.le).1
  have hle : i.doneT ≤ tEnd i l r w m := by
    unfold tEnd; linarith [h.lOk.good.dur_nonneg, h.rOk.good.dur_nonneg, h.mw]
  intro x hx y hy hxy
  rcases le_total y i.doneT with hy' | hy'
  · have : x ≤ i.doneT := hxy.trans hy'
    unfold sFun; rw [if_pos this, if_pos hy']
  · rcases le_total x i.doneT with hx' | hx'
    · have e : sFun i l r w m x = sFun i l r w m i.doneT := by unfold sFun; rw [if_pos hx', if_pos le_rfl]
      rw [e]
      exact key ⟨le_rfl, hle⟩ ⟨hy', hy⟩ hy'
    · exact key ⟨hx', hx⟩ ⟨hy', hy⟩ hxy

/-- The end speed stays reachable all along. -/
theorem slow (h : Planned i q l r w m) (hf : i.Feasible) (hw : 0 < w) {t : ℝ}
    (ht1 : t ≤ tEnd i l r w m) :
    vFun i l r w m t ^ 2 ≤ i.vE ^ 2 - 2 * i.d * (i.doneL + i.L - sFun i l r w m t) := by
  unfold tEnd at ht1
  have hd := hf.d
  have hr := h.rOk.good.dur_nonneg
  have hl := h.lOk.good.dur_nonneg
  have tot := h.total
  have hm := h.m0
  have R0 := h.rOk.good.slow h.rOk.dMax (le_refl 0) hr
  rw [h.rOk.good.v_zero, h.rOk.good.s_zero, h.rOk.vStart, h.rOk.vEnd] at R0
  have L0 := h.lOk.good.slow h.lOk.dMax (le_refl 0) hl
  rw [h.lOk.good.v_zero, h.lOk.good.s_zero, h.lOk.vStart, h.lOk.vEnd] at L0
  have hdm : 0 ≤ -i.d * m := mul_nonneg (by linarith) hm
  have eL : i.L = l.length + m + r.length := tot.symm
  unfold vFun sFun
  split_ifs with c1 c2 c3
  · rw [h.lOk.good.v_zero, h.lOk.vStart, eL]
    nlinarith
  · have L1 := h.lOk.good.slow (t := t - i.doneT) h.lOk.dMax (by linarith) (by linarith)
    rw [h.lOk.vEnd] at L1
    rw [eL]
    nlinarith
  · have : w * (t - i.doneT - l.duration) ≤ m := by
      have : t - i.doneT - l.duration ≤ m / w := by linarith
      rwa [le_div_iff₀ hw, mul_comm] at this
    rw [eL]
    nlinarith [mul_nonneg (neg_nonneg.2 hd.le) (sub_nonneg.2 this)]
  · have R1 := h.rOk.good.slow (t := t - i.doneT - l.duration - m / w) h.rOk.dMax (by linarith) (by linarith)
    rw [h.rOk.vEnd] at R1
    rw [eL]
    nlinarith

end Planned
end Moovr
