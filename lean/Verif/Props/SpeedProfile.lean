import Verif.Lemmas.SpeedProfile
/-!
# Properties of the acceleration and deceleration phases (C31–C33)

Over the real numbers: `float` rounding is not modelled. `AccDec.Params p`: speeds not negative, `aMax > 0`, `dMax < 0`,
`jMax > 0`.
-/
namespace Moovr.Props
open AccDec Set

/-- C31: a computed phase starts and ends as requested. -/
theorem phase_endpoints (p : AccDec ℝ) (hp : p.Params) (o : Order) :
    let q := p.calculate o
    q.s 0 = 0 ∧ q.v 0 = p.vStart ∧ q.s q.duration = q.length ∧ q.v q.duration = p.vEnd ∧
      0 ≤ q.duration ∧ 0 ≤ q.length := by
  have h := (good_calculate hp o).1
  refine ⟨h.s_zero, by rw [h.v_zero, calculate_vStart], h.s_dur, by rw [h.v_dur, calculate_vEnd], h.dur_nonneg,
    h.len_nonneg⟩

/-- C32: inside a phase, speed is the derivative of distance and acceleration the derivative of speed; speed is
continuous; for second-order phases acceleration is continuous as well, and starts and ends at zero. -/
theorem phase_derivatives (p : AccDec ℝ) (hp : p.Params) (o : Order) :
    let q := p.calculate o
    (∀ t, 0 < t → t < q.duration → HasDerivAt q.s (q.v t) t ∧ HasDerivAt q.v (q.a t) t) ∧
    Continuous q.s ∧ Continuous q.v ∧
    (o = .secondOrder → p.vStart ≠ p.vEnd → ContinuousOn q.a (Icc 0 q.duration) ∧ q.a 0 = 0 ∧ q.a q.duration = 0) := by
  have h := (good_calculate hp o).1
  refine ⟨fun t h0 h1 => ?_, h.continuous_s, h.continuous_v, ?_⟩
  · rw [show (p.calculate o).s = (p.calculate o).curve.s from funext h.s,
      show (p.calculate o).v = (p.calculate o).curve.v from funext h.v, h.a]
    rw [h.duration] at h1
    exact ⟨h.ok.deriv_s t, h.ok.deriv_v t h0 h1⟩
  · rintro rfl hne
    have hpos : 0 < (p.calculate .secondOrder).d1d3 := by
      rcases second_pos hp with h' | h'
      · exact h'
      · exfalso
        have h1 := h.v_zero
        have h2 := h.v_dur
        rw [h', h1, calculate_vStart, calculate_vEnd] at h2
        exact hne h2
    have hpos' : 0 < (p.calculate .secondOrder).curve.d := by rw [curve_d]; exact hpos
    rw [show (p.calculate .secondOrder).a = (p.calculate .secondOrder).curve.a from funext h.a, h.duration]
    have hd2 := h.ok.d2
    refine ⟨?_, ?_, ?_⟩
    · have key : LipschitzOnWith (Real.toNNReal |(p.calculate .secondOrder).curve.J|)
          (p.calculate .secondOrder).curve.a (Icc 0 (p.calculate .secondOrder).curve.dur) := by
        refine LipschitzOnWith.of_dist_le_mul fun x hx y hy => ?_
        rw [Real.coe_toNNReal _ (abs_nonneg _), Real.dist_eq, Real.dist_eq]
        rcases le_total x y with hxy | hxy
        · have := h.ok.a_lipschitz hpos' hx.1 hxy hy.2
          rw [abs_sub_comm, abs_sub_comm x y, abs_of_nonneg (sub_nonneg.2 hxy)]
          exact this
        · have := h.ok.a_lipschitz hpos' hy.1 hxy hx.2
          rw [abs_of_nonneg (sub_nonneg.2 hxy)]
          exact this
      exact key.continuousOn
    · unfold SCurve.a; rw [if_pos hpos']; ring
    · unfold SCurve.a
      rw [if_neg (by unfold SCurve.dur; linarith), if_pos (by unfold SCurve.dur; linarith)]
      ring

/-- C33: acceleration stays within the requested limits, speed is monotone and between start and end speed, and the jerk of
second-order phases is at most `jMax`. -/
theorem phase_bounds (p : AccDec ℝ) (hp : p.Params) (o : Order) :
    let q := p.calculate o
    (∀ t, 0 ≤ t → t ≤ q.duration →
      p.dMax ≤ q.a t ∧ q.a t ≤ p.aMax ∧ min p.vStart p.vEnd ≤ q.v t ∧ q.v t ≤ max p.vStart p.vEnd) ∧
    (p.vStart < p.vEnd → MonotoneOn q.v (Icc 0 q.duration)) ∧
    (p.vEnd ≤ p.vStart → AntitoneOn q.v (Icc 0 q.duration)) ∧
    (o = .secondOrder → ∀ t u, 0 ≤ t → t ≤ u → u ≤ q.duration → |q.a u - q.a t| ≤ p.jMax * (u - t)) := by
  obtain ⟨h, ha, hd⟩ := good_calculate hp o
  have hm := h.v_monotone
  rw [calculate_vStart, calculate_vEnd] at hm
  refine ⟨fun t h0 h1 => ?_, hm.1, hm.2, ?_⟩
  · have b := h.v_bounds h0 h1
    rw [calculate_vStart, calculate_vEnd] at b
    exact ⟨hd.trans (h.a_bounds h0 h1).1, (h.a_bounds h0 h1).2.trans ha, b.1, b.2⟩
  · rintro rfl t u h0 htu h1
    rcases second_pos hp with hpos | hz
    · rw [h.a, h.a]
      rw [h.duration] at h1
      have := h.ok.a_lipschitz (by rw [curve_d]; exact hpos) h0 htu h1
      have hj : |(p.calculate .secondOrder).curve.J| = p.jMax := by
        have hj := calculate_jMax p .secondOrder
        unfold curve
        split_ifs
        · simp only; rw [hj, abs_of_pos hp.jMax]
        · simp only; rw [hj, abs_neg, abs_of_pos hp.jMax]
      rw [hj] at this
      exact this
    · have : t = u := by rw [hz] at h1; linarith
      subst this
      simp

/-- Example: from 0 to 10 mm/s with `aMax` 200 mm/s², `jMax` 600 mm/s³ — the acceleration limit is not reached. -/
noncomputable def exPhase : AccDec ℝ := { AccDec.zero with vStart := 0, vEnd := 10, aMax := 200, dMax := -200, jMax := 600 }

theorem exPhase_params : exPhase.Params := by constructor <;> norm_num [exPhase]

example : let q := exPhase.calculate .secondOrder; q.s 0 = 0 ∧ q.v q.duration = 10 ∧ q.a q.duration = 0 :=
  ⟨(phase_endpoints _ exPhase_params .secondOrder).1, (phase_endpoints _ exPhase_params .secondOrder).2.2.2.1,
    ((phase_derivatives _ exPhase_params .secondOrder).2.2.2 rfl (by norm_num [exPhase])).2.2⟩

example (t : ℝ) (h0 : 0 ≤ t) (h1 : t ≤ (exPhase.calculate .secondOrder).duration) :
    (exPhase.calculate .secondOrder).a t ≤ 200 :=
  ((phase_bounds _ exPhase_params .secondOrder).1 t h0 h1).2.1

end Moovr.Props
