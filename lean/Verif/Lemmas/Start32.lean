import Verif.Lemmas.Drive32
/-!
# The first ramp of a motion in single precision: as long as little has been travelled, the speed is low
-/
namespace Moovr
open Num Float32 Single Ramp

namespace Ramp
variable {r : Ramp} {V T α : ℝ}

/-- The ramp starts from rest, up to the speed `V`, with an acceleration of `α` at most. -/
structure FromRest (r : Ramp) (V T α : ℝ) : Prop extends r.Ok V T where
  rest : r.v0 = 0
  top : r.v1 = V
  J_nonneg : 0 ≤ r.J
  A_nonneg : 0 ≤ r.A
  A_le : r.A ≤ α
  J_le : r.J * r.D ≤ α

theorem FromRest.alpha_nonneg (h : r.FromRest V T α) : 0 ≤ α := h.A_nonneg.trans h.A_le

/-- Without rounding, half of the speed is reached at the end of the second part. -/
theorem FromRest.half (h : r.FromRest V T α) : V / 2 - 10 * eps * V ≤ r.J * r.D ^ 2 / 2 + r.A * (r.mark - r.D) := by
  have hm := (abs_le.1 h.mark_err).1
  have hc := (abs_le.1 h.close).1
  rw [h.rest, h.top] at hc
  have ha := h.acc
  rw [abs_of_nonneg h.A_nonneg] at ha
  have h1 := mul_le_mul_of_nonneg_left (show r.d2 - 101 / 100 * eps * T ≤ r.mark - r.D by linarith) h.A_nonneg
  have h2 := mul_le_mul_of_nonneg_left ha eps_pos.le
  have h3 : 0 ≤ eps * V := mul_nonneg eps_pos.le h.V_pos.le
  have h4 : 0 ≤ r.A * r.d2 := mul_nonneg h.A_nonneg h.d2_nonneg
  linarith

/-- Until the end of the second part. -/
theorem FromRest.start (h : r.FromRest V T α) {t : ℝ} (h0 : 0 ≤ t) (h1 : t ≤ r.mark) :
    ∃ P, 0 ≤ P ∧ P ^ 2 ≤ 2 * α * (r.dist t + 18 * eps * (V * T)) ∧
      (∀ t', t ≤ t' → t' ≤ r.mark → r.dist t' ≤ r.dist t + (P + α * (t' - t)) * (t' - t) + 36 * eps * (V * T)) ∧
      V / 2 - 10 * eps * V ≤ P + α * (r.mark - t) := by
  have hα := h.alpha_nonneg
  have hJ := h.J_nonneg
  have hA := h.A_nonneg
  have hD := h.D_nonneg
  have hW : 0 ≤ eps * (V * T) := mul_nonneg eps_pos.le (mul_nonneg h.V_pos.le h.T_pos.le)
  have hhalf := h.half
  have hDm := h.mark_ge
  have e2 : ∀ s, r.ideal2 s = r.J * r.D ^ 3 / 6 + r.J * r.D ^ 2 / 2 * (s - r.D) + r.A * (s - r.D) ^ 2 / 2 := by
    intro s; unfold ideal2; rw [h.rest]; ring
  have e1 : ∀ s, r.ideal1 s = r.J * s ^ 3 / 6 := by intro s; unfold ideal1; rw [h.rest]; ring
  have d1 : ∀ s, 0 ≤ s → s < r.D → |r.dist s - r.ideal1 s| ≤ 18 * eps * (V * T) := by
    intro s s0 s1
    unfold dist; rw [if_pos s1]
    exact (h.dist1_err s0 s1.le).trans (by linarith)
  have d2 : ∀ s, r.D ≤ s → s ≤ r.mark → |r.dist s - r.ideal2 s| ≤ 18 * eps * (V * T) := by
    intro s s0 s1
    unfold dist; rw [if_neg (not_lt.2 s0), if_neg (not_lt.2 s1)]
    exact h.dist2_err s0 s1
  by_cases c : t < r.D
  · have p := abs_le.1 (d1 t h0 c)
    rw [e1] at p
    have jt : r.J * t ≤ α := (mul_le_mul_of_nonneg_left c.le hJ).trans h.J_le
    refine ⟨r.J * t ^ 2 / 2, by positivity, ?_, ?_, ?_⟩
    · have k1 : (r.J * t ^ 2 / 2) ^ 2 ≤ 2 * α * (r.J * t ^ 3 / 6) := by
        have := mul_le_mul_of_nonneg_left jt (show 0 ≤ r.J * t ^ 3 by positivity)
        have n0 : 0 ≤ r.J * t ^ 3 * (r.J * t) := by positivity
        nlinarith
      have k2 := mul_le_mul_of_nonneg_left (show r.J * t ^ 3 / 6 ≤ r.dist t + 18 * eps * (V * T) by linarith)
        (show 0 ≤ 2 * α by linarith)
      linarith
    · intro t' ht' hm'
      by_cases c' : t' < r.D
      · have p' := abs_le.1 (d1 t' (h0.trans ht') c')
        rw [e1] at p'
        have jt' : r.J * t' ≤ α := (mul_le_mul_of_nonneg_left c'.le hJ).trans h.J_le
        obtain ⟨x, hx, rfl⟩ : ∃ x, 0 ≤ x ∧ t' = t + x := ⟨t' - t, by linarith, by ring⟩
        have k1 : r.J * (t + x) ^ 3 / 6 - r.J * t ^ 3 / 6 ≤ (r.J * t ^ 2 / 2 + α * x) * x := by
          have e : (r.J * t ^ 2 / 2 + α * x) * x - (r.J * (t + x) ^ 3 / 6 - r.J * t ^ 3 / 6) =
            x ^ 2 * (α - r.J * (t + x) / 2 + r.J * x / 3) := by ring
          have : 0 ≤ x ^ 2 * (α - r.J * (t + x) / 2 + r.J * x / 3) := by
            refine mul_nonneg (by positivity) ?_
            have : 0 ≤ r.J * x := by positivity
            linarith
          linarith
        rw [add_sub_cancel_left]
        linarith
      · have p' := abs_le.1 (d2 t' (not_lt.1 c') hm')
        rw [e2] at p'
        obtain ⟨x, hx, rfl⟩ : ∃ x, 0 ≤ x ∧ t' = r.D + x := ⟨t' - r.D, by linarith [not_lt.1 c'], by ring⟩
        have jD := h.J_le
        generalize r.D = D at *
        obtain ⟨y, hy, rfl⟩ : ∃ y, 0 ≤ y ∧ D = t + y := ⟨D - t, by linarith, by ring⟩
        have k1 : r.J * (t + y) ^ 3 / 6 + r.J * (t + y) ^ 2 / 2 * x + r.A * x ^ 2 / 2 - r.J * t ^ 3 / 6 ≤
            (r.J * t ^ 2 / 2 + α * (x + y)) * (x + y) := by
          have e : (r.J * t ^ 2 / 2 + α * (x + y)) * (x + y) -
              (r.J * (t + y) ^ 3 / 6 + r.J * (t + y) ^ 2 / 2 * x + r.A * x ^ 2 / 2 - r.J * t ^ 3 / 6) =
            y ^ 2 * (α - r.J * (t + y) / 2 + r.J * y / 3) + x * y * (α + (α - r.J * (t + y)) + r.J * y / 2) +
              x ^ 2 * (α - r.A / 2) := by ring
          have n1 : 0 ≤ r.J * y := by positivity
          have n2 : 0 ≤ y ^ 2 * (α - r.J * (t + y) / 2 + r.J * y / 3) := mul_nonneg (by positivity) (by linarith)
          have n3 : 0 ≤ x * y * (α + (α - r.J * (t + y)) + r.J * y / 2) := mul_nonneg (by positivity) (by linarith)
          have n4 : 0 ≤ x ^ 2 * (α - r.A / 2) := mul_nonneg (by positivity) (by linarith [h.A_le])
          linarith
        have e : t + y + x - t = x + y := by ring
        have e' : t + y + x - (t + y) = x := by ring
        rw [e'] at p'
        rw [e]
        linarith
    · have k1 : r.J * r.D ^ 2 / 2 ≤ r.J * t ^ 2 / 2 + α * (r.D - t) := by
        have n1 := mul_le_mul_of_nonneg_right (show r.J * (r.D + t) / 2 ≤ α by linarith [h.J_le]) (show 0 ≤ r.D - t by linarith)
        nlinarith
      have k2 := mul_le_mul_of_nonneg_right h.A_le (show 0 ≤ r.mark - r.D by linarith)
      linarith
  · have c := not_lt.1 c
    have p := abs_le.1 (d2 t c h1)
    rw [e2] at p
    obtain ⟨x, hx, rfl⟩ : ∃ x, 0 ≤ x ∧ t = r.D + x := ⟨t - r.D, by linarith, by ring⟩
    rw [add_sub_cancel_left] at p
    refine ⟨r.J * r.D ^ 2 / 2 + r.A * x, by positivity, ?_, ?_, ?_⟩
    · have k1 : (r.J * r.D ^ 2 / 2 + r.A * x) ^ 2 ≤ 2 * α * (r.J * r.D ^ 3 / 6 + r.J * r.D ^ 2 / 2 * x + r.A * x ^ 2 / 2) := by
        have n1 : 0 ≤ r.J * r.D ^ 3 * (4 / 3 * α - r.J * r.D) := mul_nonneg (by positivity) (by linarith [h.J_le])
        have n2 : 0 ≤ r.J * r.D ^ 2 * x * (α - r.A) := mul_nonneg (by positivity) (by linarith [h.A_le])
        have n3 : 0 ≤ r.A * x ^ 2 * (α - r.A) := mul_nonneg (by positivity) (by linarith [h.A_le])
        nlinarith
      have k2 := mul_le_mul_of_nonneg_left (show r.J * r.D ^ 3 / 6 + r.J * r.D ^ 2 / 2 * x + r.A * x ^ 2 / 2 ≤
        r.dist (r.D + x) + 18 * eps * (V * T) by linarith) (show 0 ≤ 2 * α by linarith)
      linarith
    · intro t' ht' hm'
      have p' := abs_le.1 (d2 t' (c.trans ht') hm')
      rw [e2] at p'
      obtain ⟨y, hy, rfl⟩ : ∃ y, 0 ≤ y ∧ t' = r.D + x + y := ⟨t' - (r.D + x), by linarith, by ring⟩
      rw [show r.D + x + y - r.D = x + y by ring] at p'
      rw [add_sub_cancel_left]
      have n1 : 0 ≤ y ^ 2 * (α - r.A / 2) := mul_nonneg (by positivity) (by linarith [h.A_le])
      nlinarith
    · have k2 := mul_le_mul_of_nonneg_right h.A_le (show 0 ≤ r.mark - (r.D + x) by linarith)
      linarith

/-- At its end the ramp has the length of a motion at the acceleration `α`, at least. -/
theorem FromRest.whole (h : r.FromRest V T α) {δ η : ℝ} (ho : r.Over V T δ) (hη : |r.J| * δ ^ 2 ≤ 2 * η)
    (hδ : 203 / 100 * eps * T ≤ δ) :
    (1 - 8 * eps) * V ^ 2 ≤ 2 * α * (r.dist r.dur + 9 * eps * (V * T) + dip V T η) := by
  have hα := h.alpha_nonneg
  have hV := h.V_pos
  have du := abs_le.1 h.dur_err
  have hl := abs_le.1 h.len_err
  rw [h.rest, h.top, zero_add] at hl
  have he := abs_le.1 (h.ends ho hη h.dur_nonneg (by linarith))
  have hv : V * |2 * r.D + r.d2 - r.dur| ≤ V * (203 / 100 * eps * T) := by
    refine mul_le_mul_of_nonneg_left ?_ hV.le
    rw [abs_sub_comm]; exact h.dur_err
  have hW : 0 ≤ eps * (V * T) := mul_nonneg eps_pos.le (mul_nonneg hV.le h.T_pos.le)
  have k1 : V * (2 * r.D + r.d2) / 2 ≤ r.dist r.dur + 9 * eps * (V * T) + dip V T η := by linarith
  have k2 := mul_le_mul_of_nonneg_left k1 (show 0 ≤ 2 * α by linarith)
  have hc := (abs_le.1 h.close).1
  rw [h.rest, h.top] at hc
  have k3 : (1 - 8 * eps) * V ≤ α * (2 * r.D + r.d2) := by
    have n1 := mul_le_mul_of_nonneg_right h.J_le h.D_nonneg
    have n2 := mul_le_mul_of_nonneg_right h.A_le h.d2_nonneg
    have n3 : 0 ≤ α * r.D := mul_nonneg hα h.D_nonneg
    have n4 : r.J * r.D ^ 2 = r.J * r.D * r.D := by ring
    linarith
  have k4 := mul_le_mul_of_nonneg_left k3 hV.le
  linarith

/-- The parts of a ramp have accelerations near `a`. -/
theorem parts_acc {V a j : ℝ} (hs : Sizes V a j) (o : Order) :
    (parts V a j o).A ≤ 1001 / 1000 * a ∧ j * (parts V a j o).D ≤ 1001 / 1000 * a := by
  have hV := hs.V_pos
  have ha := hs.a_pos
  have hj := hs.j_pos
  have b2 : 1 / 65536 / 65536 ≤ a / j := div_le_div₀ ha.le hs.a_ge hj hs.j_le
  have hq := abs_le.1 (rel126 (x := a / j) (by norm_num at b2 ⊢; linarith))
  have hjq : j * (a / j) = a := by field_simp
  have q0 : 0 < a / j := by positivity
  have jq : j * rnd (a / j) ≤ (1 + eps) * a := by
    have := mul_le_mul_of_nonneg_left (show rnd (a / j) ≤ (1 + eps) * (a / j) by linarith) hj.le
    rw [mul_left_comm, hjq] at this
    exact this
  cases o with
  | firstOrder =>
    refine ⟨?_, ?_⟩
    · show a ≤ _; linarith
    · show j * 0 ≤ _; linarith
  | secondOrder =>
    by_cases c : V < rnd (rnd (j * rnd (a / j)) * rnd (a / j))
    · have hf := fit_short hs c
      have hcl := (abs_le.1 hf.close).2
      simp only [parts, if_pos c, mul_zero, add_zero] at hcl ⊢
      have hD0 : 0 ≤ rnd √(rnd (V / j)) := rnd_nonneg (Real.sqrt_nonneg _)
      generalize rnd √(rnd (V / j)) = D at *
      -- the limit
      have jq0 : (1 - eps) * a ≤ j * rnd (a / j) := by
        have := mul_le_mul_of_nonneg_left (show (1 - eps) * (a / j) ≤ rnd (a / j) by linarith) hj.le
        rw [mul_left_comm, hjq] at this
        exact this
      have r1 := abs_le.1 (rel126 (x := j * rnd (a / j)) (by have := hs.a_ge; unfold eps at jq0; norm_num at *; linarith))
      have w0 : 0 ≤ rnd (a / j) := rnd_nonneg q0.le
      have g1 : rnd (j * rnd (a / j)) ≤ (1 + eps) ^ 2 * a := by
        have := mul_le_mul_of_nonneg_left jq (show 0 ≤ 1 + eps by unfold eps; norm_num)
        linarith
      have g2 : rnd (j * rnd (a / j)) * rnd (a / j) ≤ (1 + eps) ^ 3 * (a * (a / j)) := by
        have := mul_le_mul g1 (show rnd (a / j) ≤ (1 + eps) * (a / j) by linarith) w0 (by unfold eps; positivity)
        linarith
      have r2 := rnd_mono g2
      have r3 := abs_le.1 (rel126 (x := (1 + eps) ^ 3 * (a * (a / j))) (by
        have : 1 / 65536 * (1 / 65536 / 65536) ≤ a * (a / j) := mul_le_mul hs.a_ge b2 (by norm_num) ha.le
        have : a * (a / j) ≤ (1 + eps) ^ 3 * (a * (a / j)) := by
          refine le_mul_of_one_le_left (by positivity) ?_
          unfold eps; norm_num
        norm_num at *
        linarith))
      have g3 : j * D ^ 2 ≤ (1 + 8 * eps) * ((1 + eps) ^ 4 * (a * (a / j))) := by
        have : V ≤ (1 + eps) ^ 4 * (a * (a / j)) := by linarith
        have := mul_le_mul_of_nonneg_left this (show 0 ≤ 1 + 8 * eps by unfold eps; norm_num)
        linarith
      have g4 : (j * D) ^ 2 ≤ (10005 / 10000 * a) ^ 2 := by
        have h1 := mul_le_mul_of_nonneg_left g3 hj.le
        have e : j * ((1 + 8 * eps) * ((1 + eps) ^ 4 * (a * (a / j)))) = (1 + 8 * eps) * (1 + eps) ^ 4 * (a * (j * (a / j))) := by ring
        rw [e, hjq] at h1
        have h2 : (1 + 8 * eps) * (1 + eps) ^ 4 * (a * a) ≤ (10005 / 10000) ^ 2 * (a * a) :=
          mul_le_mul_of_nonneg_right (by unfold eps; norm_num) (by positivity)
        nlinarith
      have g5 : j * D ≤ 10005 / 10000 * a := abs_le_of_sq_le_sq' g4 (by positivity) |>.2
      refine ⟨?_, by linarith⟩
      have g6 := rnd_mono g5
      have r4 := abs_le.1 (rel126 (x := 10005 / 10000 * a) (by have := hs.a_ge; norm_num at *; linarith))
      unfold eps at r4
      linarith
    · simp only [parts, if_neg c]
      refine ⟨by linarith, ?_⟩
      unfold eps at jq
      linarith

theorem up_fromRest {V a j T : ℝ} {o : Order} (hs : Sizes V a j) (h : Fit V j (parts V a j o) T) :
    (up V a j o).FromRest V T (1001 / 1000 * a) where
  toOk := h.ok_up hs
  rest := rfl
  top := rfl
  J_nonneg := hs.j_pos.le
  A_nonneg := h.A_nonneg
  A_le := (parts_acc hs o).1
  J_le := (parts_acc hs o).2

end Ramp
end Moovr
