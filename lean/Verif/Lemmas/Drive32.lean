import Verif.Lemmas.Moderate32
/-!
# The planned motion is a `Trip`
-/
namespace Moovr
open Num Float32 Single Ramp

/-- Bound on the duration of each ramp. -/
noncomputable def rampTime (V a d j : ℝ) : ℝ := max (scale V a j) (scale V d j)

namespace Moderate
variable {L v a d j : ℝ}

theorem order_cases (L v a d j : ℝ) :
    (order32 L v a d j = .firstOrder ∧ speed32 L v a d = tri32 L a d) ∨
    (order32 L v a d j = .firstOrder ∧ speed32 L v a d = v ∧ L < ramps32 (speed32 L v a d) a d j .secondOrder) ∨
    (order32 L v a d j = .secondOrder ∧ speed32 L v a d = v ∧ ¬ L < ramps32 (speed32 L v a d) a d j .secondOrder) := by
  unfold order32 firstChoice32
  by_cases c : tri32 L a d < v
  · left
    simp only [if_pos c, ite_self, true_and]
    unfold speed32
    rw [if_pos c]
  · have e : speed32 L v a d = v := by unfold speed32; rw [if_neg c]
    right
    simp only [if_neg c]
    by_cases c' : L < ramps32 (speed32 L v a d) a d j .secondOrder
    · left; rw [if_pos c']; exact ⟨rfl, e, c'⟩
    · right; rw [if_neg c']; exact ⟨rfl, e, c'⟩

/-- The ramps are not much longer than the path. -/
theorem first_le (h : Moderate L v a d j) :
    ramps32 (speed32 L v a d) a d j .firstOrder ≤ (1 + 124 / 10 * eps) * L := by
  have hn := h.ramps_near h.sizes_a h.sizes_d
  have ht := h.tri_near.le
  have h2 := (speed_le L v a d).2
  have h0 := h.sizes_a.V_pos
  have a0 := h.a_pos
  have d0 := h.d_pos
  have L0 := h.L_pos
  generalize speed32 L v a d = V at *
  have hsq : V ^ 2 ≤ tri32 L a d ^ 2 := pow_le_pow_left₀ h0.le h2 2
  have e : V ^ 2 * (a + d) / (2 * a * d) ≤ (1 + 81 / 10 * eps) * L := by
    rw [div_le_iff₀ (by positivity)]
    have h3 := mul_le_mul_of_nonneg_right (hsq.trans ht) (show 0 ≤ a + d by linarith)
    have h4 : (1 + 81 / 10 * eps) * (2 * L * a * d / (a + d)) * (a + d) = (1 + 81 / 10 * eps) * L * (2 * a * d) := by
      field_simp
    linarith
  refine hn.le.trans ((mul_le_mul_of_nonneg_left e (by unfold eps; norm_num)).trans ?_)
  unfold eps
  linarith

theorem mid_ge (h : Moderate L v a d j) :
    -(13 * eps * L) ≤ rnd (L - ramps32 (speed32 L v a d) a d j (order32 L v a d j)) := by
  have L0 := h.L_pos
  have key : ramps32 (speed32 L v a d) a d j (order32 L v a d j) ≤ (1 + 124 / 10 * eps) * L := by
    rcases order_cases L v a d j with ⟨e, -⟩ | ⟨e, -, -⟩ | ⟨e, -, c⟩
    · rw [e]; exact h.first_le
    · rw [e]; exact h.first_le
    · rw [e]
      refine (not_lt.1 c).trans ?_
      unfold eps; linarith
  have h1 : -(124 / 10 * eps * L) ≤ L - ramps32 (speed32 L v a d) a d j (order32 L v a d j) := by linarith
  have h2 := rnd_mono h1
  rw [rnd_neg] at h2
  have h3 := abs_le.1 (rel126 (x := 124 / 10 * eps * L) (by have := h.L_ge; unfold eps; norm_num; linarith))
  refine le_trans ?_ h2
  unfold eps at *
  linarith

theorem ramps_nonneg {V a d j : ℝ} {o : Order} {T T' : ℝ} (h1 : (up V a j o).Ok V T) (h2 : (down V d j o).Ok V T') :
    0 ≤ (up V a j o).len ∧ 0 ≤ (down V d j o).len ∧ 0 ≤ ramps32 V a d j o := by
  have hp : ∀ {r : Ramp} {T : ℝ}, r.Ok V T → 0 ≤ r.len := by
    intro r T h
    refine rnd_nonneg (mul_nonneg (rnd_nonneg (mul_nonneg (rnd_nonneg ?_) h.dur_nonneg)) (by norm_num))
    linarith [h.v0_nonneg, h.v1_nonneg]
  exact ⟨hp h1, hp h2, rnd_nonneg (add_nonneg (hp h1) (hp h2))⟩

/-- The length of a ramp, `V` being the speed at one end. -/
theorem len_bound {V a j T : ℝ} {o : Order} (hs : Sizes V a j) (h : Fit V j (parts V a j o) T) :
    (up V a j o).len ≤ 51 / 100 * (V * T) ∧ (down V a j o).len ≤ 51 / 100 * (V * T) := by
  have h1 := (abs_le.1 (h.ok_up hs).len_err).2
  have h2 := (abs_le.1 (h.ok_down hs).len_err).2
  have hV := hs.V_pos
  have hT := (h.ok_up hs).T_pos
  have ht := mul_le_mul_of_nonneg_left h.total hV.le
  have hW : 0 < V * T := by positivity
  simp only [up, zero_add] at h1
  simp only [down, add_zero] at h2
  unfold eps at *
  constructor
  · simp only [up]; linarith
  · simp only [down]; linarith

theorem ramps_le {V a d j T : ℝ} {o : Order} (ha : Sizes V a j) (hd : Sizes V d j) (hT : rampTime V a d j = T) :
    ramps32 V a d j o ≤ 103 / 100 * (V * T) := by
  obtain ⟨T1, b1, f1, -⟩ := fits ha o
  obtain ⟨T2, b2, f2, -⟩ := fits hd o
  have hV := ha.V_pos
  have c1 : T1 ≤ T := by rw [← hT]; exact b1.trans (le_max_left _ _)
  have c2 : T2 ≤ T := by rw [← hT]; exact b2.trans (le_max_right _ _)
  have l1 := (len_bound ha f1).1
  have l2 := (len_bound hd f2).2
  have w1 := mul_le_mul_of_nonneg_left c1 hV.le
  have w2 := mul_le_mul_of_nonneg_left c2 hV.le
  have n := ramps_nonneg (f1.ok_up ha) (f2.ok_down hd)
  have h3 := (abs_le.1 (rnd_err ((up V a j o).len + (down V d j o).len))).2
  rw [abs_of_nonneg (by linarith [n.1, n.2.1])] at h3
  have ht := (f1.tinies ha).2
  have hT1 := (f1.ok_up ha).T_pos
  have : tiny ≤ eps * eps * (V * T1) := by
    have : tiny * 1 ≤ tiny * (T1 ^ 2 + T1 + 2) := mul_le_mul_of_nonneg_left (by nlinarith) tiny_pos.le
    linarith
  have : 0 < V * T1 := by positivity
  unfold ramps32
  unfold eps at *
  linarith

theorem T_facts (h : Moderate L v a d j) {V T : ℝ} (hV : V = speed32 L v a d) (hT : rampTime V a d j = T) :
    205 / 100 * (V / a) ≤ T ∧ 205 / 100 * (V / d) ≤ T ∧ T ≤ 1024 * (205 / 100 * (V / a)) ∧ T ≤ 1024 * (205 / 100 * (V / d)) ∧
    T ≤ 31 * √(V / j) ∧ j * T ^ 2 ≤ 1000 * V := by
  have ha := h.a_pos
  have hd := h.d_pos
  have hj := h.j_pos
  have hV1 : 1 / 64 ≤ V := by rw [hV]; exact h.speed_ge
  have hV2 : V ≤ v := by rw [hV]; exact (speed_le L v a d).1
  have hV0 : 0 < V := by linarith
  have s1 : ∀ x, 0 < x → x ^ 2 ≤ 16384 * j → √(V / j) ≤ 1024 * (V / x) := by
    intro x hx h1
    refine Real.sqrt_le_iff.2 ⟨by positivity, ?_⟩
    rw [div_le_iff₀ hj]
    have : (1024 * (V / x)) ^ 2 * j = V * (1048576 * V * j / x ^ 2) := by field_simp; ring
    rw [this]
    have : 1 ≤ 1048576 * V * j / x ^ 2 := by
      rw [le_div_iff₀ (by positivity)]
      nlinarith
    nlinarith
  have s2 : ∀ x, 0 < x → j * v ≤ 200 * x ^ 2 → V / x ≤ 142 / 10 * √(V / j) ∧ j * (V / x) ^ 2 ≤ 200 * V := by
    intro x hx h1
    have h2 : j * V ≤ 200 * x ^ 2 := (mul_le_mul_of_nonneg_left hV2 hj.le).trans h1
    have h3 : j * (V / x) ^ 2 ≤ 200 * V := by
      rw [div_pow, ← mul_div_assoc, div_le_iff₀ (by positivity)]
      nlinarith
    refine ⟨?_, h3⟩
    have hs := Real.sq_sqrt (show 0 ≤ V / j by positivity)
    have h4 : (V / x) ^ 2 ≤ (142 / 10 * √(V / j)) ^ 2 := by
      rw [mul_pow, hs]
      have : (V / x) ^ 2 ≤ 200 * (V / j) := by
        rw [← mul_div_assoc, le_div_iff₀ hj]; linarith
      have : 0 < V / j := by positivity
      norm_num; linarith
    exact abs_le_of_sq_le_sq' h4 (by positivity) |>.2
  have ra : V / d ≤ 1000 * (V / a) := by
    rw [← mul_div_assoc, div_le_div_iff₀ hd ha]
    nlinarith [h.balanced.1]
  have rd : V / a ≤ 1000 * (V / d) := by
    rw [← mul_div_assoc, div_le_div_iff₀ ha hd]
    nlinarith [h.balanced.2]
  have pa : 0 < V / a := by positivity
  have pd : 0 < V / d := by positivity
  have qa := s1 a ha h.firm_a
  have qd := s1 d hd h.firm_d
  have ua := s2 a ha h.jerky_a
  have ud := s2 d hd h.jerky_d
  have hsq : 0 < √(V / j) := Real.sqrt_pos.2 (by positivity)
  have hs := Real.sq_sqrt (show 0 ≤ V / j by positivity)
  have hT31 : T ≤ 31 * √(V / j) := by
    rw [← hT]; unfold rampTime scale
    refine max_le ?_ ?_ <;> rw [← le_div_iff₀' (by norm_num)] <;> refine max_le ?_ ?_ <;> linarith [ua.1, ud.1]
  have hTp : 0 < T := by
    rw [← hT]; unfold rampTime scale
    exact lt_max_of_lt_left (mul_pos (by norm_num) (lt_max_of_lt_left pa))
  refine ⟨?_, ?_, ?_, ?_, hT31, ?_⟩
  · rw [← hT]; exact le_max_of_le_left (mul_le_mul_of_nonneg_left (le_max_left _ _) (by norm_num))
  · rw [← hT]; exact le_max_of_le_right (mul_le_mul_of_nonneg_left (le_max_left _ _) (by norm_num))
  · rw [← hT]; unfold rampTime scale
    refine max_le ?_ ?_ <;> rw [← le_div_iff₀' (by norm_num)] <;> refine max_le ?_ ?_ <;> linarith
  · rw [← hT]; unfold rampTime scale
    refine max_le ?_ ?_ <;> rw [← le_div_iff₀' (by norm_num)] <;> refine max_le ?_ ?_ <;> linarith
  · have := mul_le_mul hT31 hT31 hTp.le (by positivity)
    have h1 : j * T ^ 2 ≤ j * (31 * √(V / j) * (31 * √(V / j))) := by
      rw [sq]; exact mul_le_mul_of_nonneg_left this hj.le
    have h2 : j * (31 * √(V / j) * (31 * √(V / j))) = 961 * (j * √(V / j) ^ 2) := by ring
    have h3 : j * (V / j) = V := by field_simp
    rw [h2, hs, h3] at h1
    linarith

/-- A motion without jerk is short. -/
theorem short (h : Moderate L v a d j) {V T : ℝ} (hV : V = speed32 L v a d) (hT : rampTime V a d j = T)
    (ho : order32 L v a d j = .firstOrder) : L ≤ 103 / 100 * (V * T) := by
  rcases order_cases L v a d j with ⟨-, e⟩ | ⟨-, -, c⟩ | ⟨e, -, -⟩
  · obtain ⟨t1, t2, -⟩ := h.T_facts hV hT
    have a0 := h.a_pos
    have d0 := h.d_pos
    have L0 := h.L_pos
    have hV0 : 0 < V := by rw [hV]; exact h.sizes_a.V_pos
    have hn := h.tri_near.ge
    rw [← e, ← hV] at hn
    have q0 : 0 < 2 * L * a * d / (a + d) := by positivity
    have h1 : 99 / 100 * (2 * L * a * d / (a + d)) ≤ V ^ 2 := by
      unfold eps at hn; linarith
    have h2 : 2 * L * a * d / (a + d) * ((a + d) / (2 * a * d)) = L := by field_simp
    have h3 := mul_le_mul_of_nonneg_right h1 (show 0 ≤ (a + d) / (2 * a * d) by positivity)
    have h4 : V ^ 2 * ((a + d) / (2 * a * d)) = V * (V / a) / 2 + V * (V / d) / 2 := by field_simp; ring
    have w1 := mul_le_mul_of_nonneg_left t1 hV0.le
    have w2 := mul_le_mul_of_nonneg_left t2 hV0.le
    have : 0 < V * (V / a) := by positivity
    rw [h4] at h3
    linarith
  · rw [← hV] at c
    have := ramps_le (o := .secondOrder) (hV ▸ h.sizes_a) (hV ▸ h.sizes_d) hT
    linarith
  · rw [ho] at e; cases e

/-- The motion lasts not too long compared with its ramps. -/
theorem patient (h : Moderate L v a d j) {V T : ℝ} (hV : V = speed32 L v a d) (hT : rampTime V a d j = T) {T' x : ℝ}
    (hx : x = a ∨ x = d)
    (h1 : order32 L v a d j = .firstOrder → T' = 205 / 100 * (V / x)) (h2 : order32 L v a d j = .secondOrder → 2 * √(V / j) ≤ T') :
    101 / 100 * (L / V) + 3 * T ≤ 32000 * T' := by
  have hV0 : 0 < V := by rw [hV]; exact h.sizes_a.V_pos
  have hj := h.j_pos
  have hL := h.L_pos
  obtain ⟨-, -, ta, td, ts, -⟩ := h.T_facts hV hT
  cases ho : order32 L v a d j with
  | firstOrder =>
    have h3 := h.short hV hT ho
    have h4 : L / V ≤ 103 / 100 * T := by
      rw [div_le_iff₀ hV0]; linarith
    have h5 : T ≤ 1024 * T' := by
      rw [h1 ho]
      rcases hx with rfl | rfl
      · exact ta
      · exact td
    have hT0 : 0 ≤ T := by
      have : 0 ≤ L / V := by positivity
      linarith
    linarith
  | secondOrder =>
    have h3 := h2 ho
    have hv : V = v := by
      rcases order_cases L v a d j with ⟨e, -⟩ | ⟨e, -, -⟩ | ⟨-, e, -⟩
      · rw [ho] at e; cases e
      · rw [ho] at e; cases e
      · rw [hV]; exact e
    have hs := Real.sq_sqrt (show 0 ≤ V / j by positivity)
    have hp := Real.sqrt_nonneg (V / j)
    have h4 : L / V ≤ 8192 * √(V / j) := by
      refine abs_le_of_sq_le_sq' ?_ (by positivity) |>.2
      rw [mul_pow, hs, div_pow, div_le_iff₀ (by positivity)]
      have := h.slow
      rw [← hv] at this
      have e : 8192 ^ 2 * (V / j) * V ^ 2 = 2 ^ 26 * V ^ 3 / j := by field_simp; ring
      rw [e, le_div_iff₀ hj]
      linarith
    linarith

/-- How slow the motion is for its length. -/
noncomputable def slowness (L v j : ℝ) : ℝ := j * L ^ 2 / v ^ 3

theorem slow_sq (h : Moderate L v a d j) {V T : ℝ} (hV : V = speed32 L v a d) (hT : rampTime V a d j = T) :
    j * (101 / 100 * (L / V) + 3 * T) ^ 2 ≤ 205 / 100 * (slowness L v j + 10000) * V := by
  have hV0 : 0 < V := by rw [hV]; exact h.sizes_a.V_pos
  have hj := h.j_pos
  have hL := h.L_pos
  have hv := h.v_pos
  obtain ⟨-, -, -, -, -, tj⟩ := h.T_facts hV hT
  have k0 : 0 ≤ slowness L v j := by unfold slowness; positivity
  have key : j * (L / V) ^ 2 ≤ (slowness L v j + 1061) * V := by
    cases ho : order32 L v a d j with
    | firstOrder =>
      have h3 := h.short hV hT ho
      have h4 : L / V ≤ 103 / 100 * T := by
        rw [div_le_iff₀ hV0]; linarith
      have h5 : (L / V) ^ 2 ≤ (103 / 100 * T) ^ 2 := pow_le_pow_left₀ (by positivity) h4 2
      have h6 := mul_le_mul_of_nonneg_left h5 hj.le
      have h7 : j * (103 / 100 * T) ^ 2 = 10609 / 10000 * (j * T ^ 2) := by ring
      have : 0 ≤ slowness L v j * V := by positivity
      linarith
    | secondOrder =>
      have hv : V = v := by
        rcases order_cases L v a d j with ⟨e, -⟩ | ⟨e, -, -⟩ | ⟨-, e, -⟩
        · rw [ho] at e; cases e
        · rw [ho] at e; cases e
        · rw [hV]; exact e
      have : j * (L / V) ^ 2 = slowness L v j * V := by
        unfold slowness; rw [← hv]; field_simp
      linarith
  have e : (101 / 100 * (L / V) + 3 * T) ^ 2 ≤ 20402 / 10000 * (L / V) ^ 2 + 18 * T ^ 2 := by
    have := sq_nonneg (101 / 100 * (L / V) - 3 * T)
    linarith
  have h1 := mul_le_mul_of_nonneg_left e hj.le
  have : 0 ≤ slowness L v j * V := by positivity
  linarith

/-- What the planner guarantees. -/
theorem trip (h : Moderate L v a d j) {V T η m : ℝ} {o : Order} (hV : V = speed32 L v a d) (hT : rampTime V a d j = T)
    (ho : o = order32 L v a d j) (hm : m = rnd (L - ramps32 V a d j o)) (hη : η = 66 * eps ^ 2 * (slowness L v j + 10000) * V) :
    Trip (up V a j o) (down V d j o) V T (101 / 100 * (L / V) + 3 * T) (1001 / 1000 * L + 200 * eps * (V * T) + η * T) η m
      (rnd (m / V)) ∧ -(16 * eps * (V * T)) ≤ m ∧
    |(up V a j o).len + m + (down V d j o).len - L| ≤ 3 * eps * L := by
  have hsa : Sizes V a j := by rw [hV]; exact h.sizes_a
  have hsd : Sizes V d j := by rw [hV]; exact h.sizes_d
  have hV0 := hsa.V_pos
  have hj := h.j_pos
  have hL := h.L_pos
  have hep := eps_pos
  obtain ⟨T1, b1, f1, p1, q1⟩ := fits hsa o
  obtain ⟨T2, b2, f2, p2, q2⟩ := fits hsd o
  have c1 : T1 ≤ T := by rw [← hT]; exact b1.trans (le_max_left _ _)
  have c2 : T2 ≤ T := by rw [← hT]; exact b2.trans (le_max_right _ _)
  have o1 := f1.ok_up hsa
  have o2 := f2.ok_down hsd
  have hT1 := o1.T_pos
  have hT2 := o2.T_pos
  have hT0 : 0 < T := hT1.trans_le c1
  have w1 := h.patient hV hT (T' := T1) (.inl rfl) (by rw [← ho]; exact p1) (by rw [← ho]; exact q1)
  have w2 := h.patient hV hT (T' := T2) (.inr rfl) (by rw [← ho]; exact p2) (by rw [← ho]; exact q2)
  have sq := h.slow_sq hV hT
  have m0 : -(13 * eps * L) ≤ m := by have := h.mid_ge; rw [← hV, ← ho, ← hm] at this; exact this
  obtain ⟨n1, n2, n3⟩ := ramps_nonneg o1 o2
  have m1 : m ≤ L := by rw [hm, ← h.L_float]; refine rnd_mono ?_; rw [h.L_float]; linarith
  have k0 : 0 ≤ slowness L v j := by have := h.v_pos; unfold slowness; positivity
  have hη0 : 0 ≤ η := by rw [hη]; positivity
  have mL : |m| ≤ L := by
    rw [abs_le]; refine ⟨?_, m1⟩
    unfold eps at m0; linarith
  have hLV : 0 < L / V := by positivity
  -- the sum of the lengths
  have hr := rnd_err ((up V a j o).len + (down V d j o).len)
  rw [abs_of_nonneg (show 0 ≤ (up V a j o).len + (down V d j o).len by linarith)] at hr
  have hr' := abs_le.1 hr
  have hr2 := rnd_err (L - ramps32 V a d j o)
  rw [← hm] at hr2
  have tn : tiny ≤ eps * eps * L / 16 := by
    have h1 := tiny_small
    have h2 := h.L_ge
    unfold eps at *
    norm_num [zpow_neg] at h1
    linarith
  have tn0 := tiny_pos
  have rL : ramps32 V a d j o ≤ (1 + 14 * eps) * L := by
    have h1 := (abs_le.1 hr2).2
    by_cases c : ramps32 V a d j o ≤ L
    · unfold eps; linarith
    · push Not at c
      rw [abs_of_neg (by linarith)] at h1
      unfold eps at *
      linarith
  have rL2 : |L - ramps32 V a d j o| ≤ L := by
    rw [abs_le]; unfold eps at rL; constructor <;> linarith
  have hr3 := abs_le.1 hr2
  have hm2 := mul_le_mul_of_nonneg_left rL2 hep.le
  have lsum : (up V a j o).len + (down V d j o).len ≤ (1 + 16 * eps) * L := by
    unfold ramps32 at rL
    unfold eps at *
    linarith
  have htot : |(up V a j o).len + m + (down V d j o).len - L| ≤ 3 * eps * L := by
    unfold ramps32 at hr3
    rw [abs_le]
    unfold ramps32 at hm2
    unfold eps at *
    constructor <;> linarith
  -- the duration of the cruise
  have hd := rnd_err (m / V)
  have habs : |m / V| ≤ L / V := by
    rw [abs_div, abs_of_pos hV0]; exact div_le_div_of_nonneg_right mL hV0.le
  have tnT : tiny ≤ eps * eps * T1 := o1.tinyT
  have dmle : |rnd (m / V)| ≤ 1001 / 1000 * (L / V) + eps * T := by
    have h1 := abs_sub_abs_le_abs_sub (rnd (m / V)) (m / V)
    have h2 := mul_le_mul_of_nonneg_left habs hep.le
    unfold eps at *
    linarith
  have dmge : -(14 * eps * (L / V)) - eps * T1 / 100 ≤ rnd (m / V) := by
    have h1 : -(13 * eps * (L / V)) ≤ m / V := by
      rw [le_div_iff₀ hV0]
      have : -(13 * eps * (L / V)) * V = -(13 * eps * L) := by field_simp
      linarith
    have h2 := rnd_mono h1
    rw [rnd_neg] at h2
    have h3 := (abs_le.1 (rnd_err (13 * eps * (L / V)))).2
    rw [abs_of_nonneg (by positivity)] at h3
    unfold eps at *
    linarith
  have du1 := abs_le.1 o1.dur_err
  have du2 := abs_le.1 o2.dur_err
  have to1 := o1.total
  have to2 := o2.total
  have lo2 : 2 / 5 * T2 ≤ 2 * (down V d j o).D + (down V d j o).d2 := f2.low
  refine ⟨⟨?_, ?_, ?_, ?_, ⟨n1, n2⟩, ?_, ?_, ?_, ?_⟩, ?_, htot⟩
  · refine o1.fine ⟨by positivity, ?_, ?_, ?_⟩ ?_ c1
    · unfold eps; linarith
    · unfold eps; linarith
    · have hδ : 8 * eps * (101 / 100 * (L / V) + 3 * T) ≤ T1 / 64 := by unfold eps; linarith
      have h1 := pow_le_pow_left₀ (by positivity) hδ 2
      have h2 := mul_le_mul_of_nonneg_left h1 (abs_nonneg (up V a j o).J)
      have h3 := o1.jerkT
      have h4 : |(up V a j o).J| * (T1 / 64) ^ 2 = |(up V a j o).J| * T1 ^ 2 / 4096 := by ring
      linarith
    · have e : |(up V a j o).J| = j := abs_of_pos hj
      rw [e, hη]
      have : j * (8 * eps * (101 / 100 * (L / V) + 3 * T)) ^ 2 = 64 * eps ^ 2 * (j * (101 / 100 * (L / V) + 3 * T) ^ 2) := by ring
      rw [this]
      have h2 := mul_le_mul_of_nonneg_left sq (show 0 ≤ 64 * eps ^ 2 by positivity)
      have : 0 ≤ eps ^ 2 * ((slowness L v j + 10000) * V) := by positivity
      linarith
  · refine o2.fine ⟨by positivity, ?_, ?_, ?_⟩ ?_ c2
    · unfold eps; linarith
    · unfold eps; linarith
    · have hδ : 8 * eps * (101 / 100 * (L / V) + 3 * T) ≤ T2 / 64 := by unfold eps; linarith
      have h1 := pow_le_pow_left₀ (by positivity) hδ 2
      have h2 := mul_le_mul_of_nonneg_left h1 (abs_nonneg (down V d j o).J)
      have h3 := o2.jerkT
      have h4 : |(down V d j o).J| * (T2 / 64) ^ 2 = |(down V d j o).J| * T2 ^ 2 / 4096 := by ring
      linarith
    · have e : |(down V d j o).J| = j := by simp only [down, abs_neg]; exact abs_of_pos hj
      rw [e, hη]
      have : j * (8 * eps * (101 / 100 * (L / V) + 3 * T)) ^ 2 = 64 * eps ^ 2 * (j * (101 / 100 * (L / V) + 3 * T) ^ 2) := by ring
      rw [this]
      have h2 := mul_le_mul_of_nonneg_left sq (show 0 ≤ 64 * eps ^ 2 by positivity)
      have : 0 ≤ eps ^ 2 * ((slowness L v j + 10000) * V) := by positivity
      linarith
  · linarith
  · unfold eps at *; linarith
  · unfold dip
    have e1 : V * (101 / 100 * (L / V) + 3 * T) = 101 / 100 * L + 3 * (V * T) := by field_simp
    rw [e1]
    have am : |m| ≤ m + 26 * eps * L := by
      rcases abs_cases m with ⟨e, -⟩ | ⟨e, -⟩ <;> rw [e]
      · have : 0 ≤ eps * L := by positivity
        linarith
      · linarith
    have ht := (abs_le.1 htot).2
    have hW : 0 ≤ eps * (V * T) := by positivity
    have hL' : 0 ≤ eps * L := by positivity
    have : 39 * eps * L ≤ L / 1000 := by unfold eps; linarith
    linarith
  · have e : m - V * rnd (m / V) = -(V * (rnd (m / V) - m / V)) := by field_simp; ring
    rw [e, abs_neg, abs_mul, abs_of_pos hV0]
    have h1 := mul_le_mul_of_nonneg_left hd hV0.le
    have h2 := mul_le_mul_of_nonneg_left (mul_le_mul_of_nonneg_left habs hep.le) hV0.le
    have h3 : V * (eps * (L / V)) = eps * L := by field_simp
    have h4 := mul_le_mul_of_nonneg_left (tnT.trans (mul_le_mul_of_nonneg_left c1 (by positivity))) hV0.le
    have hW : 0 ≤ eps * (eps * (V * T)) := by positivity
    have hηT : 0 ≤ eps * (η * T) := by positivity
    have hL' : 0 ≤ eps * L := by positivity
    linarith
  · unfold eps at *; linarith
  · unfold eps at *; linarith
  · by_cases c : 0 ≤ m
    · have : 0 ≤ eps * (V * T) := by positivity
      linarith
    · push Not at c
      have hlt : L < ramps32 V a d j o := by
        by_contra hc
        push Not at hc
        have : 0 ≤ m := by rw [hm]; exact rnd_nonneg (by linarith)
        linarith
      have := ramps_le (o := o) hsa hsd hT
      have h1 := mul_le_mul_of_nonneg_left (hlt.le.trans this) hep.le
      have : 0 ≤ eps * (V * T) := by positivity
      linarith

end Moderate
end Moovr
