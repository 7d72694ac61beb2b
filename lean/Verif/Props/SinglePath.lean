import Verif.Lemmas.Start32
/-!
# Property C95: the distance along a planned path in single precision

The speed profile of a motion between two rests, planned and evaluated with `float` arithmetic as the code does
(`Profile32.plan`, `Profile32.s`). In exact arithmetic the distance rises from 0 to the length (C31, C34); with rounding it
can fall a little, and end a little off.
-/
namespace Moovr.Props
open Num Float32 Single Ramp Moderate

/-- A motion between two rests, as planned: length `L`, speed limit `v` (feed rate and limits of the axes), acceleration,
deceleration and jerk `a`, `d`, `j`. -/
structure Between (p : Profile32) (feedOverride minLengthSProfile : Single) (L v a d j : ℝ) : Prop where
  rest : p.Resting a d j
  speed : (if p.vMax.lt (p.vFeed * feedOverride) then p.vMax else p.vFeed * feedOverride) = num v
  long : ∃ l : ℝ, minLengthSProfile = num l ∧ l ≤ L

/-- About the distance in which the machine reaches the speed `v`. -/
noncomputable def rampDistance (v a d j : ℝ) : ℝ := v * (205 / 100 * max (max (v / a) (v / d)) √(v / j))

/-- Bound on how far the computed distance falls back. -/
noncomputable def ripple (L v a d j : ℝ) : ℝ :=
  (151 * rampDistance v a d j + 72 / 10 * L + 141 / 2 ^ 24 * (j * L ^ 2 / v ^ 3) * rampDistance v a d j) / 2 ^ 24

/-- Bound on the other errors of the computed distance. -/
noncomputable def drift (L v a d j : ℝ) : ℝ :=
  (240 * rampDistance v a d j + 15 * L + 210 / 2 ^ 24 * (j * L ^ 2 / v ^ 3) * rampDistance v a d j) / 2 ^ 24

private theorem rampTime_eq (v a d j : ℝ) : v * rampTime v a d j = rampDistance v a d j := by
  unfold rampTime scale rampDistance
  rw [← mul_max_of_nonneg _ _ (by norm_num : (0 : ℝ) ≤ 205 / 100)]
  congr 2
  rw [max_max_max_comm, max_self]

private theorem ripple_eq (L v a d j : ℝ) : ripple L v a d j = eps * (151 * rampDistance v a d j + 72 / 10 * L +
    141 * eps * (slowness L v j * rampDistance v a d j)) := by
  unfold ripple slowness eps; ring

private theorem drift_eq (L v a d j : ℝ) : drift L v a d j = eps * (240 * rampDistance v a d j + 15 * L +
    210 * eps * (slowness L v j * rampDistance v a d j)) := by
  unfold drift slowness eps; ring

private theorem rampTime_mono {V v a d j : ℝ} (ha : 0 < a) (hd : 0 < d) (hj : 0 < j) (h : V ≤ v) :
    rampTime V a d j ≤ rampTime v a d j := by
  have h1 : ∀ x, 0 < x → scale V x j ≤ scale v x j := by
    intro x hx
    unfold scale
    refine mul_le_mul_of_nonneg_left (max_le_max ?_ (Real.sqrt_le_sqrt ?_)) (by norm_num)
    · exact div_le_div_of_nonneg_right h hx.le
    · exact div_le_div_of_nonneg_right h hj.le
  exact max_le_max (h1 a ha) (h1 d hd)

/-- The length divided by the speed reached. -/
private theorem _root_.Moovr.Moderate.brief {L v a d j : ℝ} (hm : Moderate L v a d j) :
    v * (L / speed32 L v a d) ≤ L + 1001 / 2050 * rampDistance v a d j := by
  have hv := hm.v_pos
  have hL := hm.L_pos
  have ha := hm.a_pos
  have hd := hm.d_pos
  have hj := hm.j_pos
  have hr0 : 0 ≤ rampDistance v a d j := by unfold rampDistance; positivity
  by_cases h : speed32 L v a d = v
  · rw [h, mul_div_cancel₀ _ hv.ne']; linarith
  · have hV := hm.sizes_a.V_pos
    have hVv := (speed_le L v a d).1
    have htri : speed32 L v a d = tri32 L a d := by
      unfold speed32 at h ⊢
      split_ifs at h ⊢ with h1
      · rfl
      · exact absurd rfl h
    have hn := hm.tri_near.ge
    rw [← htri] at hn
    generalize speed32 L v a d = V at *
    have hM : 2 * L ≤ 1001 / 1000 * (V ^ 2 * (1 / a + 1 / d)) := by
      have h1 : 2 * L * a * d / (a + d) = 2 * L / (1 / a + 1 / d) := by field_simp; ring
      rw [h1] at hn
      have h2 : 0 < 1 / a + 1 / d := by positivity
      have h3 : (1 - 81 / 10 * eps) * (2 * L) ≤ V ^ 2 * (1 / a + 1 / d) := by
        rw [← mul_div_assoc, div_le_iff₀ h2] at hn
        exact hn
      unfold eps at h3
      linarith
    have hmax : V * (1 / a + 1 / d) ≤ 2 * max (v / a) (v / d) := by
      have h1 : V * (1 / a) ≤ max (v / a) (v / d) := by
        rw [mul_one_div]; exact (div_le_div_of_nonneg_right hVv ha.le).trans (le_max_left _ _)
      have h2 : V * (1 / d) ≤ max (v / a) (v / d) := by
        rw [mul_one_div]; exact (div_le_div_of_nonneg_right hVv hd.le).trans (le_max_right _ _)
      linarith
    have h4 : L / V ≤ 1001 / 1000 * max (v / a) (v / d) := by
      rw [div_le_iff₀ hV]
      have := mul_le_mul_of_nonneg_left hmax hV.le
      linarith
    have h5 := mul_le_mul_of_nonneg_left h4 hv.le
    have h6 : v * max (v / a) (v / d) ≤ 100 / 205 * rampDistance v a d j := by
      unfold rampDistance
      have := mul_le_mul_of_nonneg_left (le_max_left (max (v / a) (v / d)) √(v / j)) hv.le
      linarith
    linarith

set_option maxHeartbeats 1000000 in
/-- The distance along a planned path (`path_single` below), and how it begins: at any time, either the motion is still in its first
ramp, and the speed is low as long as the distance is short, or the distance is at least that of the first ramp. -/
theorem path_full {p : Profile32} {f minL : Single} {L v a d j : ℝ} (hm : Moderate L v a d j)
    (hp : Between p f minL L v a d j) :
    ∃ (D : ℝ) (S : ℝ → ℝ), (p.plan (num L) f minL .maximizeSpeed).duration = num D ∧ 0 < D ∧
      v * D ≤ 102 / 100 * L + 4 * rampDistance v a d j ∧
      (p.plan (num L) f minL .maximizeSpeed).tStop = ⟨posInf⟩ ∧
      (∀ t, rnd t = t → (p.plan (num L) f minL .maximizeSpeed).s (num t) = num (S t)) ∧
      S 0 = 0 ∧ |S D - L| ≤ drift L v a d j ∧
      ∀ t t', 0 ≤ t → t ≤ t' → t' ≤ D →
        (S t ≤ S t' + ripple L v a d j ∧ S t' ≤ S t + v * (t' - t) + drift L v a d j) ∧
        S t' ≤ S t + speed32 L v a d * (t' - t) + drift L v a d j ∧
        ((v * t ≤ 101 / 100 * rampDistance v a d j ∧ ∃ P, 0 ≤ P ∧ P ^ 2 ≤ 2 * (1001 / 1000 * a) * (S t + 11 / 20 * ripple L v a d j) ∧
            (S t' ≤ S t + (P + 1001 / 1000 * a * (t' - t)) * (t' - t) + 36 / 2 ^ 24 * rampDistance v a d j ∨
              499 / 1000 * speed32 L v a d ≤ P + 1001 / 1000 * a * (t' - t))) ∨
          99 / 100 * speed32 L v a d ^ 2 ≤ 2 * (1001 / 1000 * a) * (S t + 31 / 20 * ripple L v a d j)) := by
  obtain ⟨l, rfl, hl⟩ := hp.long
  have hQ := hm.Q_near.pos (by have := hm.product; linarith) (by norm_num)
  have had := hm.sum_near.pos (by linarith [hm.a_pos, hm.d_pos]) (by norm_num)
  have hplan := plan32 hp.rest hm.L_float hm.L_pos hm.a_pos hm.d_pos hm.v_pos hl hp.speed hQ had hm.sizes_a hm.sizes_d
  generalize p.plan (num L) f (num l) .maximizeSpeed = q at *
  obtain ⟨ht, hmu, hlen⟩ := hm.trip rfl rfl rfl rfl rfl
  obtain ⟨T1, b1, f1, p1, q1⟩ := fits hm.sizes_a (order32 L v a d j)
  have hrest := up_fromRest hm.sizes_a f1
  have w1 := hm.patient rfl rfl (T' := T1) (.inl rfl) p1 q1
  have sq := hm.slow_sq rfl rfl
  have c1 : T1 ≤ rampTime (speed32 L v a d) a d j := b1.trans (le_max_left _ _)
  have hVv := (speed_le L v a d).1
  have hV0 := hm.sizes_a.V_pos
  have hbrief := hm.brief
  generalize order32 L v a d j = o at *
  generalize speed32 L v a d = V at *
  generalize rnd (L - ramps32 V a d j o) = m at *
  have hT := rampTime_mono hm.a_pos hm.d_pos hm.j_pos hVv
  have hT0 := ht.T_pos
  have hW : V * rampTime V a d j ≤ rampDistance v a d j := by
    rw [← rampTime_eq]; exact mul_le_mul hVv hT hT0.le (hV0.le.trans hVv)
  have hL := hm.L_pos
  have hW0 : 0 < V * rampTime V a d j := by positivity
  have hk0 : 0 ≤ slowness L v j := by have := hm.j_pos; have := hm.v_pos; unfold slowness; positivity
  have hep := eps_pos
  -- the terms of second order
  have hη : 66 * eps ^ 2 * (slowness L v j + 10000) * V * rampTime V a d j ≤
      eps * (66 * eps * (slowness L v j * rampDistance v a d j) + 4 / 100 * rampDistance v a d j) := by
    have h1 : 66 * eps ^ 2 * (slowness L v j + 10000) * V * rampTime V a d j =
      66 * eps ^ 2 * (slowness L v j + 10000) * (V * rampTime V a d j) := by ring
    have h2 := mul_le_mul_of_nonneg_left hW (show 0 ≤ 66 * eps ^ 2 * (slowness L v j + 10000) by positivity)
    have h3 : 0 < rampDistance v a d j := hW0.trans_le hW
    have h4 : 660000 * eps * rampDistance v a d j ≤ 4 / 100 * rampDistance v a d j := by unfold eps; linarith
    have h5 := mul_le_mul_of_nonneg_left h4 hep.le
    linarith
  have hx : V * (101 / 100 * (L / V) + 3 * rampTime V a d j) = 101 / 100 * L + 3 * (V * rampTime V a d j) := by field_simp
  have hsmall : eps * (7 * (1001 / 1000 * L + 200 * eps * (V * rampTime V a d j) +
      66 * eps ^ 2 * (slowness L v j + 10000) * V * rampTime V a d j)) ≤
      eps * (7.01 * L + 1 / 100 * rampDistance v a d j + 1 / 1000 * eps * (slowness L v j * rampDistance v a d j)) := by
    refine mul_le_mul_of_nonneg_left ?_ hep.le
    have h3 : 0 ≤ rampDistance v a d j := (hW0.trans_le hW).le
    have h4 : 0 ≤ slowness L v j * rampDistance v a d j := by positivity
    unfold eps at *
    norm_num at *
    linarith
  have hW0' := hW0.trans_le hW
  have hkW : 0 ≤ eps * (slowness L v j * rampDistance v a d j) := by positivity
  have hWe := mul_le_mul_of_nonneg_left hW hep.le
  have hkWe : 0 ≤ eps * (eps * (slowness L v j * rampDistance v a d j)) := by positivity
  have hLe : 0 ≤ eps * L := by positivity
  have hWe0 : 0 ≤ eps * rampDistance v a d j := by positivity
  have hripple : Trip.dips V (rampTime V a d j) (1001 / 1000 * L + 200 * eps * (V * rampTime V a d j) +
      66 * eps ^ 2 * (slowness L v j + 10000) * V * rampTime V a d j)
      (66 * eps ^ 2 * (slowness L v j + 10000) * V) (16 * eps * (V * rampTime V a d j)) ≤ ripple L v a d j := by
    rw [ripple_eq]
    unfold Trip.dips dip
    linarith
  have hdrift : ripple L v a d j + dip V (rampTime V a d j) (66 * eps ^ 2 * (slowness L v j + 10000) * V) +
      6 * eps * (V * (101 / 100 * (L / V) + 3 * rampTime V a d j)) ≤ drift L v a d j := by
    rw [hx, ripple_eq, drift_eq]
    unfold dip
    linarith
  refine ⟨tripDur (up V a j o) (down V d j o) (rnd (m / V)), tripS (up V a j o) (down V d j o) V m (rnd (m / V)),
    hplan.duration, ?_, ?_, hplan.tStop, fun t ht => hplan.s ht, ?_, ?_, ?_⟩
  · have h1 := abs_le.1 ht.dur_near
    have h2 := ht.late'
    have h3 := ht.hl.dur_nonneg
    have h4 : 0 < eps * (101 / 100 * (L / V) + 3 * rampTime V a d j) := mul_pos hep ht.Θ_pos
    linarith
  · have h1 := abs_le.1 ht.dur_near
    have h2 := ht.time
    have h3 := le_abs_self (rnd (m / V))
    have h4 : tripDur (up V a j o) (down V d j o) (rnd (m / V)) ≤ 1001 / 1000 * (101 / 100 * (L / V) + 3 * rampTime V a d j) := by
      have := ht.Θ_pos
      unfold eps at *; linarith
    have h5 := mul_le_mul_of_nonneg_left h4 hm.v_pos.le
    have h6 := mul_le_mul_of_nonneg_left hT hm.v_pos.le
    rw [rampTime_eq] at h6
    linarith
  · unfold tripS; rw [if_pos le_rfl]
  · have h1 := abs_le.1 ht.ends
    have h2 := abs_le.1 hlen
    have h3 : dip V (rampTime V a d j) (66 * eps ^ 2 * (slowness L v j + 10000) * V) +
        7 * eps * (V * (101 / 100 * (L / V) + 3 * rampTime V a d j)) +
        3 * eps * (1001 / 1000 * L + 200 * eps * (V * rampTime V a d j) +
          66 * eps ^ 2 * (slowness L v j + 10000) * V * rampTime V a d j) + 3 * eps * L ≤ drift L v a d j := by
      rw [hx, drift_eq]
      unfold dip
      linarith
    rw [abs_le]
    constructor <;> linarith
  · intro t t' h0 h1 h2
    obtain ⟨r1, r2⟩ := ht.rises (μ := 16 * eps * (V * rampTime V a d j)) (by positivity) hmu h0 h1 h2
    have := mul_le_mul_of_nonneg_right hVv (show 0 ≤ t' - t by linarith)
    refine ⟨⟨by linarith, by linarith⟩, by linarith, ?_⟩
    have hΘ := ht.Θ_pos
    have hT1 := hrest.T_pos
    have hα := hrest.alpha_nonneg
    have hLV : 0 < L / V := by positivity
    have hδ0 : 203 / 100 * eps * T1 ≤ 8 * eps * (101 / 100 * (L / V) + 3 * rampTime V a d j) := by
      have := mul_le_mul_of_nonneg_left c1 hep.le
      have : 0 ≤ eps * (L / V) := by positivity
      have : 0 ≤ eps * rampTime V a d j := by positivity
      linarith
    have hδ : 8 * eps * (101 / 100 * (L / V) + 3 * rampTime V a d j) ≤ T1 / 64 := by unfold eps; linarith
    have hover : (up V a j o).Over V T1 (8 * eps * (101 / 100 * (L / V) + 3 * rampTime V a d j)) := by
      refine ⟨by positivity, by have : 0 ≤ eps * T1 := by positivity
                                linarith, hδ, ?_⟩
      have h1 := pow_le_pow_left₀ (by positivity) hδ 2
      have h2 := mul_le_mul_of_nonneg_left h1 (abs_nonneg (up V a j o).J)
      have h3 := hrest.jerkT
      have h4 : |(up V a j o).J| * (T1 / 64) ^ 2 = |(up V a j o).J| * T1 ^ 2 / 4096 := by ring
      linarith
    have hη' : |(up V a j o).J| * (8 * eps * (101 / 100 * (L / V) + 3 * rampTime V a d j)) ^ 2 ≤
        2 * (66 * eps ^ 2 * (slowness L v j + 10000) * V) := by
      have e : |(up V a j o).J| = j := abs_of_pos hm.j_pos
      rw [e]
      have : j * (8 * eps * (101 / 100 * (L / V) + 3 * rampTime V a d j)) ^ 2 =
        64 * eps ^ 2 * (j * (101 / 100 * (L / V) + 3 * rampTime V a d j) ^ 2) := by ring
      rw [this]
      have h2 := mul_le_mul_of_nonneg_left sq (show 0 ≤ 64 * eps ^ 2 by positivity)
      have : 0 ≤ eps ^ 2 * ((slowness L v j + 10000) * V) := by positivity
      linarith
    have hVT : V * T1 ≤ V * rampTime V a d j := mul_le_mul_of_nonneg_left c1 hV0.le
    have heVT := mul_le_mul_of_nonneg_left hVT hep.le
    have hηT : 66 * eps ^ 2 * (slowness L v j + 10000) * V * T1 ≤ 66 * eps ^ 2 * (slowness L v j + 10000) * V * rampTime V a d j :=
      mul_le_mul_of_nonneg_left c1 (by positivity)
    have hη0 : 0 ≤ 66 * eps ^ 2 * (slowness L v j + 10000) * V * rampTime V a d j := by positivity
    have hdip : dip V T1 (66 * eps ^ 2 * (slowness L v j + 10000) * V) + 18 * eps * (V * T1) ≤ 11 / 20 * ripple L v a d j := by
      rw [ripple_eq]
      unfold dip
      linarith
    have hdip0 : 0 ≤ dip V T1 (66 * eps ^ 2 * (slowness L v j + 10000) * V) := by
      unfold dip
      have : 0 ≤ eps * (V * T1) := by positivity
      have : 0 ≤ 66 * eps ^ 2 * (slowness L v j + 10000) * V * T1 := by positivity
      linarith
    have h18 : 0 ≤ eps * (V * T1) := by positivity
    have hS : ∀ s, 0 ≤ s → s ≤ (up V a j o).dur → tripS (up V a j o) (down V d j o) V m (rnd (m / V)) s = (up V a j o).dist s := by
      intro s s0 s1
      unfold tripS
      rcases eq_or_lt_of_le s0 with rfl | s0
      · rw [if_pos le_rfl, hrest.dist_zero]
      · rw [if_neg (not_le.2 s0), if_pos s1]
    have hmd : (up V a j o).mark ≤ (up V a j o).dur := by
      have h := rnd_mono (show rnd ((up V a j o).D + (up V a j o).d2) ≤ rnd ((up V a j o).D + (up V a j o).d2) + (up V a j o).D by
        linarith [hrest.D_nonneg])
      rw [rnd_rnd] at h
      exact h
    have hd0 := hrest.dur_nonneg
    have hder := (abs_le.1 hrest.dur_err).2
    have hm0 : 0 ≤ (up V a j o).mark := hrest.D_nonneg.trans hrest.mark_ge
    have hslow : t ≤ (up V a j o).dur → v * t ≤ 101 / 100 * rampDistance v a d j := by
      intro ht'
      have := hrest.total
      have k1 : t ≤ 101 / 100 * rampTime v a d j := by unfold eps at hder; linarith
      have k2 := mul_le_mul_of_nonneg_left k1 hm.v_pos.le
      rw [← rampTime_eq]
      linarith
    by_cases cd : t ≤ (up V a j o).dur
    · left
      refine ⟨hslow cd, ?_⟩
      rw [hS t h0 cd]
      by_cases cm : t ≤ (up V a j o).mark
      · obtain ⟨P, P0, P1, P2, P3⟩ := hrest.start h0 cm
        have k := mul_le_mul_of_nonneg_left (show (up V a j o).dist t + 18 * eps * (V * T1) ≤
          (up V a j o).dist t + 11 / 20 * ripple L v a d j by linarith) (show 0 ≤ 2 * (1001 / 1000 * a) by linarith)
        refine ⟨P, P0, P1.trans k, ?_⟩
        by_cases cm' : t' ≤ (up V a j o).mark
        · left
          rw [hS t' (h0.trans h1) (cm'.trans hmd)]
          have := P2 t' h1 cm'
          unfold eps at *
          linarith
        · right
          have := mul_le_mul_of_nonneg_left (show (up V a j o).mark - t ≤ t' - t by linarith) hα
          unfold eps at P3
          linarith
      · obtain ⟨P, P0, P1, -, P3⟩ := hrest.start hm0 le_rfl
        have k1 := (hrest.rises hover hη' hm0 (not_le.1 cm).le (by linarith)).1
        have k := mul_le_mul_of_nonneg_left (show (up V a j o).dist (up V a j o).mark + 18 * eps * (V * T1) ≤
          (up V a j o).dist t + 11 / 20 * ripple L v a d j by linarith) (show 0 ≤ 2 * (1001 / 1000 * a) by linarith)
        refine ⟨P, P0, P1.trans k, .inr ?_⟩
        have := mul_nonneg hα (show 0 ≤ t' - t by linarith)
        rw [sub_self, mul_zero, add_zero] at P3
        unfold eps at P3
        linarith
    · right
      have cd := (not_le.1 cd).le
      have k1 := (ht.rises (μ := 16 * eps * (V * rampTime V a d j)) (by positivity) hmu hd0 cd (h1.trans h2)).1
      rw [hS _ hd0 le_rfl] at k1
      have k2 := hrest.whole hover hη' hδ0
      have k := mul_le_mul_of_nonneg_left (show (up V a j o).dist (up V a j o).dur + 9 * eps * (V * T1) +
          dip V T1 (66 * eps ^ 2 * (slowness L v j + 10000) * V) ≤
          tripS (up V a j o) (down V d j o) V m (rnd (m / V)) t + 31 / 20 * ripple L v a d j by linarith)
          (show 0 ≤ 2 * (1001 / 1000 * a) by linarith)
      have : 99 / 100 * V ^ 2 ≤ (1 - 8 * eps) * V ^ 2 := mul_le_mul_of_nonneg_right (by unfold eps; norm_num) (sq_nonneg V)
      linarith

/-- **C95** The distance along a planned path in single precision: zero at the start; at the end within `drift` of the length;
in between it never falls by more than `ripple`, and rises not faster than at the speed `v`, but for `drift`. The duration is at
most that of the length at the speed `v`, plus 2%, plus four times the time to get up to speed. -/
theorem path_single {p : Profile32} {f minL : Single} {L v a d j : ℝ} (hm : Moderate L v a d j)
    (hp : Between p f minL L v a d j) :
    ∃ (D : ℝ) (S : ℝ → ℝ), (p.plan (num L) f minL .maximizeSpeed).duration = num D ∧ 0 < D ∧
      v * D ≤ 102 / 100 * L + 4 * rampDistance v a d j ∧
      (p.plan (num L) f minL .maximizeSpeed).tStop = ⟨posInf⟩ ∧
      (∀ t, rnd t = t → (p.plan (num L) f minL .maximizeSpeed).s (num t) = num (S t)) ∧
      S 0 = 0 ∧ |S D - L| ≤ drift L v a d j ∧
      ∀ t t', 0 ≤ t → t ≤ t' → t' ≤ D →
        S t ≤ S t' + ripple L v a d j ∧ S t' ≤ S t + v * (t' - t) + drift L v a d j := by
  obtain ⟨D, S, h1, h2, h3, h4, h5, h6, h7, h8⟩ := path_full hm hp
  exact ⟨D, S, h1, h2, h3, h4, h5, h6, h7, fun t t' a b c => (h8 t t' a b c).1⟩

/-- The 3-axis machine along one axis: 100 mm at 25 mm/s, 200 mm/s², 600 mm/s³. -/
private noncomputable def example95 : Profile32 :=
  ({ Profile32.zero with
      vMax := num 30
      aMax := num 200
      dMax := num (-200)
      jMax := num 600 } : Profile32).setSpeed (num 25)

private theorem int_float {m : ℤ} (h : |m| ≤ 1000) : rnd (m : ℝ) = m := rnd_int (h.trans (by norm_num))

/-- It satisfies the hypotheses, and the computed distance never falls by more than 1/6000 mm, a thirtieth of a step. -/
example : Moderate 100 25 200 200 600 ∧ Between example95 (num 1) (num 0) 100 25 200 200 600 ∧
    ripple 100 25 200 200 600 ≤ 1 / 6000 ∧ drift 100 25 200 200 600 ≤ 1 / 3000 := by
  have h100 := int_float (m := 100) (by norm_num)
  have h25 := int_float (m := 25) (by norm_num)
  norm_num at h100 h25
  refine ⟨?_, ⟨⟨rfl, rfl, rfl, rfl, rfl, rfl, rfl⟩, ?_, 0, rfl, by norm_num⟩, ?_⟩
  · refine ⟨h100, h25, ?_, ?_, ?_, ?_, ?_, ?_, ?_, ?_, ?_, ?_, ?_, ?_, ?_, ?_, ⟨?_, ?_⟩, ?_⟩ <;> norm_num
  · show (if (num 30).lt (num 25 * num 1) then num 30 else num 25 * num 1) = num 25
    rw [num_mul, mul_one, h25, lt_num, if_neg (by norm_num)]
  · have hs : √((25 : ℝ) / 600) ≤ 205 / 1000 := Real.sqrt_le_iff.2 ⟨by norm_num, by norm_num⟩
    have hr : rampDistance 25 200 200 600 ≤ 25 * (205 / 100 * (205 / 1000)) := by
      unfold rampDistance
      refine mul_le_mul_of_nonneg_left (mul_le_mul_of_nonneg_left (max_le (max_le ?_ ?_) hs) (by norm_num)) (by norm_num) <;>
        norm_num
    unfold ripple drift
    constructor <;> norm_num at hr ⊢ <;> linarith

end Moovr.Props
