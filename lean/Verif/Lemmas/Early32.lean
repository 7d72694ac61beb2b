import Verif.Lemmas.Queue32
/-!
# The distance travelled soon after the start of a motion, in single precision
-/
namespace Moovr
open Num Float32 Single Ramp

theorem half_le_rnd {y : ℝ} (hy : 1 / 2 ^ 100 ≤ y) : y / 2 ≤ rnd y := by
  have h := (abs_le.1 (rnd_rel (x := y) (pow126.trans hy))).1
  have h0 : 0 < y := lt_of_lt_of_le (by norm_num) hy
  unfold eps at h
  linarith

/-- Soon after the start, the distance is at most that of a motion at twice the acceleration. -/
theorem Ramp.up_early {V a j t : ℝ} (hs : Sizes V a j) (o : Order) (hf : rnd t = t) (h0 : 0 < t) (h1 : t ≤ 1) (ha : 4 * t * a ≤ V)
    (hj : 4 * t * j ≤ a) (hV : 64 * t ^ 2 * j ≤ V) :
    t ≤ (up V a j o).dur ∧ 0 ≤ (up V a j o).dist t ∧ (up V a j o).dist t ≤ a * t ^ 2 + 10 * tiny := by
  have hV0 := hs.V_pos
  have ha0 := hs.a_pos
  have hj0 := hs.j_pos
  have hn := tiny_pos
  have hat : 0 ≤ a * t ^ 2 := by positivity
  have b1 : 1 / 65536 / 65536 ≤ V / a := div_le_div₀ hV0.le hs.V_ge ha0 hs.a_le
  have b2 : 1 / 65536 / 65536 ≤ a / j := div_le_div₀ ha0.le hs.a_ge hj0 hs.j_le
  have b3 : 1 / 65536 / 65536 ≤ V / j := div_le_div₀ hV0.le hs.V_ge hj0 hs.j_le
  -- the part with jerk
  have key : ∀ A D d2 : ℝ, t < D → 0 ≤ d2 → t ≤ (⟨0, V, j, A, D, d2⟩ : Ramp).dur ∧ 0 ≤ (⟨0, V, j, A, D, d2⟩ : Ramp).dist t ∧
      (⟨0, V, j, A, D, d2⟩ : Ramp).dist t ≤ a * t ^ 2 + 10 * tiny := by
    intro A D d2 hD hd2
    have e : (⟨0, V, j, A, D, d2⟩ : Ramp).dist t = cube32 j t := by
      unfold Ramp.dist dist1
      simp only [zero_mul, rnd_zero, zero_add]
      rw [if_pos hD]
      unfold cube32; rw [rnd_rnd]
    have hc := (abs_le.1 (cube32_err (J := j) (t := t) (T := t) (X := j * t ^ 2) (le_of_eq (abs_of_pos h0))
      (by rw [abs_of_pos hj0]))).2
    have hc0 : 0 ≤ cube32 j t := by
      unfold cube32
      refine rnd_nonneg (mul_nonneg (rnd_nonneg (mul_nonneg (rnd_nonneg (mul_nonneg (rnd_nonneg ?_) h0.le)) h0.le)) (rnd_nonneg (by norm_num)))
      positivity
    rw [e]
    refine ⟨?_, hc0, ?_⟩
    · show t ≤ rnd (rnd (D + d2) + D)
      rw [← hf]
      refine rnd_mono ?_
      have : 0 ≤ rnd (D + d2) := rnd_nonneg (by linarith)
      linarith
    · have k1 : j * t ^ 3 ≤ a * t ^ 2 / 4 := by
        have := mul_le_mul_of_nonneg_right hj (sq_nonneg t)
        nlinarith
      have k0 : 0 ≤ j * t ^ 3 := by positivity
      have k2 : t ^ 2 ≤ 1 := by nlinarith
      have k3 : tiny * (t ^ 2 + t + 2) ≤ tiny * 4 := mul_le_mul_of_nonneg_left (by linarith) hn.le
      have k4 : j * t ^ 2 * t = j * t ^ 3 := by ring
      rw [k4] at hc
      unfold eps at hc
      linarith
  cases o with
  | firstOrder =>
    have e : (up V a j .firstOrder) = ⟨0, V, j, a, 0, rnd (V / a)⟩ := rfl
    have hd : t ≤ rnd (V / a) := by
      have := half_le_rnd (y := V / a) (by norm_num at b1 ⊢; linarith)
      have h2 : 2 * t ≤ V / a := by rw [le_div_iff₀ ha0]; nlinarith
      linarith
    have hd0 : rnd (rnd (V / a)) = rnd (V / a) := rnd_rnd _
    have ed : (up V a j .firstOrder).dist t = rnd (rnd (rnd (a * t) * t) * (1 / 2)) := by
      rw [e]
      unfold Ramp.dist
      rw [if_neg (by simpa using h0.le), if_neg (by simp only [mark, zero_add, hd0]; linarith)]
      unfold dist2 s1 dV1 cube32
      simp [rnd_zero, rnd_rnd, hf]
    rw [ed]
    refine ⟨?_, ?_, ?_⟩
    · rw [e]
      show t ≤ rnd (rnd (0 + rnd (V / a)) + 0)
      simp only [zero_add, add_zero, rnd_rnd]; exact hd
    · exact rnd_nonneg (mul_nonneg (rnd_nonneg (mul_nonneg (rnd_nonneg (by positivity)) h0.le)) (by norm_num))
    · have e1 := rnd_mul_err (x := a) (y := a) (e := 0) (B := a) (by simp) (le_of_eq (abs_of_pos ha0)) (le_of_eq (abs_of_pos h0))
      have e2 := rnd_mul_err e1 (le_of_eq (abs_of_pos (show 0 < a * t by positivity))) (le_of_eq (abs_of_pos h0))
      have e3 := (abs_le.1 (rnd_mul_err e2 (le_of_eq (abs_of_pos (show 0 < a * t * t by positivity))) (t := 1 / 2) (T := 1 / 2)
        (by rw [abs_of_pos]; norm_num))).2
      have k1 : tiny * t ≤ tiny * 1 := mul_le_mul_of_nonneg_left h1 hn.le
      have k0 : 0 ≤ tiny * t := by positivity
      have k2 : a * t * t = a * t ^ 2 := by ring
      have k3 : 0 ≤ a * t ^ 2 := by positivity
      unfold eps at *
      nlinarith
  | secondOrder =>
    unfold up parts
    simp only
    split_ifs with hc
    · refine key _ _ _ ?_ le_rfl
      have r1 := half_le_rnd (y := V / j) (by norm_num at b3 ⊢; linarith)
      have r2 : 32 * t ^ 2 ≤ rnd (V / j) := by
        have : 64 * t ^ 2 ≤ V / j := by rw [le_div_iff₀ hj0]; linarith
        linarith
      have r3 : 4 * t ≤ √(rnd (V / j)) := Real.le_sqrt_of_sq_le (by nlinarith)
      have r4 : 1 / 2 ^ 20 ≤ √(rnd (V / j)) := by
        refine Real.le_sqrt_of_sq_le ?_
        norm_num at b3 ⊢
        linarith
      have r5 := half_le_rnd (y := √(rnd (V / j))) (by norm_num at r4 ⊢; linarith)
      linarith
    · refine key _ _ _ ?_ ?_
      · have r1 := half_le_rnd (y := a / j) (by norm_num at b2 ⊢; linarith)
        have r2 : 4 * t ≤ a / j := by rw [le_div_iff₀ hj0]; linarith
        linarith
      · refine rnd_nonneg (div_nonneg (rnd_nonneg ?_) ha0.le)
        linarith [not_lt.1 hc]

/-- The same for a planned motion. -/
theorem Profile32.plan_early {p : Profile32} {f minL : Single} {L v a d j : ℝ} (hm : Moderate L v a d j)
    (hp : Props.Between p f minL L v a d j) {t : ℝ} (hf : rnd t = t) (h0 : 0 ≤ t) (h1 : t ≤ 1) (ha : 4 * t * a ≤ speed32 L v a d)
    (hj : 4 * t * j ≤ a) (hV : 64 * t ^ 2 * j ≤ speed32 L v a d) :
    ∃ y, (p.plan (num L) f minL .maximizeSpeed).s (num t) = num y ∧ 0 ≤ y ∧ y ≤ a * t ^ 2 + 10 * tiny := by
  obtain ⟨l, rfl, hl⟩ := hp.long
  have hQ := hm.Q_near.pos (by have := hm.product; linarith) (by norm_num)
  have had := hm.sum_near.pos (by linarith [hm.a_pos, hm.d_pos]) (by norm_num)
  have hplan := plan32 hp.rest hm.L_float hm.L_pos hm.a_pos hm.d_pos hm.v_pos hl hp.speed hQ had hm.sizes_a hm.sizes_d
  refine ⟨_, hplan.s hf, ?_⟩
  have hn := tiny_pos
  have ha0 := hm.a_pos
  unfold tripS
  rcases eq_or_lt_of_le h0 with rfl | h0
  · rw [if_pos le_rfl]; exact ⟨le_rfl, by positivity⟩
  · obtain ⟨k1, k2, k3⟩ := up_early hm.sizes_a (order32 L v a d j) hf h0 h1 ha hj hV
    rw [if_neg (not_le.2 h0), if_pos k1]
    exact ⟨k2, k3⟩

end Moovr
