import Verif.Lemmas.Early32
/-!
# Straight lines on the 3-axis machine in single precision: the beginning of a motion is slow
-/
namespace Moovr
open Num Float32 Single Ramp

namespace Straight32
variable {x d : Nat → ℝ} {L v D : ℝ} {S : ℝ → ℝ}

/-- What is known of the beginning of a motion (`Props.path_full`, `Profile32.plan_early`). -/
structure Begins (d : Nat → ℝ) (L v D : ℝ) (S : ℝ → ℝ) : Prop where
  early : ∀ t, rnd t = t → 0 ≤ t → t ≤ 52 / 10 ^ 6 → 0 ≤ S t ∧ S t ≤ 1 / 10 ^ 6
  rises : ∀ t t', 0 ≤ t → t ≤ t' → t' ≤ D → S t' ≤ S t + speed32 (rnd L) v (acc d L) (acc d L) * (t' - t) +
    Props.drift (rnd L) v (acc d L) (acc d L) 600
  begins : ∀ t t', 0 ≤ t → t ≤ t' → t' ≤ D →
    (v * t ≤ 101 / 100 * Props.rampDistance v (acc d L) (acc d L) 600 ∧ ∃ P, 0 ≤ P ∧
      P ^ 2 ≤ 2 * (1001 / 1000 * acc d L) * (S t + 11 / 20 * Props.ripple (rnd L) v (acc d L) (acc d L) 600) ∧
      (S t' ≤ S t + (P + 1001 / 1000 * acc d L * (t' - t)) * (t' - t) + 36 / 2 ^ 24 * Props.rampDistance v (acc d L) (acc d L) 600 ∨
        499 / 1000 * speed32 (rnd L) v (acc d L) (acc d L) ≤ P + 1001 / 1000 * acc d L * (t' - t))) ∨
    99 / 100 * speed32 (rnd L) v (acc d L) (acc d L) ^ 2 ≤
      2 * (1001 / 1000 * acc d L) * (S t + 31 / 20 * Props.ripple (rnd L) v (acc d L) (acc d L) 600)

/-- The speed reached. -/
theorem speed_cases (h : Straight32 x d L) (hv : Speed d L v) :
    (speed32 (rnd L) v (acc d L) (acc d L) = v ∨
      999 / 1000 * (rnd L * acc d L) ≤ speed32 (rnd L) v (acc d L) (acc d L) ^ 2 ∧
      87 / 100 ≤ speed32 (rnd L) v (acc d L) (acc d L)) ∧
    9 / 100 ≤ speed32 (rnd L) v (acc d L) (acc d L) := by
  have hm := h.moderate hv
  have hn := hm.tri_near.ge
  have ha := h.acc_bounds
  have ha0 := hm.a_pos
  have e : 2 * rnd L * acc d L * acc d L / (acc d L + acc d L) = rnd L * acc d L := by field_simp; ring
  rw [e] at hn
  have hL : 39 / 10000 ≤ rnd L := by have := h.Lf.1; have := h.long; unfold eps at *; linarith
  have hLa : 77 / 100 ≤ rnd L * acc d L := by
    have := mul_le_mul hL ha.1 (by norm_num) (by linarith)
    linarith
  have ht0 : 0 ≤ tri32 (rnd L) (acc d L) (acc d L) := rnd_nonneg (Real.sqrt_nonneg _)
  have hge := hv.ge
  unfold speed32
  split_ifs with c
  · have h87 : 87 / 100 ≤ tri32 (rnd L) (acc d L) (acc d L) := by
      by_contra hc
      push Not at hc
      unfold eps at hn
      nlinarith
    exact ⟨.inr ⟨by unfold eps at hn; linarith, h87⟩, by linarith⟩
  · exact ⟨.inl rfl, by linarith⟩

/-- The planned motion. -/
theorem begins (h : Straight32 x d L) (hv : Speed d L v) {p : Profile32} {f minL : Single}
    (hp : Props.Between p f minL (rnd L) v (acc d L) (acc d L) 600) :
    ∃ D S, (p.plan (num (rnd L)) f minL .maximizeSpeed).duration = num D ∧
      (p.plan (num (rnd L)) f minL .maximizeSpeed).tStop = ⟨posInf⟩ ∧
      (∀ t, rnd t = t → (p.plan (num (rnd L)) f minL .maximizeSpeed).s (num t) = num (S t)) ∧ Law d L v D S ∧ Begins d L v D S := by
  have hm := h.moderate hv
  obtain ⟨D, S, h1, h2, h3, h4, h5, h6, h7, h8⟩ := Props.path_full hm hp
  refine ⟨D, S, h1, h4, h5, ⟨h2, h3, h6, h7, fun t t' a b c => (h8 t t' a b c).1⟩, fun t ht t0 t1 => ?_,
    fun t t' a b c => (h8 t t' a b c).2.1, fun t t' a b c => (h8 t t' a b c).2.2⟩
  have hV := (h.speed_cases hv).2
  have ha := h.acc_bounds
  have ht2 : t ^ 2 ≤ (52 / 10 ^ 6) ^ 2 := pow_le_pow_left₀ t0 t1 2
  norm_num at ht2 t1
  have k1 : t * acc d L ≤ 52 / 1000000 * 347 := mul_le_mul (by linarith) ha.2 (by linarith) (by norm_num)
  have k2 : acc d L * t ^ 2 ≤ 347 * (2704 / 1000000000000) := mul_le_mul ha.2 (by linarith) (by positivity) (by norm_num)
  obtain ⟨y, e, y0, y1⟩ := Profile32.plan_early hm hp ht t0 (by linarith) (by linarith) (by linarith) (by linarith)
  rw [h5 t ht] at e
  have e : S t = y := by
    have := congrArg Single.val e
    exact Num.fin.inj this
  have hn := Straight32.tiny_small
  rw [e]
  refine ⟨y0, ?_⟩
  norm_num at hn k2 ⊢
  linarith

/-- The error of the distance, for an axis. -/
theorem drift_axis (h : Straight32 x d L) (hv : Speed d L v) {i : Nat} (hi : i < 3) :
    |dir d L i| * Props.drift (rnd L) v (acc d L) (acc d L) 600 ≤
      (240 * (|dir d L i| * Props.rampDistance v (acc d L) (acc d L) 600) + 15 * (|dir d L i| * rnd L) + 115) / 2 ^ 24 := by
  have h2 := h.late_le hv (abs_nonneg (dir d L i)) (h.dir_le hi)
  have h2 : |dir d L i| * (600 * rnd L ^ 2 / v ^ 3 * Props.rampDistance v (acc d L) (acc d L) 600) ≤ 9165000 := by
    rcases h2 with h2 | h2
    · linarith
    · exact h2.2.1
  unfold Props.drift
  have e : |dir d L i| * ((240 * Props.rampDistance v (acc d L) (acc d L) 600 + 15 * rnd L +
      210 / 2 ^ 24 * (600 * rnd L ^ 2 / v ^ 3) * Props.rampDistance v (acc d L) (acc d L) 600) / 2 ^ 24) =
      (240 * (|dir d L i| * Props.rampDistance v (acc d L) (acc d L) 600) + 15 * (|dir d L i| * rnd L) +
      210 / 2 ^ 24 * (|dir d L i| * (600 * rnd L ^ 2 / v ^ 3 * Props.rampDistance v (acc d L) (acc d L) 600))) / 2 ^ 24 := by ring
  rw [e]
  refine div_le_div_of_nonneg_right ?_ (by norm_num)
  norm_num at h2 ⊢
  linarith

set_option maxHeartbeats 1000000 in
/-- As long as an axis has moved only little, it moves little from sample to sample. -/
theorem Begins.slow (h : Straight32 x d L) (hv : Speed d L v) (hl : Law d L v D S) (hb : Begins d L v D S) {i : Nat} (hi : i < 3)
    {t t' : ℝ} (h0 : 0 ≤ t) (h1 : t ≤ t') (h2 : t' ≤ D) (hδ : t' - t ≤ 167 / 10 ^ 7 + 5 / 10 ^ 7 * t)
    (hS : |dir d L i| * S t ≤ 181 / 10 ^ 6) : |dir d L i| * (S t' - S t) ≤ 32 / 10 ^ 5 := by
  have hv0 : 0 < v := lt_of_lt_of_le (by norm_num) hv.ge
  have hge := hv.ge
  have hslow := hv.slow
  have hlen := h.dir_length hi
  obtain ⟨s1, -, s3⟩ := h.sizes hv hi
  have hdr := h.drift_axis hv hi
  have ha := h.acc_bounds
  have hu0 := abs_nonneg (dir d L i)
  have hud := h.dir_le hi
  have hua : |dir d L i| * acc d L ≤ 20001 / 100 :=
    (mul_le_mul_of_nonneg_right (dir_top hi) (by linarith)).trans h.acc_near.2
  have hr := (h.rise_le hv).1
  have hR : Props.rampDistance v (acc d L) (acc d L) 600 = v * (205 / 100 * rise v (acc d L)) := rfl
  have hW : Props.rampDistance v (acc d L) (acc d L) 600 ≤ 604 / 1000 * v := by
    rw [hR]
    have := mul_le_mul_of_nonneg_left hr hv0.le
    linarith
  obtain ⟨vc, vge⟩ := h.speed_cases hv
  have hVv := (Moderate.speed_le (rnd L) v (acc d L) (acc d L)).1
  have hrise := hb.rises t t' h0 h1 h2
  have hLu : rnd L ≤ 521 := by have := h.Lf.2; have := h.L_le; unfold eps at *; linarith
  have hL0 := rnd_nonneg h.L_pos.le
  have hbr := hl.brief
  have hbeg := hb.begins t t' h0 h1 h2
  generalize Props.rampDistance v (acc d L) (acc d L) 600 = W at *
  generalize Props.ripple (rnd L) v (acc d L) (acc d L) 600 = R at *
  generalize Props.drift (rnd L) v (acc d L) (acc d L) 600 = Q at *
  generalize speed32 (rnd L) v (acc d L) (acc d L) = V at *
  generalize rnd L = l at *
  generalize acc d L = a at *
  generalize |dir d L i| = u at *
  have hV0 : 0 < V := by linarith
  -- once the speed is reached
  have fin : ∀ κ, u * V ^ 2 ≤ κ → κ ≤ 984 / 1000 →
      (t' - t ≤ 171 / 10 ^ 7 ∨ κ ≤ 449 / 1000) → u * (S t' - S t) ≤ 32 / 10 ^ 5 := by
    intro κ hκ hκ1 hcase
    have n0 : 0 ≤ u * V := by positivity
    have hrise' := mul_le_mul_of_nonneg_left hrise hu0
    have key : u * (V * (t' - t)) + u * Q ≤ 32 / 10 ^ 5 → u * (S t' - S t) ≤ 32 / 10 ^ 5 := by intro hk; linarith
    refine key ?_
    have huVt : u * (V * (t' - t)) ≤ u * V * (167 / 10 ^ 7) + 5 / 10 ^ 7 * (102 / 100 * (u * l) + 4 * (u * W)) := by
      have k1 := mul_le_mul_of_nonneg_left hδ n0
      have k2 : u * V * t ≤ u * (v * D) := by
        rw [mul_assoc]
        exact mul_le_mul_of_nonneg_left (mul_le_mul hVv (h1.trans h2) h0 hv0.le) hu0
      have k3 := mul_le_mul_of_nonneg_left hbr hu0
      norm_num at k1 ⊢
      linarith
    have huVs : t' - t ≤ 171 / 10 ^ 7 → u * (V * (t' - t)) ≤ u * V * (171 / 10 ^ 7) := by
      intro hs
      have k1 := mul_le_mul_of_nonneg_left hs n0
      linarith
    rcases vc with vc | vc
    · subst vc
      rcases le_total V (149 / 100) with low | hge
      · have u2 : u * V ≤ 1 * (149 / 100) := mul_le_mul hud low hV0.le (by norm_num)
        have u3 : u * W ≤ 604 / 1000 * (u * V) := by
          have := mul_le_mul_of_nonneg_left hW hu0
          linarith
        rcases hcase with hs | hs
        · have := huVs hs
          norm_num at *
          linarith
        · have u4 : u * l ≤ 186 := by
            refine abs_le_of_sq_le_sq' (show (u * l) ^ 2 ≤ 186 ^ 2 from ?_) (by norm_num) |>.2
            have e : (u * l) ^ 2 = u ^ 2 * l ^ 2 := by ring
            rw [e]
            have k1 : u ^ 2 * l ^ 2 ≤ u ^ 2 * (100000 * V ^ 3) := mul_le_mul_of_nonneg_left hslow (by positivity)
            refine k1.trans ?_
            rcases le_total V (7 / 10) with c | c
            · have k2 : u ^ 2 ≤ 1 ^ 2 := pow_le_pow_left₀ hu0 hud 2
              have k3 : V ^ 3 ≤ (7 / 10) ^ 3 := pow_le_pow_left₀ hV0.le c 3
              have k4 := mul_le_mul k2 k3 (by positivity) (by norm_num)
              norm_num at k4 ⊢
              linarith
            · have k2 : u * V ^ 2 ≤ 449 / 1000 := hκ.trans hs
              have k3 : (u * V ^ 2) ^ 2 ≤ (449 / 1000) ^ 2 := pow_le_pow_left₀ (by positivity) k2 2
              have k4 : u ^ 2 * V ^ 3 * V = (u * V ^ 2) ^ 2 := by ring
              have k5 : u ^ 2 * V ^ 3 * (7 / 10) ≤ u ^ 2 * V ^ 3 * V := mul_le_mul_of_nonneg_left c (by positivity)
              norm_num at k3 ⊢
              linarith
          norm_num at *
          linarith
      have u1 : u * (149 / 100) ^ 2 ≤ κ := (mul_le_mul_of_nonneg_left (pow_le_pow_left₀ (by norm_num) hge 2) hu0).trans hκ
      have u2 : u * V * (149 / 100) ≤ κ := by
        have := mul_le_mul_of_nonneg_left hge n0
        nlinarith
      have u3 : u * W ≤ 604 / 1000 * (u * V) := by
        have := mul_le_mul_of_nonneg_left hW hu0
        linarith
      have u4 : u * l ≤ u * 521 := mul_le_mul_of_nonneg_left hLu hu0
      rcases hcase with hs | hs
      · have := huVs hs
        norm_num at *
        linarith
      · norm_num at *
        linarith
    · obtain ⟨vc, vge⟩ := vc
      have u1 : u * l * (1996 / 10) ≤ κ := by
        have k1 := mul_le_mul_of_nonneg_left vc hu0
        have k2 := mul_le_mul_of_nonneg_left ha.1 (show 0 ≤ u * l by positivity)
        nlinarith
      have u2 : u * V * (87 / 100) ≤ κ := by
        have := mul_le_mul_of_nonneg_left vge n0
        nlinarith
      rcases hcase with hs | hs
      · have := huVs hs
        norm_num at *
        linarith
      · norm_num at *
        linarith
  rcases hbeg with ⟨ht, P, P0, P1, P2⟩ | hc
  · have t1 : t ≤ 611 / 1000 := by
      have : v * t ≤ v * (611 / 1000) := by linarith
      exact le_of_mul_le_mul_left this hv0
    have δ1 : t' - t ≤ 171 / 10 ^ 7 := by norm_num at *; linarith
    have δ0 : 0 ≤ t' - t := by linarith
    have hX : u * (S t + 11 / 20 * R) ≤ 3438 / 10 ^ 7 := by norm_num at *; linarith
    have p1 : u * P ^ 2 ≤ 2 * (1001 / 1000 * a) * (3438 / 10 ^ 7) := by
      have k1 := mul_le_mul_of_nonneg_left P1 hu0
      have k2 := mul_le_mul_of_nonneg_left hX (show 0 ≤ 2 * (1001 / 1000 * a) by linarith)
      linarith
    rcases P2 with P2 | P2
    · have p2 : (u * P) ^ 2 ≤ (38 / 100) ^ 2 := by
        have k1 := mul_le_mul_of_nonneg_left p1 hu0
        have k2 : u * (2 * (1001 / 1000 * a) * (3438 / 10 ^ 7)) = 2 * (1001 / 1000) * (3438 / 10 ^ 7) * (u * a) := by ring
        rw [k2] at k1
        have k3 : (u * P) ^ 2 = u * (u * P ^ 2) := by ring
        rw [k3]
        norm_num at *
        linarith
      have p3 : u * P ≤ 38 / 100 := abs_le_of_sq_le_sq' p2 (by norm_num) |>.2
      have k1 := mul_le_mul_of_nonneg_left P2 hu0
      have k2 : u * ((P + 1001 / 1000 * a * (t' - t)) * (t' - t)) = (u * P) * (t' - t) + 1001 / 1000 * (u * a) * ((t' - t) * (t' - t)) := by
        ring
      have k3 : (u * P) * (t' - t) ≤ 38 / 100 * (171 / 10 ^ 7) := mul_le_mul p3 δ1 δ0 (by norm_num)
      have k4 : (t' - t) * (t' - t) ≤ 171 / 10 ^ 7 * (171 / 10 ^ 7) := mul_le_mul δ1 δ1 δ0 (by norm_num)
      have k5 : (u * a) * ((t' - t) * (t' - t)) ≤ 20001 / 100 * (171 / 10 ^ 7 * (171 / 10 ^ 7)) :=
        mul_le_mul hua k4 (by positivity) (by norm_num)
      norm_num at *
      linarith
    · refine fin (984 / 1000) ?_ le_rfl (.inl δ1)
      have aδ : 1001 / 1000 * a * (t' - t) ≤ 594 / 10 ^ 5 := by
        have k1 : a * (t' - t) ≤ 347 * (171 / 10 ^ 7) := mul_le_mul ha.2 δ1 δ0 (by norm_num)
        norm_num at *
        linarith
      have q1 : 499 / 1000 * V ≤ P + 594 / 10 ^ 5 := by linarith
      have q2 : (499 / 1000 * V) ^ 2 ≤ 101 / 100 * P ^ 2 + 101 * (594 / 10 ^ 5) ^ 2 := by
        have k1 := pow_le_pow_left₀ (by positivity) q1 2
        have k2 := sq_nonneg (P - 100 * (594 / 10 ^ 5))
        nlinarith
      have q3 := mul_le_mul_of_nonneg_left q2 hu0
      have q4 : u * (1001 / 1000 * a) ≤ u * 347.4 := by
        refine mul_le_mul_of_nonneg_left ?_ hu0; linarith
      have q5 : u * P ^ 2 ≤ 2 * 347.4 * (3438 / 10 ^ 7) := by
        refine p1.trans ?_
        norm_num; linarith
      norm_num at *
      linarith
  · refine fin (449 / 1000) ?_ (by norm_num) (.inr le_rfl)
    have k1 := mul_le_mul_of_nonneg_left hc hu0
    have hX : u * (S t + 31 / 20 * R) ≤ 6393 / 10 ^ 7 := by norm_num at *; linarith
    have k2 := mul_le_mul_of_nonneg_left hX (show 0 ≤ 2 * (1001 / 1000 * a) by linarith)
    have k3 : 2 * (1001 / 1000 * a) * (6393 / 10 ^ 7) ≤ 2 * 347.4 * (6393 / 10 ^ 7) := by norm_num; linarith
    norm_num at *
    linarith

end Straight32
end Moovr
