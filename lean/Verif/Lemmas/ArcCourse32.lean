import Verif.Lemmas.Arc32
import Verif.Lemmas.Queue32
/-!
# Arcs on the 3-axis machine in single precision: limits, distances, positions over time
-/
namespace Moovr
open Num Float32 Single Ramp

/-! ## Limits -/

/-- At least `c`. -/
def AtLeast (c : ℝ) (X : Single) : Prop := X = ⟨posInf⟩ ∨ ∃ x, X = num x ∧ c ≤ x

theorem AtLeast.lim {c U : ℝ} (hc : 0 < c) (hf : rnd c = c) (h0 : 0 ≤ U) (h1 : U ≤ 1) : AtLeast c (lim32 c U) := by
  unfold lim32
  split_ifs with h
  · exact .inl rfl
  · refine .inr ⟨_, rfl, ?_⟩
    have hU : 0 < U := lt_of_le_of_ne h0 (Ne.symm h)
    have : c ≤ c / U := by rw [le_div_iff₀ hU]; nlinarith
    have := rnd_mono this
    rwa [hf] at this

/-- Not below a smaller number. -/
theorem AtLeast.not_below {c y : ℝ} {X : Single} (h : AtLeast c X) (hy : y ≤ c) : X.lt (num y) = false := by
  rcases h with rfl | ⟨x, rfl, hx⟩
  · rfl
  · rw [lt_num]; simpa using hy.trans hx

theorem AtLeast.min {c : ℝ} {X Y : Single} (hX : AtLeast c X) (hY : AtLeast c Y) : AtLeast c (if X.lt Y then X else Y) := by
  split <;> assumption

/-- The smaller of the two. -/
theorem AtLeast.limit {c y : ℝ} {X : Single} (h : AtLeast c X) (hy : y ≤ c) :
    (if (num y).lt X then num y else X) = num y := by
  rcases h with rfl | ⟨x, rfl, hx⟩
  · exact if_pos rfl
  · rw [lt_num]
    split_ifs with h
    · rfl
    · have : x = y := le_antisymm (not_lt.1 (by simpa using h)) (hy.trans hx)
      rw [this]

namespace Profile32

/-- Limits not below those of a single axis. -/
structure Loose (v a : ℝ) (p : Profile32) : Prop where
  vMax : AtLeast v p.vMax
  aMax : AtLeast a p.aMax
  dMax : ∃ X, p.dMax = -X ∧ AtLeast a X

/-- The limits of an axis on the circle, where `w` is the speed allowed by the radius. -/
structure Tight (v w a : ℝ) (p : Profile32) : Prop where
  vMax : p.vMax = num (min w v)
  aMax : p.aMax = num a
  dMax : p.dMax = num (-a)

theorem abs_neg_atLeast {c : ℝ} {X : Single} (hc : 0 < c) (h : AtLeast c X) : (⟨(-X).val.abs⟩ : Single) = X := by
  rcases h with rfl | ⟨x, rfl, hx⟩
  · rfl
  · rw [num_neg, num_val, abs_fin, abs_neg, abs_of_nonneg (by linarith)]; rfl

/-- An axis that does not take part in the circle. -/
theorem limitAxis_linear {M : Machine} {t : Trajectory32} {p : Profile32} {v w a u : ℝ} {i : Nat} (hv : 0 < v) (ha : 0 < a)
    (hvf : rnd v = v) (haf : rnd a = a) (h0 : i ≠ t.arcAxis0) (h1 : i ≠ t.arcAxis1) (hu : t.directionUnitVector i = num u)
    (hu1 : |u| ≤ 1) (hvM : M.vMax i = v) (haM : M.aMax i = a) (hdM : M.dMax i = -a) :
    (Loose v a p → Loose v a (limitAxis M t p i)) ∧ (Tight v w a p → Tight v w a (limitAxis M t p i)) := by
  have l1 := AtLeast.lim hv hvf (abs_nonneg u) hu1
  have l2 := AtLeast.lim ha haf (abs_nonneg u) hu1
  unfold limitAxis
  simp only [hu, hvM, haM, hdM, lim32_axis hv, lim32_axis ha, lim32_axis_neg ha, h0, h1, or_self, if_false]
  constructor
  · rintro ⟨p1, p2, p3⟩
    by_cases c1 : (lim32 v |u|).lt p.vMax = true <;> by_cases c2 : (lim32 a |u|).lt p.aMax = true <;>
      by_cases c3 : (lim32 a |u|).lt ⟨p.dMax.val.abs⟩ = true <;>
      simp only [c1, c2, c3, if_true, if_false, Bool.false_eq_true] <;>
      exact ⟨by assumption, by assumption, by first | exact p3 | exact ⟨_, rfl, l2⟩⟩
  · rintro ⟨p1, p2, p3⟩
    have n1 : (lim32 v |u|).lt p.vMax = false := by rw [p1]; exact l1.not_below (min_le_right _ _)
    have n2 : (lim32 a |u|).lt p.aMax = false := by rw [p2]; exact l2.not_below le_rfl
    have n3 : (lim32 a |u|).lt ⟨p.dMax.val.abs⟩ = false := by
      have : (⟨p.dMax.val.abs⟩ : Single) = num a := by rw [p3, num_val, abs_fin, abs_neg, abs_of_pos ha]; rfl
      rw [this]; exact l2.not_below le_rfl
    simp only [n1, n2, n3, if_false, Bool.false_eq_true]
    exact ⟨p1, p2, p3⟩

/-- An axis on the circle. -/
theorem limitAxis_arc {M : Machine} {t : Trajectory32} {p : Profile32} {v w a ρ : ℝ} {i : Nat} (hv : 0 < v) (ha : 0 < a)
    (hvf : rnd v = v) (haf : rnd a = a) (h : i = t.arcAxis0 ∨ i = t.arcAxis1) (hu : t.directionUnitVector i = num 1)
    (hρ : t.radius = num ρ) (hρ0 : 0 ≤ ρ) (hw : w = rnd √(rnd (a * ρ)))
    (hvM : M.vMax i = v) (haM : M.aMax i = a) (hdM : M.dMax i = -a) (hp : Loose v a p ∨ Tight v w a p) :
    Tight v w a (limitAxis M t p i) := by
  have e1 : lim32 v |(1 : ℝ)| = num v := by unfold lim32; rw [if_neg (by norm_num)]; simp [hvf]
  have e2 : lim32 a |(1 : ℝ)| = num a := by unfold lim32; rw [if_neg (by norm_num)]; simp [haf]
  have hsq : (Arith.sqrt (num a * num ρ) : Single) = num w := by
    rw [num_mul, sqrt_num (rnd_nonneg (by positivity)), hw]
  unfold limitAxis
  simp only [hu, hvM, haM, hdM, lim32_axis hv, lim32_axis ha, lim32_axis_neg ha, h, if_true, e1, e2, hρ, hsq]
  -- the speed
  have v1 : (let p1 := if (num w).lt p.vMax then ({ p with vMax := num w } : Profile32) else p
      if (num v).lt p1.vMax then num v else p1.vMax) = num (min w v) := by
    rcases hp with ⟨p1, -, -⟩ | ⟨p1, -, -⟩
    · by_cases c : (num w).lt p.vMax = true
      · simp only [c, if_true, lt_num]
        rcases le_total w v with hc | hc
        · rw [min_eq_left hc, if_neg (by simpa using hc)]
        · rw [min_eq_right hc]
          split_ifs with h1
          · rfl
          · rw [le_antisymm (not_lt.1 (by simpa using h1)) hc]
      · simp only [c, Bool.false_eq_true, if_false]
        rcases p1 with p1 | ⟨x, p1, hx⟩
        · rw [p1] at c; exact absurd rfl c
        · rw [p1, lt_num] at c
          have hwx : x ≤ w := not_lt.1 (by simpa using c)
          rw [min_eq_right (hx.trans hwx)]
          exact (AtLeast.limit (c := v) (.inr ⟨x, p1, hx⟩) le_rfl)
    · have c : (num w).lt p.vMax = false := by rw [p1, lt_num]; simp
      have c' : (num v).lt p.vMax = false := by rw [p1, lt_num]; simp
      simp only [c, c', Bool.false_eq_true, if_false]
      exact p1
  have a1 : (if (num a).lt p.aMax then num a else p.aMax) = num a := by
    rcases hp with ⟨-, p1, -⟩ | ⟨-, p1, -⟩
    · exact p1.limit le_rfl
    · rw [p1]; simp
  have d1 : (if (num a).lt ⟨p.dMax.val.abs⟩ then -num a else p.dMax) = num (-a) := by
    rcases hp with ⟨-, -, p1⟩ | ⟨-, -, p1⟩
    · obtain ⟨X, e, hX⟩ := p1
      rw [e, abs_neg_atLeast ha hX]
      rw [← num_neg, ← hX.limit le_rfl]
      split_ifs <;> rfl
    · rw [p1]; simp
  simp only at v1
  have q1 : (if (num w).lt p.vMax then ({ p with vMax := num w } : Profile32) else p).aMax = p.aMax := by split <;> rfl
  have q2 : (if (num w).lt p.vMax then ({ p with vMax := num w } : Profile32) else p).dMax = p.dMax := by split <;> rfl
  generalize (if (num w).lt p.vMax then ({ p with vMax := num w } : Profile32) else p) = p1 at *
  rw [← q1] at a1
  rw [← q2] at d1
  by_cases c1 : (num v).lt p1.vMax = true <;> by_cases c2 : (num a).lt p1.aMax = true <;>
    by_cases c3 : (num a).lt ⟨p1.dMax.val.abs⟩ = true <;>
    simp only [c1, c2, c3, if_true, if_false, Bool.false_eq_true] at v1 a1 d1 ⊢ <;>
    exact ⟨v1, by first | exact a1 | rfl, d1⟩

/-- The limits along an arc. -/
theorem limit_arc {M : Machine} {t : Trajectory32} {p : Profile32} {v a ρ : ℝ} {u : Nat → ℝ} (hv : 0 < v) (ha : 0 < a)
    (hvf : rnd v = v) (haf : rnd a = a) (hi : t.arcAxis0 < M.n) (h1 : ∀ i, i < M.n → i = t.arcAxis0 ∨ i = t.arcAxis1 → t.directionUnitVector i = num 1)
    (hu : ∀ i, i < M.n → i ≠ t.arcAxis0 → i ≠ t.arcAxis1 → t.directionUnitVector i = num (u i) ∧ |u i| ≤ 1)
    (hρ : t.radius = num ρ) (hρ0 : 0 ≤ ρ)
    (hvM : ∀ i, i < M.n → M.vMax i = v) (haM : ∀ i, i < M.n → M.aMax i = a) (hdM : ∀ i, i < M.n → M.dMax i = -a) :
    Tight v (rnd √(rnd (a * ρ))) a (p.limit M t) ∧ (p.limit M t).jMax = num M.jMax := by
  have : ∀ m, m ≤ M.n → ((m ≤ t.arcAxis0 ∧ Loose v a ((List.range m).foldl (limitAxis M t) { p with vMax := ⟨posInf⟩, aMax := ⟨posInf⟩, dMax := ⟨negInf⟩ })) ∨
      Tight v (rnd √(rnd (a * ρ))) a ((List.range m).foldl (limitAxis M t) { p with vMax := ⟨posInf⟩, aMax := ⟨posInf⟩, dMax := ⟨negInf⟩ })) := by
    intro m
    induction m with
    | zero => intro _; exact .inl ⟨Nat.zero_le _, .inl rfl, .inl rfl, ⟨posInf⟩, rfl, .inl rfl⟩
    | succ m ih =>
      intro hm
      have ih := ih (by omega)
      rw [List.range_succ, List.foldl_append]
      generalize (List.range m).foldl (limitAxis M t) _ = P at *
      show _ ∧ Loose v a (limitAxis M t P m) ∨ Tight v _ a (limitAxis M t P m)
      by_cases harc : m = t.arcAxis0 ∨ m = t.arcAxis1
      · exact .inr (limitAxis_arc hv ha hvf haf harc (h1 m (by omega) harc) hρ hρ0 rfl (hvM m (by omega)) (haM m (by omega)) (hdM m (by omega))
          (ih.imp And.right id))
      · push Not at harc
        obtain ⟨u1, u2⟩ := hu m (by omega) harc.1 harc.2
        obtain ⟨k1, k2⟩ := limitAxis_linear (p := P) (w := rnd √(rnd (a * ρ))) hv ha hvf haf harc.1 harc.2 u1 u2 (hvM m (by omega)) (haM m (by omega)) (hdM m (by omega))
        rcases ih with ⟨ih0, ih⟩ | ih
        · exact .inl ⟨by omega, k1 ih⟩
        · exact .inr (k2 ih)
  rcases this M.n le_rfl with ⟨h, -⟩ | h
  · omega
  · exact ⟨⟨h.vMax, h.aMax, h.dMax⟩, rfl⟩

end Profile32

/-! ## Distances -/

namespace Arc32
variable {A : Curve} {x d : Nat → ℝ} {L v D : ℝ} {S : ℝ → ℝ}

/-- The speed along an arc: not too low for the length. -/
structure Speed (L v : ℝ) : Prop where
  float : rnd v = v
  ge : 9 / 100 ≤ v
  le : v ≤ 30
  slow : rnd L ^ 2 ≤ 100000 * v ^ 3

theorem Lf (h : Arc32 A x d L) : (1 - eps) * L ≤ rnd L ∧ rnd L ≤ (1 + eps) * L := by
  have := rnd_scale (x := L) (X := L) (by rw [abs_of_pos h.L_pos]) ((by rw [zpow_neg]; norm_num : (2 : ℝ) ^ (-126 : ℤ) ≤ 1 / 256).trans h.long)
  rw [eps_eq] at this
  have := abs_le.1 this
  constructor <;> linarith

theorem moderate (h : Arc32 A x d L) (hv : Speed L v) : Moderate (rnd L) v 200 200 600 := by
  have hge := hv.ge
  have hle := hv.le
  have hL := h.Lf
  have hL0 := h.long
  have hL1 := h.short
  have hb1 : 1 / 1024 ≤ rnd L := by unfold eps at hL; linarith
  have hb2 : rnd L ≤ 421 := by unfold eps at hL; linarith
  have hslow := hv.slow
  have hcube : 0 < v ^ 3 := by
    have : 0 < v := by linarith
    positivity
  refine ⟨rnd_rnd _, hv.float, hb1, by linarith, by linarith, by linarith, by linarith, by linarith, by linarith, by linarith,
    by norm_num, by norm_num, by linarith, by linarith, by linarith, by linarith, ⟨by linarith, by linarith⟩, ?_⟩
  norm_num at hslow ⊢
  linarith

theorem rise_le (hv : Speed L v) : Straight32.rise v 200 ≤ 2237 / 10000 ∧
    (149 / 100 ≤ v → Straight32.rise v 200 ≤ 225 / 10000 * v ^ 2) ∧ (v ≤ 149 / 100 → Straight32.rise v 200 ≤ 1 / 20) := by
  have hge := hv.ge
  have hle := hv.le
  have hv0 : 0 < v := by linarith
  unfold Straight32.rise
  refine ⟨max_le (max_le ?_ ?_) ?_, fun hge => ?_, fun hle => max_le (max_le ?_ ?_) ?_⟩
  · linarith
  · linarith
  · exact Real.sqrt_le_iff.2 ⟨by norm_num, by linarith⟩
  · have hcube : 33 / 10 ≤ v ^ 3 := by
      have := pow_le_pow_left₀ (by norm_num) hge 3
      norm_num at this ⊢
      linarith
    refine max_le (max_le ?_ ?_) ?_
    · nlinarith
    · nlinarith
    · refine Real.sqrt_le_iff.2 ⟨by positivity, ?_⟩
      have := mul_le_mul_of_nonneg_left hcube hv0.le
      have e : (225 / 10000 * v ^ 2) ^ 2 = 225 ^ 2 / 10000 ^ 2 * (v * v ^ 3) := by ring
      rw [e]
      norm_num
      linarith
  · linarith
  · linarith
  · exact Real.sqrt_le_iff.2 ⟨by norm_num, by linarith⟩

/-- Size of the errors. -/
theorem sizes (h : Arc32 A x d L) (hv : Speed L v) : 0 ≤ Props.ripple (rnd L) v 200 200 600 ∧
    Props.ripple (rnd L) v 200 200 600 ≤ 5150 / 2 ^ 24 ∧ 0 ≤ Props.drift (rnd L) v 200 200 600 ∧
    Props.drift (rnd L) v 200 200 600 ≤ 9670 / 2 ^ 24 ∧ Props.rampDistance v 200 200 600 ≤ 1376 / 100 := by
  have hm := h.moderate hv
  have hge := hv.ge
  have hle := hv.le
  have hv0 : 0 < v := by linarith
  obtain ⟨r1, r2, r3⟩ := rise_le hv
  have hr0 : 0 ≤ Straight32.rise v 200 := le_max_of_le_right (Real.sqrt_nonneg _)
  have hR : Props.rampDistance v 200 200 600 = v * (205 / 100 * Straight32.rise v 200) := rfl
  have hL0 := hm.L_pos
  have hLu : rnd L ≤ 4201 / 10 := by have := h.Lf.2; have := h.short; unfold eps at *; linarith
  have h1 : Props.rampDistance v 200 200 600 ≤ 1376 / 100 := by
    rw [hR]
    have := mul_le_mul hle r1 hr0 (by norm_num)
    linarith
  have h2 : 600 * rnd L ^ 2 / v ^ 3 * Props.rampDistance v 200 200 600 ≤ 4885000 ∨
      600 * rnd L ^ 2 / v ^ 3 * Props.rampDistance v 200 200 600 ≤ 9165000 ∧ Props.rampDistance v 200 200 600 ≤ 154 / 1000 := by
    rw [hR]
    have e : 600 * rnd L ^ 2 / v ^ 3 * (v * (205 / 100 * Straight32.rise v 200)) = 1230 * rnd L ^ 2 * (Straight32.rise v 200 / v ^ 2) := by
      field_simp; ring
    rw [e]
    rcases le_total (149 / 100) v with c | c
    · left
      have a1 : Straight32.rise v 200 / v ^ 2 ≤ 225 / 10000 := by rw [div_le_iff₀ (by positivity)]; exact r2 c
      have a2 : rnd L ^ 2 ≤ (4201 / 10) ^ 2 := pow_le_pow_left₀ hL0.le hLu 2
      have a3 := mul_le_mul a2 a1 (by positivity) (by norm_num)
      norm_num at a3
      linarith
    · right
      have a1 : v * Straight32.rise v 200 ≤ 149 / 100 * (1 / 20) := mul_le_mul c (r3 c) hr0 (by norm_num)
      refine ⟨?_, by linarith⟩
      have a4 := mul_le_mul_of_nonneg_right hv.slow (show 0 ≤ Straight32.rise v 200 / v ^ 2 by positivity)
      have a5 : 100000 * v ^ 3 * (Straight32.rise v 200 / v ^ 2) = 100000 * (v * Straight32.rise v 200) := by field_simp
      linarith
  refine ⟨?_, ?_, ?_, ?_, h1⟩
  · unfold Props.ripple Props.rampDistance; positivity
  · unfold Props.ripple
    refine div_le_div_of_nonneg_right ?_ (by norm_num)
    rcases h2 with h2 | ⟨h2, h3⟩
    · norm_num at h1 h2 ⊢
      linarith
    · norm_num at h3 h2 ⊢
      linarith
  · unfold Props.drift Props.rampDistance; positivity
  · unfold Props.drift
    refine div_le_div_of_nonneg_right ?_ (by norm_num)
    rcases h2 with h2 | ⟨h2, h3⟩
    · norm_num at h1 h2 ⊢
      linarith
    · norm_num at h3 h2 ⊢
      linarith

/-- What is known of the distance travelled. -/
structure Law (L v D : ℝ) (S : ℝ → ℝ) : Prop where
  pos : 0 < D
  brief : v * D ≤ 102 / 100 * rnd L + 4 * Props.rampDistance v 200 200 600
  zero : S 0 = 0
  ends : |S D - rnd L| ≤ Props.drift (rnd L) v 200 200 600
  rises : ∀ t t', 0 ≤ t → t ≤ t' → t' ≤ D →
    S t ≤ S t' + Props.ripple (rnd L) v 200 200 600 ∧ S t' ≤ S t + v * (t' - t) + Props.drift (rnd L) v 200 200 600
  early : ∀ t, rnd t = t → 0 ≤ t → t ≤ 61 / 10 ^ 6 → 0 ≤ S t ∧ S t ≤ 1 / 10 ^ 6

/-- The planned motion. -/
theorem law (h : Arc32 A x d L) (hv : Speed L v) {p : Profile32} {f minL : Single} (hp : Props.Between p f minL (rnd L) v 200 200 600) :
    ∃ D S, (p.plan (num (rnd L)) f minL .maximizeSpeed).duration = num D ∧
      (p.plan (num (rnd L)) f minL .maximizeSpeed).tStop = ⟨posInf⟩ ∧
      (∀ t, rnd t = t → (p.plan (num (rnd L)) f minL .maximizeSpeed).s (num t) = num (S t)) ∧ Law L v D S := by
  have hm := h.moderate hv
  obtain ⟨D, S, h1, h2, h3, h4, h5, h6, h7, h8⟩ := Props.path_single hm hp
  refine ⟨D, S, h1, h4, h5, h2, h3, h6, h7, h8, fun t ht t0 t1 => ?_⟩
  have hge := hv.ge
  have hV : 9 / 100 ≤ speed32 (rnd L) v 200 200 := by
    have h9 := hm.tri_near.half_le (by have := hm.quotient; linarith) (by norm_num)
    have h10 : 39 / 10000 ≤ rnd L := by have := h.Lf.1; have := h.long; unfold eps at *; linarith
    have ht0 : 0 ≤ tri32 (rnd L) 200 200 := rnd_nonneg (Real.sqrt_nonneg _)
    unfold speed32
    split_ifs
    · by_contra hc
      push Not at hc
      have := mul_lt_mul'' hc hc ht0 ht0
      norm_num at h9
      nlinarith
    · linarith
  have ht2 : t ^ 2 ≤ (61 / 10 ^ 6) ^ 2 := pow_le_pow_left₀ t0 t1 2
  norm_num at ht2 t1
  obtain ⟨y, e, y0, y1⟩ := Profile32.plan_early hm hp ht t0 (by linarith) (by linarith) (by linarith) (by linarith)
  rw [h5 t ht] at e
  have e : S t = y := by
    have := congrArg Single.val e
    exact Num.fin.inj this
  have hn := Straight32.tiny_small
  norm_num at hn ⊢
  rw [e]
  exact ⟨y0, by linarith⟩

variable {fpu : Fpu} {i : Nat}

theorem Law.range (h : Arc32 A x d L) (hv : Speed L v) (hl : Law L v D S) {t : ℝ} (h0 : 0 ≤ t) (h1 : t ≤ D) :
    -(5150 / 2 ^ 24) ≤ S t ∧ S t ≤ L + 15250 / 2 ^ 24 ∧ |S t| ≤ L + 1 / 1000 := by
  obtain ⟨s1, s2, s3, s4, -⟩ := h.sizes hv
  have h2 := (hl.rises 0 t le_rfl h0 h1).1
  have h3 := (hl.rises t D h0 h1 le_rfl).1
  have h4 := abs_le.1 hl.ends
  have h5 := h.Lf.2
  have h6 := h.short
  have h7 := h.L_pos
  rw [hl.zero] at h2
  rw [abs_le]
  unfold eps at *
  norm_num at *
  refine ⟨?_, ?_, ?_, ?_⟩ <;> linarith

/-- A point of the path near the computed position. -/
theorem Law.on_path (h : Arc32 A x d L) (hv : Speed L v) (hl : Law L v D S) {t : ℝ} (h0 : 0 ≤ t) (h1 : t ≤ D) :
    ∃ s, 0 ≤ s ∧ s ≤ L ∧ ∀ (fpu : Fpu) (i : Nat), i < 3 → |spot fpu A x d L i (S t) - point A x d L i s| ≤ 19550 / 2 ^ 24 := by
  obtain ⟨a, b, c⟩ := hl.range h hv h0 h1
  have hL := h.L_pos
  refine ⟨max 0 (min L (S t)), le_max_left _ _, max_le hL.le (min_le_left _ _), fun fpu i hi => ?_⟩
  have hc : |S t - max 0 (min L (S t))| ≤ 15250 / 2 ^ 24 := by
    rcases le_total (S t) 0 with c | c
    · rw [max_eq_left ((min_le_right _ _).trans c), abs_le]
      norm_num at *
      constructor <;> linarith
    · rcases le_total L (S t) with c' | c'
      · rw [min_eq_left c', max_eq_right hL.le, abs_le]
        norm_num at *
        constructor <;> linarith
      · rw [min_eq_right c', max_eq_right c, sub_self, abs_zero]
        positivity
  have k1 := h.spot_near (fpu := fpu) hi c
  have k2 := (h.point_lipschitz hi (S t) (max 0 (min L (S t)))).trans hc
  have := abs_add_le (spot fpu A x d L i (S t) - point A x d L i (S t)) (point A x d L i (S t) - point A x d L i (max 0 (min L (S t))))
  rw [sub_add_sub_cancel] at this
  norm_num at *
  linarith

/-- The computed positions change continuously, but for small errors. -/
theorem Law.rate (h : Arc32 A x d L) (hv : Speed L v) (hl : Law L v D S) (hi : i < 3) {t t' : ℝ} (h0 : 0 ≤ t) (h1 : t ≤ t') (h2 : t' ≤ D) :
    |spot fpu A x d L i (S t') - spot fpu A x d L i (S t)| ≤ v * (t' - t) + 23420 / 2 ^ 24 := by
  have c := (hl.range h hv h0 (h1.trans h2)).2.2
  have c' := (hl.range h hv (h0.trans h1) h2).2.2
  obtain ⟨s1, s2, s3, s4, -⟩ := h.sizes hv
  obtain ⟨r1, r2⟩ := hl.rises t t' h0 h1 h2
  have hvt : 0 ≤ v * (t' - t) := mul_nonneg (le_trans (by norm_num) hv.ge) (by linarith)
  have hS : |S t' - S t| ≤ v * (t' - t) + (9670 + 5150) / 2 ^ 24 := by
    rw [abs_le]; norm_num at *; constructor <;> linarith
  have k1 := abs_le.1 (h.spot_near (fpu := fpu) hi c)
  have k2 := abs_le.1 (h.spot_near (fpu := fpu) hi c')
  have k3 := abs_le.1 ((h.point_lipschitz hi (S t') (S t)).trans hS)
  rw [abs_le]
  norm_num at *
  constructor <;> linarith

/-- Near the end, they are near the end of the path. -/
theorem Law.at_end (h : Arc32 A x d L) (hv : Speed L v) (hl : Law L v D S) (hi : i < 3) {t : ℝ} (h0 : 0 ≤ t) (h1 : t ≤ D) :
    |spot fpu A x d L i (S t) - point A x d L i L| ≤ v * (D - t) + 24070 / 2 ^ 24 := by
  obtain ⟨-, b, c⟩ := hl.range h hv h0 h1
  obtain ⟨s1, s2, s3, s4, -⟩ := h.sizes hv
  obtain ⟨-, r2⟩ := hl.rises t D h0 h1 le_rfl
  have e := abs_le.1 hl.ends
  have hvt : 0 ≤ v * (D - t) := mul_nonneg (le_trans (by norm_num) hv.ge) (by linarith)
  have h5 := h.Lf.1
  have h6 := h.short
  have hS : |S t - L| ≤ v * (D - t) + (2 * 9670 + 430) / 2 ^ 24 := by
    rw [abs_le]; unfold eps at *; norm_num at *; constructor <;> linarith
  have k1 := abs_le.1 (h.spot_near (fpu := fpu) hi c)
  have k3 := abs_le.1 ((h.point_lipschitz hi (S t) L).trans hS)
  rw [abs_le]
  norm_num at *
  constructor <;> linarith

/-- At the beginning, they are near its start. -/
theorem Law.at_start (h : Arc32 A x d L) (hl : Law L v D S) (hi : i < 3) {t : ℝ} (hf : rnd t = t) (h0 : 0 ≤ t) (h1 : t ≤ 61 / 10 ^ 6) :
    |spot fpu A x d L i (S t) - point A x d L i 0| ≤ 4317 / 2 ^ 24 := by
  obtain ⟨e0, e1⟩ := hl.early t hf h0 h1
  have hL := h.L_pos
  have c : |S t| ≤ L + 1 / 1000 := by rw [abs_of_nonneg e0]; norm_num at *; linarith
  have hS : |S t - 0| ≤ 1 / 10 ^ 6 := by rw [sub_zero, abs_of_nonneg e0]; exact e1
  have k1 := abs_le.1 (h.spot_near (fpu := fpu) hi c)
  have k3 := abs_le.1 ((h.point_lipschitz hi (S t) 0).trans hS)
  rw [abs_le]
  norm_num at *
  constructor <;> linarith

/-- Within a tick the distance changes little. -/
theorem Law.hop (h : Arc32 A x d L) (hv : Speed L v) (hl : Law L v D S) {o : ℝ} {k : Nat} (ho : rnd o = o) (ho0 : 0 ≤ o)
    (hk : instant fpu width32 o k ≤ D) : v * (instant fpu width32 o (k + 1) - instant fpu width32 o k) ≤ 742 / 10 ^ 6 := by
  have hge := hv.ge
  have hle := hv.le
  obtain ⟨-, -, -, -, s5⟩ := h.sizes hv
  have hb := hl.brief
  have hLu : rnd L ≤ 4201 / 10 := by have := h.Lf.2; have := h.short; unfold eps at *; linarith
  have h1 := mul_le_mul_of_nonneg_left (Straight32.instant_step fpu ho ho0 hk) (show 0 ≤ v by linarith)
  norm_num at h1 ⊢
  linarith

theorem Law.duration_le (hv : Speed L v) (hl : Law L v D S) : D ≤ 102 / 100 * (rnd L / v) + 242 / 100 := by
  have hv0 : 0 < v := lt_of_lt_of_le (by norm_num) hv.ge
  have h1 := hl.brief
  have h2 : Props.rampDistance v 200 200 600 = v * (205 / 100 * Straight32.rise v 200) := rfl
  have h3 := (rise_le hv).1
  rw [h2] at h1
  have h4 : v * D ≤ v * (102 / 100 * (rnd L / v) + 242 / 100) := by
    have e : v * (102 / 100 * (rnd L / v) + 242 / 100) = 102 / 100 * rnd L + v * (242 / 100) := by field_simp
    rw [e]
    have := mul_le_mul_of_nonneg_left h3 hv0.le
    linarith
  exact le_of_mul_le_mul_left h4 hv0

theorem Law.duration_ge (h : Arc32 A x d L) (hv : Speed L v) (hl : Law L v D S) (hL : 1 / 128 ≤ L) : 1 / 10000 ≤ D := by
  obtain ⟨s1, s2, s3, s4, -⟩ := h.sizes hv
  have h2 := (hl.rises 0 D le_rfl hl.pos.le le_rfl).2
  have h3 := (abs_le.1 hl.ends).1
  rw [hl.zero, zero_add, sub_zero] at h2
  have h4 := h.Lf.1
  have h5 := mul_le_mul_of_nonneg_right hv.le hl.pos.le
  unfold eps at *
  norm_num at *
  linarith

end Arc32
end Moovr
