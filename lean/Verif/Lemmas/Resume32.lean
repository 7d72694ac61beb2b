import Verif.Lemmas.Brake32
/-!
# Resuming a stopped straight motion of the 3-axis machine in single precision: the distance travelled
-/
namespace Moovr
open Num Float32 Single Ramp

/-- What is used of a ramp between rest and `v`; times up to 0.19 ms beyond its end. -/
structure Ramp.Mild (b : Ramp) (v : ℝ) : Prop where
  dur_ge : 1 / 1000 ≤ b.dur
  dur_le : b.dur ≤ 6045 / 10000
  len_nonneg : 0 ≤ b.len
  len_le : b.len ≤ 31 / 100 * v
  zero : b.dist 0 = 0
  rises : ∀ τ τ', 0 ≤ τ → τ ≤ τ' → τ' ≤ b.dur + 19 / 10 ^ 5 →
    b.dist τ ≤ b.dist τ' + 131 / 10 ^ 6 ∧ b.dist τ' ≤ b.dist τ + v * (τ' - τ) + 131 / 10 ^ 6
  ends : ∀ τ, 0 ≤ τ → τ ≤ b.dur + 19 / 10 ^ 5 → |b.dist τ - b.len| ≤ v * |b.dur - τ| + 131 / 10 ^ 6
  below : ∀ τ, 0 ≤ τ → τ ≤ b.dur + 19 / 10 ^ 5 → b.dist τ ≤ b.len + v * max (τ - b.dur) 0 + 131 / 10 ^ 6

theorem Ramp.Ok.mild {b : Ramp} {v T : ℝ} (h : b.Ok v T) (h52 : v ≤ 52) (hT : T ≤ 604 / 1000) (hT0 : 2 / 100 ≤ T)
    (hJ : |b.J| = 600) (hv : 9 / 100 ≤ v) (low : 2 / 5 * T ≤ 2 * b.D + b.d2) (hl0 : 0 ≤ b.len) (hl : b.len ≤ 51 / 100 * (v * T)) :
    b.Mild v := by
  have hV := h.V_pos
  have hep := eps_pos
  have ho : b.Over v T (2 / 10 ^ 4) := by
    refine ⟨by norm_num, ?_, ?_, ?_⟩
    · unfold eps; norm_num; linarith
    · norm_num; linarith
    · rw [hJ]; norm_num; linarith
  have hf : b.Fine v T (2 / 10 ^ 4) (12 / 10 ^ 6) := h.fine ho (by rw [hJ]; norm_num) le_rfl
  have hW : v * T ≤ 52 * (604 / 1000) := mul_le_mul h52 hT (by linarith) (by norm_num)
  have hW0 : 0 ≤ v * T := mul_nonneg hV.le (by linarith)
  have hd : dip v T (12 / 10 ^ 6) + 203 / 100 * eps * (v * T) ≤ 131 / 10 ^ 6 := by
    unfold dip eps
    norm_num
    linarith
  have hd0 : 0 ≤ 203 / 100 * eps * (v * T) := by positivity
  have hv' : v * (203 / 100 * eps * T) = 203 / 100 * eps * (v * T) := by ring
  have he := abs_le.1 hf.dur_err
  have heT : eps * T ≤ 4 / 10 ^ 8 := by
    have := mul_le_mul_of_nonneg_left hT hep.le
    unfold eps at *
    norm_num at *
    linarith
  have key : ∀ {τ : ℝ}, τ ≤ b.dur + 19 / 10 ^ 5 → τ ≤ 2 * b.D + b.d2 + 2 / 10 ^ 4 := by
    intro τ hτ
    norm_num at *
    linarith
  refine ⟨?_, ?_, hl0, ?_, hf.dist_zero, ?_, ?_, ?_⟩
  · norm_num at *; linarith
  · have h3 := h.total
    norm_num at *; linarith
  · have := mul_le_mul_of_nonneg_left hT hV.le
    linarith
  · intro τ τ' h0 h1 h2
    have := hf.rises h0 h1 (key h2)
    constructor <;> linarith
  · intro τ h0 h2
    have h3 := hf.ends h0 (key h2)
    have h4 : |2 * b.D + b.d2 - τ| ≤ |b.dur - τ| + 203 / 100 * eps * T := by
      have := abs_sub_abs_le_abs_sub (2 * b.D + b.d2 - τ) (b.dur - τ)
      rw [show 2 * b.D + b.d2 - τ - (b.dur - τ) = -(b.dur - (2 * b.D + b.d2)) by ring, abs_neg] at this
      linarith [hf.dur_err]
    have h5 := mul_le_mul_of_nonneg_left h4 hV.le
    linarith
  · intro τ h0 h2
    have h3 := hf.below h0 (key h2)
    have h4 : max (τ - (2 * b.D + b.d2)) 0 ≤ max (τ - b.dur) 0 + 203 / 100 * eps * T :=
      max_le (by linarith [le_max_left (τ - b.dur) 0]) (add_nonneg (le_max_right _ _) (by positivity))
    have h5 := mul_le_mul_of_nonneg_left h4 hV.le
    linarith

namespace Straight32
variable {x d : Nat → ℝ} {L v : ℝ}

/-- The ramps of a long motion. -/
theorem mild (h : Straight32 x d L) (hv : Speed d L v) (hl : 127 / 100 * v ≤ L) :
    (up v (acc d L) 600 .secondOrder).Mild v ∧ (down v (acc d L) 600 .secondOrder).Mild v := by
  obtain ⟨e1, e2, hT, -⟩ := h.reaches hv hl
  have hm := h.moderate hv
  have hge := hv.ge
  have h52 := h.speed_le hv
  have hsz : Sizes v (acc d L) 600 := e1 ▸ hm.sizes_d
  obtain ⟨T1, b1, f1, -, q1⟩ := fits hsz .secondOrder
  have c1 : T1 ≤ 604 / 1000 := (b1.trans (le_max_left _ _)).trans hT
  have c2 : 2 / 100 ≤ T1 := by
    refine le_trans ?_ (q1 rfl)
    have : (1 / 100 : ℝ) ≤ √(v / 600) := Real.le_sqrt_of_sq_le (by rw [le_div_iff₀ (by norm_num)]; norm_num; linarith)
    linarith
  have hn := Moderate.ramps_nonneg (f1.ok_up hsz) (f1.ok_down hsz)
  have hlb := Moderate.len_bound hsz f1
  refine ⟨(f1.ok_up hsz).mild h52 c1 c2 ?_ hge f1.low hn.1 hlb.1, (f1.ok_down hsz).mild h52 c1 c2 ?_ hge f1.low hn.2.1 hlb.2⟩
  · simp [up]
  · simp [down]

end Straight32

/-- The profile of a resumed motion: at the distance `S₁` and the time `T₁` two ramps with a cruise in between begin. -/
structure Profile32.GoesOn (p : Profile32) (l r : Ramp) (V m dm S₁ T₁ : ℝ) : Prop where
  left : Computes p.left l
  right : Computes p.right r
  mid : p.mid = ⟨num V, num m, num dm⟩
  doneLength : p.doneLength = num S₁
  doneDuration : p.doneDuration = num T₁
  duration : p.duration = num (rnd (rnd (rnd (T₁ + l.dur) + dm) + r.dur))
  tStop : p.tStop = ⟨posInf⟩

open Classical in
/-- The computed distance of a resumed motion. -/
noncomputable def goesOnS (l r : Ramp) (V m dm S₁ T₁ u : ℝ) : ℝ :=
  if u ≤ T₁ then S₁
  else if rnd (u - T₁) ≤ l.dur then rnd (S₁ + l.dist (rnd (u - T₁)))
  else if rnd (rnd (u - T₁) - l.dur) ≤ dm then rnd (rnd (S₁ + l.len) + rnd (V * rnd (rnd (u - T₁) - l.dur)))
  else rnd (rnd (rnd (S₁ + l.len) + m) + r.dist (rnd (rnd (rnd (u - T₁) - l.dur) - dm)))

theorem Profile32.GoesOn.s {p : Profile32} {l r : Ramp} {V m dm S₁ T₁ u : ℝ} (h : p.GoesOn l r V m dm S₁ T₁) :
    p.s (num u) = num (goesOnS l r V m dm S₁ T₁ u) := by
  unfold Profile32.s goesOnS
  simp only [h.doneDuration, h.doneLength, h.left.duration, h.left.length, h.mid, le_num, num_sub, num_add,
    decide_eq_true_eq, h.left.s, Cruise.s, num_mul, h.right.s]
  split_ifs <;> rfl

/-- A resumed motion: the parts fit together, up to rounding. `Θ` bounds the times, `e` the errors of rounded times. -/
structure GoOn (l r : Ramp) (v L m dm S₁ T₁ Θ e : ℝ) : Prop where
  left : l.Mild v
  right : r.Mild v
  v_ge : 9 / 100 ≤ v
  v_le : v ≤ 52
  L_le : L ≤ 5198 / 10
  S_nonneg : 0 ≤ S₁
  T_nonneg : 0 ≤ T₁
  floatS : rnd S₁ = S₁
  sum : |S₁ + l.len + m + r.len - L| ≤ 1 / 10 ^ 4
  cruise : 5 / 10 * v ≤ m
  mid : |m - v * dm| ≤ 311 / 10 ^ 7
  time : T₁ + l.dur + dm + r.dur + 1 / 1000 ≤ Θ
  round : ∀ y, 0 ≤ y → y ≤ Θ → |rnd y - y| ≤ e
  e_nonneg : 0 ≤ e
  e_le : e ≤ 3 / 10 ^ 5
  ve_le : v * e ≤ 42 / 10 ^ 6

namespace GoOn
open Straight32
variable {l r : Ramp} {v L m dm S₁ T₁ Θ e : ℝ}

/-- The end of the motion, as computed. -/
noncomputable def over (l r : Ramp) (dm T₁ : ℝ) : ℝ := rnd (rnd (rnd (T₁ + l.dur) + dm) + r.dur)

theorem dm_ge (h : GoOn l r v L m dm S₁ T₁ Θ e) : 4 / 10 ≤ dm := by
  have h1 := h.cruise
  have h2 := (abs_le.1 h.mid).2
  have h3 := h.v_ge
  by_contra hc
  push Not at hc
  have := mul_le_mul_of_nonneg_left hc.le (show 0 ≤ v by linarith)
  norm_num at h2
  linarith

theorem over_near (h : GoOn l r v L m dm S₁ T₁ Θ e) : |over l r dm T₁ - (T₁ + l.dur + dm + r.dur)| ≤ 3 * e := by
  have ht := h.time
  have h0 := h.T_nonneg
  have h1 := h.left.dur_ge
  have h2 := h.right.dur_ge
  have h3 := h.dm_ge
  have he := h.e_le
  have he0 := h.e_nonneg
  norm_num at he
  have a := abs_le.1 (h.round (T₁ + l.dur) (by linarith) (by linarith))
  have b := abs_le.1 (h.round (rnd (T₁ + l.dur) + dm) (by linarith) (by linarith))
  have c := abs_le.1 (h.round (rnd (rnd (T₁ + l.dur) + dm) + r.dur) (by linarith) (by linarith))
  unfold over
  rw [abs_le]
  constructor <;> linarith

/-- The time since the motion was resumed. -/
theorem first_near (h : GoOn l r v L m dm S₁ T₁ Θ e) {u : ℝ} (h0 : T₁ ≤ u) (h1 : u ≤ over l r dm T₁) :
    |rnd (u - T₁) - (u - T₁)| ≤ e ∧ 0 ≤ rnd (u - T₁) ∧ rnd (u - T₁) ≤ l.dur + dm + r.dur + 4 * e := by
  have ho := (abs_le.1 h.over_near).2
  have ht := h.time
  have hT := h.T_nonneg
  have he := h.e_le
  norm_num at he
  have a := h.round (u - T₁) (by linarith) (by linarith)
  have b := abs_le.1 a
  exact ⟨a, rnd_nonneg (by linarith), by linarith⟩

theorem second_near (h : GoOn l r v L m dm S₁ T₁ Θ e) {τ : ℝ} (h0 : l.dur ≤ τ) (h1 : τ ≤ l.dur + dm + r.dur + 4 * e) :
    |rnd (τ - l.dur) - (τ - l.dur)| ≤ e ∧ 0 ≤ rnd (τ - l.dur) ∧ rnd (τ - l.dur) ≤ dm + r.dur + 5 * e := by
  have ht := h.time
  have hT := h.T_nonneg
  have hl := h.left.dur_ge
  have he := h.e_le
  norm_num at he
  have a := h.round (τ - l.dur) (by linarith) (by linarith)
  have b := abs_le.1 a
  exact ⟨a, rnd_nonneg (by linarith), by linarith⟩

theorem third_near (h : GoOn l r v L m dm S₁ T₁ Θ e) {y : ℝ} (h0 : dm ≤ y) (h1 : y ≤ dm + r.dur + 5 * e) :
    |rnd (y - dm) - (y - dm)| ≤ e ∧ 0 ≤ rnd (y - dm) ∧ rnd (y - dm) ≤ r.dur + 19 / 10 ^ 5 := by
  have ht := h.time
  have hT := h.T_nonneg
  have hl := h.left.dur_ge
  have hd := h.dm_ge
  have he := h.e_le
  norm_num at he
  have a := h.round (y - dm) (by linarith) (by linarith)
  have b := abs_le.1 a
  refine ⟨a, rnd_nonneg (by linarith), ?_⟩
  norm_num
  linarith

/-- The lengths. -/
theorem lengths (h : GoOn l r v L m dm S₁ T₁ Θ e) : 0 ≤ l.len ∧ 0 ≤ r.len ∧ 0 ≤ m ∧ S₁ + l.len + m + r.len ≤ 5199 / 10 ∧
    v * dm ≤ m + 311 / 10 ^ 7 ∧ m ≤ v * dm + 311 / 10 ^ 7 := by
  have h1 := h.left.len_nonneg
  have h2 := h.right.len_nonneg
  have h3 := h.cruise
  have h4 := (abs_le.1 h.sum).2
  have h5 := h.L_le
  have h6 := h.v_ge
  have h7 := abs_le.1 h.mid
  norm_num at h4 h7 ⊢
  refine ⟨h1, h2, ?_, ?_, ?_, ?_⟩ <;> linarith

/-- The distance in the three phases. -/
theorem phases (h : GoOn l r v L m dm S₁ T₁ Θ e) {u : ℝ} (h0 : T₁ ≤ u) (h1 : u ≤ over l r dm T₁) :
    (rnd (u - T₁) ≤ l.dur ∧ |goesOnS l r v m dm S₁ T₁ u - (S₁ + l.dist (rnd (u - T₁)))| ≤ 311 / 10 ^ 7) ∨
    (l.dur < rnd (u - T₁) ∧ rnd (rnd (u - T₁) - l.dur) ≤ dm ∧
      |goesOnS l r v m dm S₁ T₁ u - (rnd (S₁ + l.len) + v * rnd (rnd (u - T₁) - l.dur))| ≤ 622 / 10 ^ 7) ∨
    (l.dur < rnd (u - T₁) ∧ dm < rnd (rnd (u - T₁) - l.dur) ∧
      |goesOnS l r v m dm S₁ T₁ u - (rnd (S₁ + l.len) + m + r.dist (rnd (rnd (rnd (u - T₁) - l.dur) - dm)))| ≤ 622 / 10 ^ 7) := by
  obtain ⟨l0, r0, m0, hsum, m1, m2⟩ := h.lengths
  have hS := h.S_nonneg
  have hv := h.v_ge
  have hv52 := h.v_le
  have he := h.e_le
  obtain ⟨-, t1, t2⟩ := h.first_near h0 h1
  have hZ := abs_le.1 (rnd_mm (y := S₁ + l.len) (by linarith) (by linarith))
  norm_num at he m1 m2 hZ
  unfold goesOnS
  by_cases c0 : u ≤ T₁
  · have e0 : u - T₁ = 0 := by linarith
    left
    rw [if_pos c0, e0, rnd_zero, h.left.zero, add_zero, sub_self, abs_zero]
    exact ⟨by have := h.left.dur_ge; linarith, by norm_num⟩
  rw [if_neg c0]
  generalize rnd (u - T₁) = τ at *
  by_cases c1 : τ ≤ l.dur
  · left
    rw [if_pos c1]
    have a := (h.left.rises 0 τ le_rfl t1 (by linarith)).1
    have b := h.left.below τ t1 (by linarith)
    rw [max_eq_right (by linarith), mul_zero] at b
    rw [h.left.zero] at a
    norm_num at a b
    exact ⟨c1, rnd_mm (by linarith) (by linarith)⟩
  rw [if_neg c1]
  push Not at c1
  obtain ⟨-, x1, x2⟩ := h.second_near c1.le t2
  right
  generalize rnd (τ - l.dur) = y at *
  by_cases c2 : y ≤ dm
  · left
    refine ⟨c1, c2, ?_⟩
    rw [if_pos c2]
    have v0 : 0 ≤ v * y := mul_nonneg (by linarith) x1
    have v1 := mul_le_mul_of_nonneg_left c2 (show 0 ≤ v by linarith)
    have a := abs_le.1 (rnd_mm (y := v * y) (by linarith) (by linarith))
    norm_num at a
    have b := abs_le.1 (rnd_mm (y := rnd (S₁ + l.len) + rnd (v * y)) (by linarith) (by linarith))
    norm_num at b
    rw [abs_le]
    norm_num
    constructor <;> linarith
  · right
    push Not at c2
    refine ⟨c1, c2, ?_⟩
    rw [if_neg (not_le.2 c2)]
    obtain ⟨-, y1, y2⟩ := h.third_near c2.le x2
    generalize rnd (y - dm) = z at *
    have a := (h.right.rises 0 z le_rfl y1 y2).1
    have b := h.right.below z y1 y2
    rw [h.right.zero] at a
    have hm : v * max (z - r.dur) 0 ≤ 52 * (19 / 10 ^ 5) :=
      mul_le_mul hv52 (max_le (by linarith) (by norm_num)) (le_max_right _ _) (by norm_num)
    norm_num at a b hm
    have p := abs_le.1 (rnd_mm (y := rnd (S₁ + l.len) + m) (by linarith) (by linarith))
    norm_num at p
    have q := abs_le.1 (rnd_mm (y := rnd (rnd (S₁ + l.len) + m) + r.dist z) (by linarith) (by linarith))
    norm_num at q
    rw [abs_le]
    norm_num
    constructor <;> linarith

set_option maxHeartbeats 1000000 in
/-- The computed distance rises, at the speed `v` at most, but for errors. -/
theorem rises (h : GoOn l r v L m dm S₁ T₁ Θ e) {u u' : ℝ} (h0 : T₁ ≤ u) (huu : u ≤ u') (h1 : u' ≤ over l r dm T₁) :
    goesOnS l r v m dm S₁ T₁ u ≤ goesOnS l r v m dm S₁ T₁ u' + 287 / 10 ^ 6 ∧
    goesOnS l r v m dm S₁ T₁ u' ≤ goesOnS l r v m dm S₁ T₁ u + v * (u' - u) + 6 / 10 ^ 4 := by
  obtain ⟨l0, r0, m0, hsum, m1, m2⟩ := h.lengths
  have hS := h.S_nonneg
  have hv := h.v_ge
  have hv0 : 0 ≤ v := by linarith
  have hv52 := h.v_le
  have he := h.e_le
  have he0 := h.e_nonneg
  have hve := h.ve_le
  have hcr := h.cruise
  obtain ⟨n1, t1, t2⟩ := h.first_near h0 (huu.trans h1)
  obtain ⟨n1', t1', t2'⟩ := h.first_near (h0.trans huu) h1
  have hZ := abs_le.1 (rnd_mm (y := S₁ + l.len) (by linarith) (by linarith))
  have hτ := rnd_mono (show u - T₁ ≤ u' - T₁ by linarith)
  have P := h.phases h0 (huu.trans h1)
  have P' := h.phases (h0.trans huu) h1
  have vu : 0 ≤ v * (u' - u) := mul_nonneg hv0 (by linarith)
  have n1 := abs_le.1 n1
  have n1' := abs_le.1 n1'
  norm_num at he m1 m2 hZ hve
  generalize goesOnS l r v m dm S₁ T₁ u = R at *
  generalize goesOnS l r v m dm S₁ T₁ u' = R' at *
  generalize rnd (S₁ + l.len) = Z at *
  generalize rnd (u - T₁) = τ at *
  generalize rnd (u' - T₁) = τ' at *
  have hy : l.dur ≤ τ → rnd (τ - l.dur) ≤ rnd (τ' - l.dur) := fun _ => rnd_mono (by linarith)
  have X := fun c : l.dur ≤ τ => h.second_near c t2
  have X' := fun c : l.dur ≤ τ' => h.second_near c t2'
  generalize rnd (τ - l.dur) = y at *
  generalize rnd (τ' - l.dur) = y' at *
  have hz : rnd (y - dm) ≤ rnd (y' - dm) ∨ ¬ l.dur ≤ τ := by
    by_cases c : l.dur ≤ τ
    · exact .inl (rnd_mono (by linarith [hy c]))
    · exact .inr c
  have Y := fun (c : l.dur ≤ τ) (c' : dm ≤ y) => h.third_near c' (X c).2.2
  have Y' := fun (c : l.dur ≤ τ') (c' : dm ≤ y') => h.third_near c' (X' c).2.2
  generalize rnd (y - dm) = z at *
  generalize rnd (y' - dm) = z' at *
  have scale : ∀ {a k : ℝ}, a ≤ (u' - u) + k * e → 0 ≤ k → v * a ≤ v * (u' - u) + k * (42 / 10 ^ 6) := by
    intro a k ha hk
    have h1 := mul_le_mul_of_nonneg_left ha hv0
    have h2 := mul_le_mul_of_nonneg_left hve hk
    norm_num at h2 ⊢
    linarith
  rcases P with ⟨c, p⟩ | ⟨c, c2, p⟩ | ⟨c, c2, p⟩ <;> rcases P' with ⟨c', p'⟩ | ⟨c', c2', p'⟩ | ⟨c', c2', p'⟩ <;>
    replace p := abs_le.1 p <;> replace p' := abs_le.1 p' <;> norm_num at p p' ⊢
  · obtain ⟨a, b⟩ := h.left.rises τ τ' t1 hτ (by linarith)
    have s := scale (a := τ' - τ) (k := 2) (by linarith) (by norm_num)
    norm_num at a b s
    constructor <;> linarith
  · obtain ⟨q1, q2, q3⟩ := X' c'.le
    have q1 := abs_le.1 q1
    have a := h.left.below τ t1 (by linarith)
    rw [max_eq_right (by linarith), mul_zero] at a
    have b := (abs_le.1 (h.left.ends τ t1 (by linarith))).1
    rw [abs_of_nonneg (by linarith)] at b
    have w := mul_nonneg hv0 q2
    have s := scale (a := l.dur - τ + y') (k := 3) (by linarith) (by norm_num)
    norm_num at a b s
    constructor <;> linarith
  · obtain ⟨q1, q2, q3⟩ := X' c'.le
    obtain ⟨o1, o2, o3⟩ := Y' c'.le c2'.le
    have q1 := abs_le.1 q1
    have o1 := abs_le.1 o1
    have a := h.left.below τ t1 (by linarith)
    rw [max_eq_right (by linarith), mul_zero] at a
    have b := (abs_le.1 (h.left.ends τ t1 (by linarith))).1
    rw [abs_of_nonneg (by linarith)] at b
    obtain ⟨f, g⟩ := h.right.rises 0 z' le_rfl o2 o3
    rw [h.right.zero] at f g
    have s := scale (a := l.dur - τ + dm + z') (k := 4) (by linarith) (by norm_num)
    norm_num at a b s f g
    constructor <;> linarith
  · exact absurd (c.trans_le hτ) (not_lt.2 c')
  · have w := hy c.le
    obtain ⟨q1, q2, q3⟩ := X c.le
    obtain ⟨q1', q2', q3'⟩ := X' c'.le
    have q1 := abs_le.1 q1
    have q1' := abs_le.1 q1'
    have w' := mul_le_mul_of_nonneg_left w hv0
    have s := scale (a := y' - y) (k := 4) (by linarith) (by norm_num)
    norm_num at s
    constructor <;> linarith
  · obtain ⟨q1, q2, q3⟩ := X c.le
    obtain ⟨q1', q2', q3'⟩ := X' c'.le
    obtain ⟨o1, o2, o3⟩ := Y' c'.le c2'.le
    have q1 := abs_le.1 q1
    have q1' := abs_le.1 q1'
    have o1 := abs_le.1 o1
    obtain ⟨f, g⟩ := h.right.rises 0 z' le_rfl o2 o3
    rw [h.right.zero] at f g
    have w' := mul_le_mul_of_nonneg_left c2 hv0
    have s := scale (a := z' + dm - y) (k := 5) (by linarith) (by norm_num)
    norm_num at s f g
    constructor <;> linarith
  · exact absurd (c.trans_le hτ) (not_lt.2 c')
  · exact absurd (c2.trans_le (hy c.le)) (not_lt.2 c2')
  · obtain ⟨q1, q2, q3⟩ := X c.le
    obtain ⟨q1', q2', q3'⟩ := X' c'.le
    obtain ⟨o1, o2, o3⟩ := Y c.le c2.le
    obtain ⟨o1', o2', o3'⟩ := Y' c'.le c2'.le
    have q1 := abs_le.1 q1
    have q1' := abs_le.1 q1'
    have o1 := abs_le.1 o1
    have o1' := abs_le.1 o1'
    have hzz : z ≤ z' := hz.resolve_right (not_not.2 c.le)
    obtain ⟨f, g⟩ := h.right.rises z z' o2 hzz o3'
    have s := scale (a := z' - z) (k := 6) (by linarith) (by norm_num)
    norm_num at s f g
    constructor <;> linarith

/-- The end of the motion. -/
theorem ends (h : GoOn l r v L m dm S₁ T₁ Θ e) : |goesOnS l r v m dm S₁ T₁ (over l r dm T₁) - L| ≤ 6 / 10 ^ 4 := by
  obtain ⟨l0, r0, m0, hsum, m1, m2⟩ := h.lengths
  have hS := h.S_nonneg
  have hv := h.v_ge
  have hv0 : 0 ≤ v := by linarith
  have he := h.e_le
  have he0 := h.e_nonneg
  have hve := h.ve_le
  have ho := abs_le.1 h.over_near
  have hl := h.left.dur_ge
  have hr := h.right.dur_ge
  have hdm := h.dm_ge
  have hs := abs_le.1 h.sum
  norm_num at he hve hs
  have hT : T₁ ≤ over l r dm T₁ := by linarith
  obtain ⟨n1, t1, t2⟩ := h.first_near hT le_rfl
  have n1 := abs_le.1 n1
  have hZ := abs_le.1 (rnd_mm (y := S₁ + l.len) (by linarith) (by linarith))
  have P := h.phases hT le_rfl
  norm_num at hZ
  generalize goesOnS l r v m dm S₁ T₁ (over l r dm T₁) = R at *
  generalize rnd (S₁ + l.len) = Z at *
  generalize rnd (over l r dm T₁ - T₁) = τ at *
  obtain ⟨q1, q2, q3⟩ := h.second_near (show l.dur ≤ τ by linarith) t2
  have q1 := abs_le.1 q1
  generalize rnd (τ - l.dur) = y at *
  obtain ⟨o1, o2, o3⟩ := h.third_near (show dm ≤ y by linarith) q3
  have o1 := abs_le.1 o1
  generalize rnd (y - dm) = z at *
  rcases P with ⟨c, -⟩ | ⟨-, c, -⟩ | ⟨-, -, p⟩
  · exact absurd c (by push Not; linarith)
  · exact absurd c (by push Not; linarith)
  · have p := abs_le.1 p
    have a := h.right.ends z o2 o3
    have b : v * |r.dur - z| ≤ 6 * (42 / 10 ^ 6) := by
      have h1 : |r.dur - z| ≤ 6 * e := by rw [abs_le]; constructor <;> linarith
      have h2 := mul_le_mul_of_nonneg_left h1 hv0
      norm_num
      linarith
    have a := abs_le.1 a
    norm_num at a b p
    rw [abs_le]
    norm_num
    constructor <;> linarith

end GoOn
end Moovr
