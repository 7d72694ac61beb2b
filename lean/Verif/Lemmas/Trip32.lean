import Verif.Lemmas.Ramp32
/-!
# A whole motion in single precision: two ramps with a cruise in between
-/
namespace Moovr
open Num Float32 Single Ramp

/-- The computed distance along the path after time `t`: first the ramp `l`, then a cruise of length `m` and duration `dm` at speed
`V`, then the ramp `r`. -/
noncomputable def tripS (l r : Ramp) (V m dm t : ℝ) : ℝ :=
  open Classical in
  if t ≤ 0 then 0
  else if t ≤ l.dur then l.dist t
  else if rnd (t - l.dur) ≤ dm then rnd (l.len + rnd (V * rnd (t - l.dur)))
  else rnd (rnd (l.len + m) + r.dist (rnd (rnd (t - l.dur) - dm)))

/-- The computed duration. -/
noncomputable def tripDur (l r : Ramp) (dm : ℝ) : ℝ := rnd (rnd (l.dur + dm) + r.dur)

theorem Ramp.Ok.dur_nonneg {r : Ramp} {V T : ℝ} (h : r.Ok V T) : 0 ≤ r.dur := by
  refine rnd_nonneg (add_nonneg ?_ h.D_nonneg)
  exact rnd_nonneg (add_nonneg h.D_nonneg h.d2_nonneg)

theorem Ramp.Ok.len_le {r : Ramp} {V T : ℝ} (h : r.Ok V T) : |r.len| ≤ 101 / 100 * (V * T) := by
  have h1 := abs_le.1 h.len_err
  have hV := h.V_pos; have hT := h.T_pos
  have hW : 0 ≤ V * T := by positivity
  have h2 : (r.v0 + r.v1) * (2 * r.D + r.d2) ≤ 2 * V * T := mul_le_mul (by linarith [h.v0_le, h.v1_le]) h.total
    (by linarith [h.D_nonneg, h.d2_nonneg]) (by linarith)
  have h3 : 0 ≤ (r.v0 + r.v1) * (2 * r.D + r.d2) := mul_nonneg (by linarith [h.v0_nonneg, h.v1_nonneg])
    (by linarith [h.D_nonneg, h.d2_nonneg])
  rw [abs_le]
  unfold eps at *
  constructor <;> linarith

/-- What is used of a ramp: times up to `δ` beyond its end, `T` a bound on its duration. -/
structure Ramp.Fine (r : Ramp) (V T δ η : ℝ) : Prop where
  V_pos : 0 < V
  T_pos : 0 < T
  δ_nonneg : 0 ≤ δ
  η_nonneg : 0 ≤ η
  tinyT : tiny ≤ eps * eps * T
  tinyW : tiny ≤ eps * eps * (V * T)
  dur_nonneg : 0 ≤ r.dur
  dur_err : |r.dur - (2 * r.D + r.d2)| ≤ 203 / 100 * eps * T
  len_le : |r.len| ≤ 101 / 100 * (V * T)
  dist_zero : r.dist 0 = 0
  rises : ∀ {t t' : ℝ}, 0 ≤ t → t ≤ t' → t' ≤ 2 * r.D + r.d2 + δ →
    r.dist t ≤ r.dist t' + dip V T η ∧ r.dist t' ≤ r.dist t + V * (t' - t) + dip V T η
  ends : ∀ {t : ℝ}, 0 ≤ t → t ≤ 2 * r.D + r.d2 + δ →
    |r.dist t - r.len| ≤ V * |2 * r.D + r.d2 - t| + dip V T η
  below : ∀ {t : ℝ}, 0 ≤ t → t ≤ 2 * r.D + r.d2 + δ → r.dist t ≤ r.len + V * max (t - (2 * r.D + r.d2)) 0 + dip V T η

theorem Ramp.Ok.fine {r : Ramp} {V T' T δ η : ℝ} (h : r.Ok V T') (ho : r.Over V T' δ) (hη : |r.J| * δ ^ 2 ≤ 2 * η) (hT : T' ≤ T) :
    r.Fine V T δ η := by
  have hV := h.V_pos
  have hT' := h.T_pos
  have hη0 : 0 ≤ η := by have : 0 ≤ |r.J| * δ ^ 2 := by positivity
                         linarith
  have hep := eps_pos
  have hVT : V * T' ≤ V * T := mul_le_mul_of_nonneg_left hT hV.le
  have hηT : η * T' ≤ η * T := mul_le_mul_of_nonneg_left hT hη0
  have hd : dip V T' η ≤ dip V T η := by
    unfold dip
    have := mul_le_mul_of_nonneg_left hVT hep.le
    linarith
  have he : 0 < eps * eps := mul_pos hep hep
  refine ⟨hV, hT'.trans_le hT, ho.nonneg, hη0, ?_, ?_, h.dur_nonneg, ?_, ?_, h.dist_zero, ?_, ?_, ?_⟩
  · exact h.tinyT.trans (mul_le_mul_of_nonneg_left hT he.le)
  · have := h.tinies.1
    have h2 := mul_le_mul_of_nonneg_left hVT he.le
    have : 0 ≤ eps * eps * (V * T') := by positivity
    linarith
  · refine h.dur_err.trans ?_
    have := mul_le_mul_of_nonneg_left hT hep.le
    linarith
  · exact h.len_le.trans (by linarith)
  · intro t t' h0 h1 h2
    have := h.rises ho hη h0 h1 h2
    constructor <;> linarith
  · intro t h0 h1
    have := h.ends ho hη h0 h1
    linarith
  · intro t h0 h1
    have := h.below ho hη h0 h1
    linarith

/-- The parts fit together, up to rounding. `Θ` bounds the duration, `Λ` the length. -/
structure Trip (l r : Ramp) (V T Θ Λ η m dm : ℝ) : Prop where
  hl : l.Fine V T (8 * eps * Θ) η
  hr : r.Fine V T (8 * eps * Θ) η
  le : T ≤ Θ
  time : l.dur + |dm| + r.dur ≤ Θ
  len_nonneg : 0 ≤ l.len ∧ 0 ≤ r.len
  length : l.len + |m| + r.len + dip V T η + 9 * eps * (V * Θ) ≤ Λ
  mid : |m - V * dm| ≤ 2 * eps * Λ
  late : 8 * eps * Θ < r.dur
  late' : 8 * eps * Θ < dm + r.dur

namespace Trip
variable {l r : Ramp} {V T Θ Λ η m dm : ℝ}

theorem V_pos (h : Trip l r V T Θ Λ η m dm) : 0 < V := h.hl.V_pos
theorem T_pos (h : Trip l r V T Θ Λ η m dm) : 0 < T := h.hl.T_pos
theorem Θ_pos (h : Trip l r V T Θ Λ η m dm) : 0 < Θ := h.T_pos.trans_le h.le
theorem eta_nonneg (h : Trip l r V T Θ Λ η m dm) : 0 ≤ η := h.hl.η_nonneg

theorem tinies (h : Trip l r V T Θ Λ η m dm) : tiny ≤ eps * eps * Θ ∧ tiny ≤ eps * eps * (V * Θ) := by
  have he : 0 < eps * eps := mul_pos eps_pos eps_pos
  have h4 : V * T ≤ V * Θ := mul_le_mul_of_nonneg_left h.le h.V_pos.le
  exact ⟨h.hl.tinyT.trans (mul_le_mul_of_nonneg_left h.le he.le), h.hl.tinyW.trans (mul_le_mul_of_nonneg_left h4 he.le)⟩

/-- The computed duration is near the sum of the durations. -/
theorem dur_near (h : Trip l r V T Θ Λ η m dm) : |tripDur l r dm - (l.dur + dm + r.dur)| ≤ 21 / 10 * eps * Θ := by
  have hΘ := h.Θ_pos
  have hl := h.hl.dur_nonneg
  have hr := h.hr.dur_nonneg
  have ht := h.time
  have hd := abs_nonneg dm
  have hd1 := le_abs_self dm
  have hd2 := neg_abs_le dm
  have n1 := h.tinies.1
  have a1 := rnd_err_of (x := l.dur + dm) (y := l.dur + dm) (e := 0) (by simp) (B := Θ) (by rw [abs_le]; constructor <;> linarith)
  have a2 := rnd_add_err' a1 (y := r.dur) (y' := r.dur) (f := 0) (by simp) (C := Θ) (by rw [abs_le]; constructor <;> linarith)
  refine a2.trans ?_
  unfold eps at *
  linarith

/-- The time since the end of the first ramp. -/
theorem x_near (h : Trip l r V T Θ Λ η m dm) {t : ℝ} (h0 : l.dur ≤ t) (h1 : t ≤ tripDur l r dm) :
    |rnd (t - l.dur) - (t - l.dur)| ≤ 11 / 10 * eps * Θ ∧ 0 ≤ rnd (t - l.dur) ∧ t - l.dur ≤ 101 / 100 * Θ := by
  have hd := (abs_le.1 h.dur_near).2
  have hΘ := h.Θ_pos
  have hl := h.hl.dur_nonneg
  have n1 := h.tinies.1
  have ht := h.time
  have hd1 := le_abs_self dm
  have b : t - l.dur ≤ 101 / 100 * Θ := by unfold eps at *; linarith
  refine ⟨?_, rnd_nonneg (by linarith), b⟩
  have := rnd_err (t - l.dur)
  rw [abs_of_nonneg (show 0 ≤ t - l.dur by linarith)] at this
  refine this.trans ?_
  unfold eps at *
  linarith

/-- The time since the end of the cruise. -/
theorem y_near (h : Trip l r V T Θ Λ η m dm) {t : ℝ} (h0 : l.dur ≤ t) (h1 : t ≤ tripDur l r dm) (h2 : dm ≤ rnd (t - l.dur)) :
    |rnd (rnd (t - l.dur) - dm) - (t - l.dur - dm)| ≤ 24 / 10 * eps * Θ ∧ 0 ≤ rnd (rnd (t - l.dur) - dm) ∧
    rnd (rnd (t - l.dur) - dm) ≤ 2 * r.D + r.d2 + 8 * eps * Θ ∧ rnd (rnd (t - l.dur) - dm) ≤ 11 / 10 * Θ := by
  obtain ⟨x1, x2, x3⟩ := h.x_near h0 h1
  have hd := (abs_le.1 h.dur_near).2
  have hΘ := h.Θ_pos
  have n1 := h.tinies.1
  have ht := h.time
  have hd1 := le_abs_self dm
  have hd2 := abs_nonneg dm
  have hl := h.hl.dur_nonneg
  have hr := h.hr.dur_nonneg
  have hrd := (abs_le.1 h.hr.dur_err).2
  have hTΘ := h.le
  have x1' := abs_le.1 x1
  have b : |t - l.dur - dm| ≤ 101 / 100 * Θ := by
    rw [abs_le]; unfold eps at *; constructor <;> linarith
  have e : |rnd (t - l.dur) - dm - (t - l.dur - dm)| ≤ 11 / 10 * eps * Θ := by
    rwa [show rnd (t - l.dur) - dm - (t - l.dur - dm) = rnd (t - l.dur) - (t - l.dur) by ring]
  have f : |rnd (rnd (t - l.dur) - dm) - (t - l.dur - dm)| ≤ 24 / 10 * eps * Θ := by
    refine (rnd_err_of e b).trans ?_
    unfold eps at *
    linarith
  have f' := abs_le.1 f
  refine ⟨f, rnd_nonneg (by linarith), ?_, ?_⟩ <;> unfold eps at * <;> linarith

/-- The end of the first ramp. -/
theorem first_end (h : Trip l r V T Θ Λ η m dm) {t : ℝ} (h0 : 0 ≤ t) (h1 : t ≤ l.dur) :
    l.dist t ≤ l.len + dip V T η + 3 * eps * (V * T) ∧
    l.len ≤ l.dist t + V * (l.dur - t) + 2 * dip V T η + 3 * eps * (V * T) := by
  have hd := h.hl.dur_err
  have hd' := abs_le.1 hd
  have hΘ := h.Θ_pos
  have hV := h.V_pos
  have hT := h.T_pos
  have hTΘ := h.le
  have hep := eps_pos
  have b : l.dur ≤ 2 * l.D + l.d2 + 8 * eps * Θ := by
    have := mul_le_mul_of_nonneg_left hTΘ eps_pos.le
    have : 0 ≤ eps * Θ := by have := eps_pos; positivity
    linarith
  obtain ⟨r1, r2⟩ := h.hl.rises h0 h1 b
  have r3 := h.hl.below h0 (h1.trans b)
  have e := abs_le.1 (h.hl.ends h.hl.dur_nonneg b)
  have hW : 0 ≤ eps * (V * T) := by positivity
  have hv : V * |2 * l.D + l.d2 - l.dur| ≤ 3 * eps * (V * T) := by
    rw [abs_sub_comm]
    have h1 := mul_le_mul_of_nonneg_left hd hV.le
    linarith
  have hm : V * max (t - (2 * l.D + l.d2)) 0 ≤ 3 * eps * (V * T) := by
    have : max (t - (2 * l.D + l.d2)) 0 ≤ 203 / 100 * eps * T := max_le (by linarith) (by positivity)
    have h1 := mul_le_mul_of_nonneg_left this hV.le
    linarith
  constructor <;> linarith

theorem dip_nonneg (h : Trip l r V T Θ Λ η m dm) : 0 ≤ dip V T η := by
  have hV := h.V_pos
  have hT := h.T_pos
  have h4 := h.eta_nonneg
  have := eps_pos
  unfold dip
  positivity

theorem Λ_pos (h : Trip l r V T Θ Λ η m dm) : 0 < Λ := by
  have h1 := h.length
  have h2 := h.len_nonneg
  have h3 := h.dip_nonneg
  have h4 := abs_nonneg m
  have : 0 < eps * (V * Θ) := by have := h.V_pos; have := h.Θ_pos; have := eps_pos; positivity
  linarith [h2.1, h2.2]

theorem tinyΛ (h : Trip l r V T Θ Λ η m dm) : tiny ≤ eps * Λ / 9 := by
  have h1 := h.length
  have h2 := h.len_nonneg
  have h3 := h.dip_nonneg
  have h4 := abs_nonneg m
  have h5 := h.tinies.2
  have hW : 0 < V * Θ := by have := h.V_pos; have := h.Θ_pos; positivity
  have h6 : 9 * eps * (V * Θ) ≤ Λ := by linarith [h2.1, h2.2]
  unfold eps at *
  linarith

/-- The second ramp starts at zero. -/
theorem second (h : Trip l r V T Θ Λ η m dm) {y : ℝ} (h0 : 0 ≤ y) (h1 : y ≤ 2 * r.D + r.d2 + 8 * eps * Θ) :
    -dip V T η ≤ r.dist y ∧ r.dist y ≤ V * y + dip V T η ∧ l.len + |m| + |r.dist y| ≤ Λ := by
  have h2 := h.hr.rises le_rfl h0 h1
  rw [h.hr.dist_zero] at h2
  have h3 := h.hr.below h0 h1
  have hV := h.V_pos
  have hep := eps_pos
  have hΘ := h.Θ_pos
  have hm : V * max (y - (2 * r.D + r.d2)) 0 ≤ 8 * eps * (V * Θ) := by
    have : max (y - (2 * r.D + r.d2)) 0 ≤ 8 * eps * Θ := max_le (by linarith) (by positivity)
    have h1 := mul_le_mul_of_nonneg_left this hV.le
    linarith
  refine ⟨by linarith, by linarith, ?_⟩
  have h4 := h.length
  have h5 := h.len_nonneg
  have h6 := h.dip_nonneg
  have : 0 ≤ eps * (V * Θ) := by positivity
  have : |r.dist y| ≤ r.len + dip V T η + 8 * eps * (V * Θ) := by rw [abs_le]; constructor <;> linarith [h5.2]
  linarith

/-- The distance in the three phases. -/
theorem phases (h : Trip l r V T Θ Λ η m dm) {t : ℝ} (h0 : 0 ≤ t) (h1 : t ≤ tripDur l r dm) :
    (t ≤ l.dur ∧ tripS l r V m dm t = l.dist t) ∨
    (l.dur < t ∧ rnd (t - l.dur) ≤ dm ∧ |tripS l r V m dm t - (l.len + V * rnd (t - l.dur))| ≤ 23 / 10 * eps * Λ) ∨
    (l.dur < t ∧ dm < rnd (t - l.dur) ∧
      |tripS l r V m dm t - (l.len + m + r.dist (rnd (rnd (t - l.dur) - dm)))| ≤ 23 / 10 * eps * Λ) := by
  have hV := h.V_pos
  have hΘ := h.Θ_pos
  have hΛ := h.Λ_pos
  have hl := h.hl.dur_nonneg
  obtain ⟨l0, r0⟩ := h.len_nonneg
  have hlen := h.length
  have d0 := h.dip_nonneg
  have n2 := h.tinyΛ
  have hn := tiny_pos
  have hW : 0 ≤ eps * (V * Θ) := by have := eps_pos; positivity
  have hm := abs_le.1 h.mid
  have m0 := abs_nonneg m
  have m1 := le_abs_self m
  unfold tripS
  by_cases c0 : t ≤ 0
  · have e : t = 0 := le_antisymm c0 h0
    left
    rw [if_pos c0, e, h.hl.dist_zero]
    exact ⟨hl, rfl⟩
  rw [if_neg c0]
  by_cases c1 : t ≤ l.dur
  · exact .inl ⟨c1, if_pos c1⟩
  rw [if_neg c1]
  push Not at c1
  obtain ⟨x1, x2, x3⟩ := h.x_near c1.le h1
  right
  by_cases c2 : rnd (t - l.dur) ≤ dm
  · left
    refine ⟨c1, c2, ?_⟩
    rw [if_pos c2]
    generalize rnd (t - l.dur) = x at *
    have v0 : 0 ≤ V * x := by positivity
    have v1 := mul_le_mul_of_nonneg_left c2 hV.le
    have vx : |V * x| ≤ 1001 / 1000 * Λ := by rw [abs_of_nonneg v0]; unfold eps at *; linarith
    have a1 := rnd_err_of (x := V * x) (y := V * x) (e := 0) (by simp) vx
    have a2 := rnd_add_err' (x := l.len) (x' := l.len) (e := 0) (by simp) a1 (C := 1001 / 1000 * Λ)
      (by rw [abs_of_nonneg (by linarith)]; unfold eps at *; linarith)
    refine a2.trans ?_
    unfold eps at *
    linarith
  · right
    push Not at c2
    refine ⟨c1, c2, ?_⟩
    rw [if_neg (not_le.2 c2)]
    obtain ⟨-, y1, y2, y3⟩ := h.y_near c1.le h1 c2.le
    obtain ⟨s1, s2, s3⟩ := h.second y1 y2
    generalize rnd (rnd (t - l.dur) - dm) = y at *
    have y0 := abs_nonneg (r.dist y)
    have b1 : |l.len + m| ≤ Λ := (abs_add_le _ _).trans (by rw [abs_of_nonneg l0]; linarith)
    have b2 : |l.len + m + r.dist y| ≤ Λ := by
      refine (abs_add_le _ _).trans (le_trans (add_le_add (abs_add_le _ _) le_rfl) ?_)
      rw [abs_of_nonneg l0]; linarith
    have a1 := rnd_err_of (x := l.len + m) (y := l.len + m) (e := 0) (by simp) b1
    have a2 := rnd_add_err' a1 (y := r.dist y) (y' := r.dist y) (f := 0) (by simp) b2
    refine a2.trans ?_
    unfold eps at *
    linarith

/-- Bound on the dips of the whole motion. -/
noncomputable def dips (V T Λ η μ : ℝ) : ℝ := 2 * dip V T η + 3 * eps * (V * T) + 7 * eps * Λ + μ

/-- The computed distance rises, at the speed `V` at most, but for errors. -/
theorem rises (h : Trip l r V T Θ Λ η m dm) {μ t t' : ℝ} (hμ0 : 0 ≤ μ) (hμ : -μ ≤ m) (h0 : 0 ≤ t) (h1 : t ≤ t')
    (h2 : t' ≤ tripDur l r dm) :
    tripS l r V m dm t ≤ tripS l r V m dm t' + dips V T Λ η μ ∧
    tripS l r V m dm t' ≤ tripS l r V m dm t + V * (t' - t) + (dips V T Λ η μ + dip V T η + 6 * eps * (V * Θ)) := by
  have hV := h.V_pos
  have hΘ := h.Θ_pos
  have hT := h.T_pos
  have hep := eps_pos
  have hΛ := h.Λ_pos
  have hW : 0 ≤ eps * (V * Θ) := by positivity
  have hW' : 0 ≤ eps * (V * T) := by positivity
  have heΛ : 0 ≤ eps * Λ := by positivity
  have hm := abs_le.1 h.mid
  have d1 := h.dip_nonneg
  unfold dips
  rcases h.phases h0 (h1.trans h2) with ⟨a, p⟩ | ⟨a, b, p⟩ | ⟨a, b, p⟩ <;>
  rcases h.phases (h0.trans h1) h2 with ⟨a', p'⟩ | ⟨a', b', p'⟩ | ⟨a', b', p'⟩
  · -- both in the first ramp
    have bd : t' ≤ 2 * l.D + l.d2 + 8 * eps * Θ := by
      have := (abs_le.1 h.hl.dur_err).2
      have := mul_le_mul_of_nonneg_left h.le hep.le
      have : 0 ≤ eps * Θ := by positivity
      linarith
    have := h.hl.rises h0 h1 bd
    rw [p, p']
    constructor <;> linarith
  · obtain ⟨e1, e2⟩ := h.first_end h0 a
    obtain ⟨x1, x2, x3⟩ := h.x_near a'.le h2
    replace p' := abs_le.1 p'
    have v0 : 0 ≤ V * rnd (t' - l.dur) := by positivity
    have v1 := mul_le_mul_of_nonneg_left (abs_le.1 x1).2 hV.le
    rw [p]
    constructor <;> linarith
  · obtain ⟨e1, e2⟩ := h.first_end h0 a
    obtain ⟨y0, y1, y2, y3⟩ := h.y_near a'.le h2 b'.le
    obtain ⟨s1, s2, -⟩ := h.second y1 y2
    replace p' := abs_le.1 p'
    have v1 := mul_le_mul_of_nonneg_left (abs_le.1 y0).2 hV.le
    rw [p]
    constructor <;> linarith
  · exact absurd a' (not_le.2 (a.trans_le h1))
  · obtain ⟨x1, x2, x3⟩ := h.x_near a.le (h1.trans h2)
    obtain ⟨x1', x2', x3'⟩ := h.x_near a'.le h2
    have mo : rnd (t - l.dur) ≤ rnd (t' - l.dur) := rnd_mono (by linarith)
    have v0 := mul_le_mul_of_nonneg_left mo hV.le
    have v1 := mul_le_mul_of_nonneg_left (abs_le.1 x1).1 hV.le
    have v2 := mul_le_mul_of_nonneg_left (abs_le.1 x1').2 hV.le
    replace p := abs_le.1 p
    replace p' := abs_le.1 p'
    constructor <;> linarith
  · obtain ⟨x1, x2, x3⟩ := h.x_near a.le (h1.trans h2)
    obtain ⟨y0, y1, y2, y3⟩ := h.y_near a'.le h2 b'.le
    obtain ⟨s1, s2, -⟩ := h.second y1 y2
    replace p := abs_le.1 p
    replace p' := abs_le.1 p'
    have v0 := mul_le_mul_of_nonneg_left b hV.le
    have v1 := mul_le_mul_of_nonneg_left (abs_le.1 x1).1 hV.le
    have v2 := mul_le_mul_of_nonneg_left (abs_le.1 y0).2 hV.le
    constructor <;> linarith
  · exact absurd a' (not_le.2 (a.trans_le h1))
  · have mo : rnd (t - l.dur) ≤ rnd (t' - l.dur) := rnd_mono (by linarith)
    exact absurd (mo.trans b') (not_le.2 b)
  · obtain ⟨y0, y1, y2, y3⟩ := h.y_near a.le (h1.trans h2) b.le
    obtain ⟨y0', y1', y2', y3'⟩ := h.y_near a'.le h2 b'.le
    have mo : rnd (rnd (t - l.dur) - dm) ≤ rnd (rnd (t' - l.dur) - dm) :=
      rnd_mono (sub_le_sub_right (rnd_mono (by linarith)) _)
    obtain ⟨q1, q2⟩ := h.hr.rises y1 mo y2'
    have v1 := mul_le_mul_of_nonneg_left (abs_le.1 y0).1 hV.le
    have v2 := mul_le_mul_of_nonneg_left (abs_le.1 y0').2 hV.le
    replace p := abs_le.1 p
    replace p' := abs_le.1 p'
    constructor <;> linarith

/-- At its end the computed distance is near the sum of the lengths. -/
theorem ends (h : Trip l r V T Θ Λ η m dm) :
    |tripS l r V m dm (tripDur l r dm) - (l.len + m + r.len)| ≤ dip V T η + 7 * eps * (V * Θ) + 3 * eps * Λ := by
  have hV := h.V_pos
  have hΘ := h.Θ_pos
  have hep := eps_pos
  have heΘ : 0 ≤ eps * Θ := by positivity
  have heΛ : 0 ≤ eps * Λ := by have := h.Λ_pos; positivity
  have hd := abs_le.1 h.dur_near
  have hlate := h.late
  have hTΘ := mul_le_mul_of_nonneg_left h.le hep.le
  have hdr := abs_le.1 h.hr.dur_err
  have hlate' := h.late'
  have hl := h.hl.dur_nonneg
  rcases h.phases (t := tripDur l r dm) (by linarith) le_rfl with ⟨a, p⟩ | ⟨a, b, p⟩ | ⟨a, b, p⟩
  · exfalso; linarith
  · have := abs_le.1 (h.x_near a.le le_rfl).1
    exfalso; linarith
  · obtain ⟨y0, y1, y2, y3⟩ := h.y_near a.le le_rfl b.le
    have e := abs_le.1 (h.hr.ends y1 y2)
    have y0 := abs_le.1 y0
    have hb : |2 * r.D + r.d2 - rnd (rnd (tripDur l r dm - l.dur) - dm)| ≤ 7 * eps * Θ := by
      rw [abs_le]; constructor <;> linarith
    have hv := mul_le_mul_of_nonneg_left hb hV.le
    replace p := abs_le.1 p
    rw [abs_le]
    constructor <;> linarith

end Trip
end Moovr
