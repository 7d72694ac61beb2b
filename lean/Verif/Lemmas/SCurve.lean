import Mathlib.Analysis.Calculus.Deriv.Pow
import Mathlib.Analysis.Calculus.Deriv.MeanValue
import Mathlib.Tactic.Linarith
import Mathlib.Tactic.LinearCombination
import Mathlib.Tactic.FieldSimp
import Mathlib.Tactic.Ring
import Mathlib.Tactic.Positivity
/-!
# S-curves

Speed changes with a symmetric trapezoidal (or rectangular) acceleration, with signed jerk and acceleration. Helper for
the theorems about `speedProfileAccDec`.
-/
namespace Moovr
open Filter Topology Set

/-- Gluing differentiable functions. -/
theorem hasDerivAt_glue {f g₁ g₂ : ℝ → ℝ} {c L : ℝ} (h1 : ∀ᶠ t in 𝓝[≤] c, f t = g₁ t) (h2 : ∀ᶠ t in 𝓝[≥] c, f t = g₂ t)
    (d1 : HasDerivAt g₁ L c) (d2 : HasDerivAt g₂ L c) : HasDerivAt f L c := by
  have e1 : HasDerivWithinAt f L (Iic c) c :=
    d1.hasDerivWithinAt.congr_of_eventuallyEq h1 (h1.self_of_nhdsWithin self_mem_Iic)
  have e2 : HasDerivWithinAt f L (Ici c) c :=
    d2.hasDerivWithinAt.congr_of_eventuallyEq h2 (h2.self_of_nhdsWithin self_mem_Ici)
  have := e1.union e2
  rw [Iic_union_Ici] at this
  exact hasDerivWithinAt_univ.1 this

/-- A function made of three pieces. -/
theorem hasDerivAt_three {f g₁ g₂ g₃ g₁' g₂' g₃' : ℝ → ℝ} {a b : ℝ} (hab : a ≤ b)
    (hf : ∀ t, f t = if t < a then g₁ t else if b < t then g₃ t else g₂ t)
    (h1 : ∀ t, HasDerivAt g₁ (g₁' t) t) (h2 : ∀ t, HasDerivAt g₂ (g₂' t) t) (h3 : ∀ t, HasDerivAt g₃ (g₃' t) t)
    (t : ℝ) (ha : t = a → g₁ a = g₂ a ∧ g₁' a = g₂' a) (hb : t = b → g₂ b = g₃ b ∧ g₂' b = g₃' b) :
    HasDerivAt f (if t < a then g₁' t else if b < t then g₃' t else g₂' t) t := by
  rcases lt_trichotomy t a with hta | hta | hta
  · rw [if_pos hta]
    refine (h1 t).congr_of_eventuallyEq ?_
    filter_upwards [Iio_mem_nhds hta] with x hx
    rw [hf, if_pos (show x < a from hx)]
  · subst hta
    obtain ⟨m1, m2⟩ := ha rfl
    rw [if_neg (lt_irrefl _), if_neg (not_lt.2 hab)]
    have hleft : ∀ᶠ x in 𝓝[≤] t, f x = g₁ x := by
      filter_upwards [self_mem_nhdsWithin] with x hx
      rcases lt_or_eq_of_le (show x ≤ t from hx) with h | h
      · rw [hf, if_pos h]
      · subst h; rw [hf, if_neg (lt_irrefl _), if_neg (not_lt.2 hab), m1]
    rcases lt_or_eq_of_le hab with hlt | heq
    · refine hasDerivAt_glue (g₁ := g₁) (g₂ := g₂) hleft ?_ (m2 ▸ h1 t) (h2 t)
      filter_upwards [self_mem_nhdsWithin, mem_nhdsWithin_of_mem_nhds (Iio_mem_nhds hlt)] with x hx hx'
      rw [hf, if_neg (not_lt.2 hx), if_neg (not_lt.2 (le_of_lt hx'))]
    · subst heq
      obtain ⟨n1, n2⟩ := hb rfl
      refine hasDerivAt_glue (g₁ := g₁) (g₂ := g₃) hleft ?_ (m2 ▸ h1 t) (n2 ▸ h3 t)
      filter_upwards [self_mem_nhdsWithin] with x hx
      rcases lt_or_eq_of_le (show t ≤ x from hx) with h | h
      · rw [hf, if_neg (not_lt.2 hx), if_pos h]
      · subst h; rw [hf, if_neg (lt_irrefl _), if_neg (lt_irrefl _), n1]
  · rw [if_neg (not_lt.2 hta.le)]
    rcases lt_trichotomy t b with htb | htb | htb
    · rw [if_neg (not_lt.2 htb.le)]
      refine (h2 t).congr_of_eventuallyEq ?_
      filter_upwards [Ioo_mem_nhds hta htb] with x hx
      rw [hf, if_neg (not_lt.2 hx.1.le), if_neg (not_lt.2 hx.2.le)]
    · subst htb
      obtain ⟨n1, n2⟩ := hb rfl
      rw [if_neg (lt_irrefl _)]
      refine hasDerivAt_glue (g₁ := g₂) (g₂ := g₃) ?_ ?_ (h2 t) (n2 ▸ h3 t)
      · filter_upwards [self_mem_nhdsWithin, mem_nhdsWithin_of_mem_nhds (Ioi_mem_nhds hta)] with x hx hx'
        rw [hf, if_neg (not_lt.2 (le_of_lt hx')), if_neg (not_lt.2 hx)]
      · filter_upwards [self_mem_nhdsWithin] with x hx
        have hx' : t ≤ x := hx
        rcases lt_or_eq_of_le hx' with h | h
        · rw [hf, if_neg (not_lt.2 (hta.le.trans hx')), if_pos h]
        · subst h; rw [hf, if_neg (not_lt.2 hta.le), if_neg (lt_irrefl _), n1]
    · rw [if_pos htb]
      refine (h3 t).congr_of_eventuallyEq ?_
      filter_upwards [Ioi_mem_nhds htb] with x hx
      have hx' : b < x := hx
      rw [hf, if_neg (not_lt.2 (hab.trans hx'.le)), if_pos hx']

/-- Speed change from `vS` to `vE`: jerk `J` for a time `d`, acceleration `A` for `d2`, jerk `-J` for `d`. -/
structure SCurve where
  vS : ℝ
  vE : ℝ
  d : ℝ
  d2 : ℝ
  A : ℝ
  J : ℝ

namespace SCurve

noncomputable def dur (c : SCurve) : ℝ := c.d + c.d2 + c.d
noncomputable def len (c : SCurve) : ℝ := (c.vS + c.vE) * (c.d + c.d2 + c.d) * (1 / 2)

noncomputable def a (c : SCurve) (t : ℝ) : ℝ :=
  if t < c.d then c.J * t else if c.d + c.d2 < t then c.J * (c.dur - t) else c.A

noncomputable def v (c : SCurve) (t : ℝ) : ℝ :=
  if t < c.d then c.vS + c.J * t ^ 2 / 2
  else if c.d + c.d2 < t then c.vE - c.J * (c.dur - t) ^ 2 / 2
  else c.vS + c.J * c.d ^ 2 / 2 + c.A * (t - c.d)

noncomputable def s (c : SCurve) (t : ℝ) : ℝ :=
  if t < c.d then c.vS * t + c.J * t ^ 3 / 6
  else if c.d + c.d2 < t then c.len - (c.vE * (c.dur - t) - c.J * (c.dur - t) ^ 3 / 6)
  else c.vS * c.d + c.J * c.d ^ 3 / 6 + (c.vS + c.J * c.d ^ 2 / 2) * (t - c.d) + c.A * (t - c.d) ^ 2 / 2

/-- The parameters fit together. -/
structure Ok (c : SCurve) : Prop where
  d : 0 ≤ c.d
  d2 : 0 ≤ c.d2
  plateau : c.A * c.d = c.J * c.d ^ 2
  vE : c.vE = c.vS + c.J * c.d ^ 2 + c.A * c.d2

variable {c : SCurve}

theorem Ok.AJ (h : c.Ok) (hd : 0 < c.d) : c.A = c.J * c.d := by
  have := h.plateau
  have h2 : c.d ≠ 0 := hd.ne'
  have : c.d * (c.A - c.J * c.d) = 0 := by linear_combination this
  rcases mul_eq_zero.1 this with h3 | h3
  · exact absurd h3 h2
  · linarith

theorem Ok.dur_nonneg (h : c.Ok) : 0 ≤ c.dur := by unfold dur; linarith [h.d, h.d2]

theorem Ok.s_zero (h : c.Ok) : c.s 0 = 0 := by
  unfold s
  rcases lt_or_eq_of_le h.d with hd | hd
  · simp [hd]
  · rw [if_neg (by rw [← hd]; exact lt_irrefl _), if_neg (by rw [← hd]; linarith [h.d2]), ← hd]; simp

theorem Ok.v_zero (h : c.Ok) : c.v 0 = c.vS := by
  unfold v
  rcases lt_or_eq_of_le h.d with hd | hd
  · simp [hd]
  · rw [if_neg (by rw [← hd]; exact lt_irrefl _), if_neg (by rw [← hd]; linarith [h.d2]), ← hd]; simp

theorem Ok.s_dur (h : c.Ok) : c.s c.dur = c.len := by
  unfold s
  rw [if_neg (by unfold dur; linarith [h.d, h.d2])]
  rcases lt_or_eq_of_le h.d with hd | hd
  · rw [if_pos (by unfold dur; linarith)]; simp
  · rw [if_neg (by unfold dur; linarith)]
    have hv := h.vE
    simp only [dur, len, ← hd] at *
    rw [hv]; ring

theorem Ok.v_dur (h : c.Ok) : c.v c.dur = c.vE := by
  unfold v
  rw [if_neg (by unfold dur; linarith [h.d, h.d2])]
  rcases lt_or_eq_of_le h.d with hd | hd
  · rw [if_pos (by unfold dur; linarith)]; simp
  · rw [if_neg (by unfold dur; linarith)]
    have hv := h.vE
    simp only [dur, ← hd] at *
    rw [hv]; ring

theorem Ok.len_nonneg (h : c.Ok) (h1 : 0 ≤ c.vS) (h2 : 0 ≤ c.vE) : 0 ≤ c.len := by
  have := h.dur_nonneg
  unfold len; unfold dur at this
  positivity

theorem hasDerivAt_poly3 (p q r w k t : ℝ) :
    HasDerivAt (fun t => p + q * (t - k) + r * (t - k) ^ 2 / 2 + w * (t - k) ^ 3 / 6)
      (q + r * (t - k) + w * (t - k) ^ 2 / 2) t := by
  have h0 : HasDerivAt (fun t => t - k) 1 t := (hasDerivAt_id t).sub_const k
  have h1 := (h0.const_mul q).const_add p
  have h2 := ((h0.pow 2).const_mul r).div_const 2
  have h3 := ((h0.pow 3).const_mul w).div_const 6
  have := (h1.add h2).add h3
  refine this.congr_deriv ?_
  simp; ring

theorem Ok.deriv_s (h : c.Ok) (t : ℝ) : HasDerivAt c.s (c.v t) t := by
  have hab : c.d ≤ c.d + c.d2 := by linarith [h.d2]
  have hv := h.vE
  have hp := h.plateau
  refine hasDerivAt_three (f := c.s) (a := c.d) (b := c.d + c.d2)
    (g₁ := fun t => c.vS * t + c.J * t ^ 3 / 6)
    (g₂ := fun t => c.vS * c.d + c.J * c.d ^ 3 / 6 + (c.vS + c.J * c.d ^ 2 / 2) * (t - c.d) + c.A * (t - c.d) ^ 2 / 2)
    (g₃ := fun t => c.len - (c.vE * (c.dur - t) - c.J * (c.dur - t) ^ 3 / 6))
    (g₁' := fun t => c.vS + c.J * t ^ 2 / 2)
    (g₂' := fun t => c.vS + c.J * c.d ^ 2 / 2 + c.A * (t - c.d))
    (g₃' := fun t => c.vE - c.J * (c.dur - t) ^ 2 / 2) hab (fun t => rfl) ?_ ?_ ?_ t ?_ ?_
  · intro t
    convert hasDerivAt_poly3 0 c.vS 0 c.J 0 t using 1
    · funext t; ring
    · ring
  · intro t
    convert hasDerivAt_poly3 (c.vS * c.d + c.J * c.d ^ 3 / 6) (c.vS + c.J * c.d ^ 2 / 2) c.A 0 c.d t using 1
    · funext t; ring
    · ring
  · intro t
    convert hasDerivAt_poly3 c.len c.vE 0 (-c.J) c.dur t using 1
    · funext t; ring
    · ring
  · intro _; constructor <;> simp
  · intro _
    constructor
    · simp only [len, dur]
      rw [hv]
      ring
    · simp only [dur]
      rw [hv]
      ring

theorem Ok.deriv_v (h : c.Ok) (t : ℝ) (h0 : 0 < t) (h1 : t < c.dur) : HasDerivAt c.v (c.a t) t := by
  have hab : c.d ≤ c.d + c.d2 := by linarith [h.d2]
  have hv := h.vE
  have hp := h.plateau
  refine hasDerivAt_three (f := c.v) (a := c.d) (b := c.d + c.d2)
    (g₁ := fun t => c.vS + c.J * t ^ 2 / 2)
    (g₂ := fun t => c.vS + c.J * c.d ^ 2 / 2 + c.A * (t - c.d))
    (g₃ := fun t => c.vE - c.J * (c.dur - t) ^ 2 / 2)
    (g₁' := fun t => c.J * t) (g₂' := fun _ => c.A) (g₃' := fun t => c.J * (c.dur - t))
    hab (fun t => rfl) ?_ ?_ ?_ t ?_ ?_
  · intro t
    convert hasDerivAt_poly3 c.vS 0 c.J 0 0 t using 1
    · funext t; ring
    · ring
  · intro t
    convert hasDerivAt_poly3 (c.vS + c.J * c.d ^ 2 / 2) c.A 0 0 c.d t using 1
    · funext t; ring
    · ring
  · intro t
    convert hasDerivAt_poly3 c.vE 0 (-c.J) 0 c.dur t using 1
    · funext t; ring
    · ring
  · intro ht
    have hd : 0 < c.d := ht ▸ h0
    constructor
    · ring
    · rw [h.AJ hd]
  · intro ht
    have hd : 0 < c.d := by unfold dur at h1; linarith
    constructor
    · simp only [dur]; rw [hv]; ring
    · simp only [dur]; rw [h.AJ hd]; ring

/-- Mirror image. -/
def neg (c : SCurve) : SCurve := ⟨-c.vS, -c.vE, c.d, c.d2, -c.A, -c.J⟩

theorem Ok.neg (h : c.Ok) : c.neg.Ok :=
  ⟨h.d, h.d2, by simp only [SCurve.neg]; linear_combination -h.plateau,
    by simp only [SCurve.neg]; linear_combination -h.vE⟩

theorem neg_v (c : SCurve) (t : ℝ) : c.neg.v t = -c.v t := by
  by_cases h1 : t < c.d
  · rw [v, v, if_pos (show t < c.neg.d from h1), if_pos h1]; simp only [neg]; ring
  · rw [v, v, if_neg (show ¬ t < c.neg.d from h1), if_neg h1]
    by_cases h2 : c.d + c.d2 < t
    · rw [if_pos (show c.neg.d + c.neg.d2 < t from h2), if_pos h2]; simp only [neg, dur]; ring
    · rw [if_neg (show ¬ c.neg.d + c.neg.d2 < t from h2), if_neg h2]; simp only [neg]; ring

theorem neg_a (c : SCurve) (t : ℝ) : c.neg.a t = -c.a t := by
  by_cases h1 : t < c.d
  · rw [a, a, if_pos (show t < c.neg.d from h1), if_pos h1]; simp only [neg]; ring
  · rw [a, a, if_neg (show ¬ t < c.neg.d from h1), if_neg h1]
    by_cases h2 : c.d + c.d2 < t
    · rw [if_pos (show c.neg.d + c.neg.d2 < t from h2), if_pos h2]; simp only [neg, dur]; ring
    · rw [if_neg (show ¬ c.neg.d + c.neg.d2 < t from h2), if_neg h2]; simp only [neg]

/-- The acceleration of an upward speed change. -/
theorem Ok.a_up (h : c.Ok) (hA : 0 ≤ c.A) (hJ : 0 ≤ c.J) {t : ℝ} (h0 : 0 ≤ t) (h1 : t ≤ c.dur) :
    0 ≤ c.a t ∧ c.a t ≤ c.A := by
  unfold a
  split_ifs with i j
  · have hd : 0 < c.d := lt_of_le_of_lt h0 i
    rw [h.AJ hd]
    exact ⟨by positivity, by gcongr⟩
  · have hd : 0 < c.d := by unfold dur at h1; linarith
    rw [h.AJ hd]
    have : 0 ≤ c.dur - t := by linarith
    refine ⟨by positivity, mul_le_mul_of_nonneg_left ?_ hJ⟩
    unfold dur; linarith
  · exact ⟨hA, le_refl _⟩

theorem Ok.a_lipschitz (h : c.Ok) (hd : 0 < c.d) {t u : ℝ} (h0 : 0 ≤ t) (htu : t ≤ u) (h1 : u ≤ c.dur) :
    |c.a u - c.a t| ≤ |c.J| * (u - t) := by
  have key : ∃ k : ℝ, c.a u - c.a t = c.J * k ∧ |k| ≤ u - t := by
    unfold a
    rw [h.AJ hd]
    have := h.d2
    unfold dur at *
    split_ifs with i1 i2 i3 i4 i5 i6 i7 i8
    all_goals first
      | refine ⟨u - t, by ring1, by rw [abs_of_nonneg]; linarith⟩
      | refine ⟨t - u, by ring1, by rw [abs_of_nonpos] <;> linarith⟩
      | refine ⟨0, by ring1, by rw [abs_zero]; linarith⟩
      | refine ⟨c.d + c.d2 + c.d - u - t, by ring1, by rw [abs_le]; constructor <;> linarith⟩
      | refine ⟨c.d - t, by ring1, by rw [abs_le]; constructor <;> linarith⟩
      | refine ⟨c.d + c.d2 + c.d - u - c.d, by ring1, by rw [abs_le]; constructor <;> linarith⟩
      | (exfalso; linarith)
  obtain ⟨k, hk, hk'⟩ := key
  rw [hk, abs_mul]
  exact mul_le_mul_of_nonneg_left hk' (abs_nonneg _)

theorem continuous_three {f g₁ g₂ g₃ : ℝ → ℝ} {a b : ℝ} (hab : a ≤ b)
    (hf : ∀ t, f t = if t < a then g₁ t else if b < t then g₃ t else g₂ t)
    (h1 : Continuous g₁) (h2 : Continuous g₂) (h3 : Continuous g₃) (ha : g₁ a = g₂ a) (hb : g₂ b = g₃ b) :
    Continuous f := by
  have e : f = fun t => if t ≤ a then g₁ t else if t ≤ b then g₂ t else g₃ t := by
    funext t
    rw [hf]
    rcases lt_trichotomy t a with h | h | h
    · rw [if_pos h, if_pos h.le]
    · subst h; rw [if_neg (lt_irrefl _), if_neg (not_lt.2 hab), if_pos le_rfl, ha]
    · rw [if_neg (not_lt.2 h.le), if_neg (not_le.2 h)]
      by_cases i : b < t
      · rw [if_pos i, if_neg (not_le.2 i)]
      · rw [if_neg i, if_pos (not_lt.1 i)]
  rw [e]
  refine h1.if_le (h2.if_le h3 continuous_id continuous_const ?_) continuous_id continuous_const ?_
  · intro x hx
    have : x = b := hx
    subst this; exact hb
  · intro x hx
    have : x = a := hx
    subst this
    rw [if_pos hab, ha]

theorem Ok.continuous_v (h : c.Ok) : Continuous c.v := by
  refine continuous_three (f := c.v) (a := c.d) (b := c.d + c.d2)
    (g₁ := fun t => c.vS + c.J * t ^ 2 / 2)
    (g₂ := fun t => c.vS + c.J * c.d ^ 2 / 2 + c.A * (t - c.d))
    (g₃ := fun t => c.vE - c.J * (c.dur - t) ^ 2 / 2) (by linarith [h.d2]) (fun t => rfl)
    (by fun_prop) (by fun_prop) (by fun_prop) (by ring) ?_
  simp only [dur]; rw [h.vE]; ring

theorem Ok.continuous_s (h : c.Ok) : Continuous c.s := by
  refine continuous_three (f := c.s) (a := c.d) (b := c.d + c.d2)
    (g₁ := fun t => c.vS * t + c.J * t ^ 3 / 6)
    (g₂ := fun t => c.vS * c.d + c.J * c.d ^ 3 / 6 + (c.vS + c.J * c.d ^ 2 / 2) * (t - c.d) + c.A * (t - c.d) ^ 2 / 2)
    (g₃ := fun t => c.len - (c.vE * (c.dur - t) - c.J * (c.dur - t) ^ 3 / 6)) (by linarith [h.d2]) (fun t => rfl)
    (by fun_prop) (by fun_prop) (by fun_prop) (by ring) ?_
  simp only [len, dur]; rw [h.vE]; ring

theorem Ok.monotone_v (h : c.Ok) (hA : 0 ≤ c.A) (hJ : 0 ≤ c.J) : MonotoneOn c.v (Icc 0 c.dur) := by
  refine monotoneOn_of_deriv_nonneg (convex_Icc _ _) h.continuous_v.continuousOn ?_ ?_
  · rw [interior_Icc]
    exact fun x hx => (h.deriv_v x hx.1 hx.2).differentiableAt.differentiableWithinAt
  · rw [interior_Icc]
    intro x hx
    rw [(h.deriv_v x hx.1 hx.2).deriv]
    exact (h.a_up hA hJ hx.1.le hx.2.le).1

theorem Ok.v_up (h : c.Ok) (hA : 0 ≤ c.A) (hJ : 0 ≤ c.J) {t : ℝ} (h0 : 0 ≤ t) (h1 : t ≤ c.dur) :
    c.vS ≤ c.v t ∧ c.v t ≤ c.vE := by
  have hm := h.monotone_v hA hJ
  have l := hm ⟨le_refl _, h.dur_nonneg⟩ ⟨h0, h1⟩ h0
  have r := hm ⟨h0, h1⟩ ⟨h.dur_nonneg, le_refl _⟩ h1
  rw [h.v_zero] at l
  rw [h.v_dur] at r
  exact ⟨l, r⟩

theorem Ok.monotone_s (h : c.Ok) (hv : ∀ t, 0 ≤ t → t ≤ c.dur → 0 ≤ c.v t) : MonotoneOn c.s (Icc 0 c.dur) := by
  refine monotoneOn_of_deriv_nonneg (convex_Icc _ _) h.continuous_s.continuousOn ?_ ?_
  · rw [interior_Icc]
    exact fun x hx => (h.deriv_s x).differentiableAt.differentiableWithinAt
  · rw [interior_Icc]
    intro x hx
    rw [(h.deriv_s x).deriv]
    exact hv x hx.1.le hx.2.le

end SCurve
end Moovr
