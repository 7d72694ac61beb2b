import Verif.Lemmas.Resume32
import Verif.Lemmas.Stopping32
/-!
# Resuming a stopped straight motion of the 3-axis machine, in single precision: the new plan
-/
namespace Moovr
open Num Float32 Single Ramp

/-- A float from 1/2 on is a multiple of 2⁻²⁴. -/
theorem float_multiple {x : ℝ} (hx : rnd x = x) (h : 1 / 2 ≤ x) : ∃ m : ℤ, x = m * 2 ^ (-24 : ℤ) := by
  have e : -24 ≤ expo x := by
    have h1 := expo_mono (x := 1 / 2) (y := x) (by norm_num) (by rw [abs_of_nonneg, abs_of_nonneg] <;> linarith)
    have h2 : expo (1 / 2) = -24 := by
      unfold expo
      have : Int.log 2 |(1 / 2 : ℝ)| = -1 := by
        rw [show |(1 / 2 : ℝ)| = ((2 : ℕ) : ℝ) ^ (-1 : ℤ) by norm_num [abs_of_pos]]
        exact Int.log_zpow (by norm_num) _
      rw [this]; norm_num
    omega
  obtain ⟨n, hn⟩ := Int.le.dest e
  refine ⟨nearestEven (x / 2 ^ expo x) * 2 ^ n, ?_⟩
  have e : (2 : ℝ) ^ expo x = 2 ^ n * 2 ^ (-24 : ℤ) := by
    rw [← hn, zpow_add₀ (by norm_num), zpow_natCast, mul_comm]
  have : x = nearestEven (x / 2 ^ expo x) * 2 ^ expo x := hx.symm
  push_cast
  rw [mul_assoc, ← e]
  exact this

/-- The difference of two times in the same second is exact. -/
theorem float_sub {t u : ℝ} (ht : rnd t = t) (hu : rnd u = u) (h0 : 1 / 2 ≤ t) (h1 : t ≤ u) (h2 : u ≤ t + 1) :
    rnd (u - t) = u - t := by
  obtain ⟨m, hm⟩ := float_multiple ht h0
  obtain ⟨n, hn⟩ := float_multiple hu (h0.trans h1)
  have hp : (0 : ℝ) < 2 ^ (-24 : ℤ) := by positivity
  have e : u - t = ((n - m : ℤ) : ℝ) * 2 ^ (-24 : ℤ) := by rw [hm, hn]; push_cast; ring
  have h3 : |n - m| ≤ 2 ^ 24 := by
    have a : 0 ≤ n - m := by
      have : (0 : ℝ) ≤ ((n - m : ℤ) : ℝ) * 2 ^ (-24 : ℤ) := by rw [← e]; linarith
      exact_mod_cast nonneg_of_mul_nonneg_left this hp
    have b : ((n - m : ℤ) : ℝ) ≤ 2 ^ 24 := by
      have : ((n - m : ℤ) : ℝ) * 2 ^ (-24 : ℤ) ≤ 1 := by rw [← e]; linarith
      have h := mul_le_mul_of_nonneg_right this (show (0 : ℝ) ≤ 2 ^ 24 by norm_num)
      rw [mul_assoc, show (2 : ℝ) ^ (-24 : ℤ) * 2 ^ 24 = 1 by rw [zpow_neg]; norm_num] at h
      linarith
    rw [abs_of_nonneg a]
    exact_mod_cast b
  rw [e]
  exact rnd_exact h3 (by norm_num)

namespace Profile32

/-- Planning keeps the limits and the feed rate. -/
theorem plan_limits (p : Profile32) (L f l : Single) (st : Strategy) :
    (p.plan L f l st).aMax = p.aMax ∧ (p.plan L f l st).dMax = p.dMax ∧ (p.plan L f l st).jMax = p.jMax ∧
    (p.plan L f l st).vMax = p.vMax ∧ (p.plan L f l st).vFeed = p.vFeed := by
  unfold Profile32.plan
  simp only
  split_ifs <;> exact ⟨rfl, rfl, rfl, rfl, rfl⟩

/-- Planning what remains of a motion is planning a motion of the remaining length. -/
theorem plan_shift {p : Profile32} {L S T l : ℝ} {f : Single} (hS : p.doneLength = num S) (hT : p.doneDuration = num T)
    (h1 : l ≤ L) (h2 : l ≤ rnd (L - S)) :
    let q := p.plan (num L) f (num l) .maximizeSpeed
    let q' := ({ p with doneLength := num 0, doneDuration := num 0 } : Profile32).plan (num (rnd (L - S))) f (num l) .maximizeSpeed
    q.left = q'.left ∧ q.right = q'.right ∧ q.mid = q'.mid ∧ q.doneLength = num S ∧ q.doneDuration = num T ∧
    q.duration = num T + q'.left.duration + q'.mid.duration + q'.right.duration ∧
    (q'.mid.vMid.eq (num 0) = false → q.tStop = ⟨posInf⟩) := by
  have e1 : num L - p.doneLength = num (rnd (L - S)) := by rw [hS, num_sub]
  have e2 : num (rnd (L - S)) - num 0 = num (rnd (L - S)) := by rw [num_sub, sub_zero, rnd_rnd]
  have hc : p.chooseSpeed (num L) f (num l) .maximizeSpeed =
      ({ p with doneLength := num 0, doneDuration := num 0 } : Profile32).chooseSpeed (num (rnd (L - S))) f (num l) .maximizeSpeed := by
    unfold Profile32.chooseSpeed
    simp only [e1, e2, lt_num, not_lt.2 h1, not_lt.2 h2]
  unfold Profile32.plan
  rw [hc]
  generalize ({ p with doneLength := num 0, doneDuration := num 0 } : Profile32).chooseSpeed (num (rnd (L - S))) f (num l) .maximizeSpeed = c
  have e3 : num L - (p.setPhases c.1 c.2).doneLength = num (rnd (L - S)) := e1
  have e4 : num (rnd (L - S)) - (({ p with doneLength := num 0, doneDuration := num 0 } : Profile32).setPhases c.1 c.2).doneLength =
    num (rnd (L - S)) := e2
  have el : (p.setPhases c.1 c.2).left =
    (({ p with doneLength := num 0, doneDuration := num 0 } : Profile32).setPhases c.1 c.2).left := rfl
  have er : (p.setPhases c.1 c.2).right =
    (({ p with doneLength := num 0, doneDuration := num 0 } : Profile32).setPhases c.1 c.2).right := rfl
  simp only [e3, e4, el, er]
  split_ifs with hb
  · refine ⟨rfl, rfl, ?_, hS, hT, ?_, ?_⟩
    · simp only [Profile32.finish, Profile32.setPhases, e1, e2]
    · simp only [Profile32.finish, Profile32.setPhases, e1, e2, hT]
    · intro h
      simp only [Profile32.finish, Profile32.setPhases, Cruise.set] at h ⊢
      rw [h]; rfl
  · refine ⟨rfl, rfl, ?_, hS, hT, ?_, ?_⟩
    · simp only [Profile32.finish, Profile32.setPhases, e1, e2]
    · simp only [Profile32.finish, Profile32.setPhases, e1, e2, hT]
    · intro h
      simp only [Profile32.finish, Profile32.setPhases, Cruise.set] at h ⊢
      rw [h]; rfl

/-- Planning anew a motion that has stopped. -/
theorem Halts.again {p : Profile32} {b : Ramp} {S₀ t u : ℝ} (h : p.Halts b S₀ t) (h1 : t < u) (h2 : b.dur < rnd (u - t))
    {M : Machine} {o : Overrides} {st : Strategy} {X : Path32} (hX : X.type.moves = true) :
    ∃ q : Profile32, MotionItem32.optimizeAt M o st (num u) X p =
        q.plan X.trajectory.length ⟨o.feedOverride⟩ (num M.minLengthSProfile) st ∧
      q.doneLength = num (rnd (S₀ + b.len)) ∧ q.doneDuration = num u ∧ q.left.vStart = num 0 ∧ q.right.vEnd = num 0 ∧
      q.aMax = p.aMax ∧ q.dMax = p.dMax ∧ q.jMax = p.jMax ∧ q.vMax = p.vMax ∧ q.vFeed = p.vFeed := by
  have hle : ∀ x : ℝ, (num x).le ⟨posInf⟩ = true := fun _ => rfl
  have hv : p.v (num u) = num 0 := by
    unfold Profile32.v
    simp only [h.doneDuration, h.left.duration, h.mid.2, le_num, num_sub, decide_eq_true_eq, hle, if_true]
    rw [if_neg (by linarith), if_neg (by linarith)]
    exact h.mid.1
  unfold MotionItem32.optimizeAt MotionItem32.optimize
  simp only [hX, if_true]
  refine ⟨_, rfl, ?_, rfl, hv, h.end_, rfl, rfl, rfl, rfl, rfl⟩
  show Profile32.s _ (num u) = _
  unfold Profile32.s
  simp only [AccDec.setvStart, h.doneDuration, h.doneLength, h.left.duration, h.left.length, h.mid.1, h.mid.2, le_num, num_sub, num_add,
    decide_eq_true_eq, Cruise.s, num_mul, hle, if_true, zero_mul, rnd_zero, add_zero, rnd_rnd]
  rw [if_neg (by linarith), if_neg (by linarith)]

end Profile32

namespace Straight32
variable {x d : Nat → ℝ} {L v : ℝ}

/-- What remains is long: the motion reaches its speed again, with limited jerk. -/
theorem reaches_again (h : Straight32 x d L) (hv : Speed d L v) (hl : 127 / 100 * v ≤ L) {ℓ : ℝ} (hf : rnd ℓ = ℓ) (h1 : 126 / 100 * v ≤ ℓ)
    (h2 : ℓ ≤ rnd L) : Moderate ℓ v (acc d L) (acc d L) 600 ∧
    speed32 ℓ v (acc d L) (acc d L) = v ∧ order32 ℓ v (acc d L) (acc d L) 600 = .secondOrder := by
  have hm := h.moderate hv
  have hge := hv.ge
  have h52 := h.speed_le hv
  have ha := h.acc_bounds
  obtain ⟨-, -, -, hr⟩ := h.reaches hv hl
  have hmℓ : Moderate ℓ v (acc d L) (acc d L) 600 := by
    refine ⟨hf, hm.v_float, by linarith, h2.trans hm.L_le, hm.v_ge, hm.v_le, hm.a_ge, hm.a_le, hm.d_ge, hm.d_le, hm.j_ge, hm.j_le,
      hm.jerky_a, hm.jerky_d, hm.firm_a, hm.firm_d, hm.balanced, ?_⟩
    have := pow_le_pow_left₀ (show 0 ≤ ℓ by linarith) h2 2
    have := hm.slow
    linarith
  have htri : ¬ tri32 ℓ (acc d L) (acc d L) < v := by
    intro hc
    have hn := hmℓ.tri_near.ge
    have ha0 := hm.a_pos
    have e : 2 * ℓ * acc d L * acc d L / (acc d L + acc d L) = ℓ * acc d L := by field_simp; ring
    rw [e] at hn
    have t0 : 0 ≤ tri32 ℓ (acc d L) (acc d L) := rnd_nonneg (Real.sqrt_nonneg _)
    have h1' : tri32 ℓ (acc d L) (acc d L) ^ 2 ≤ v ^ 2 := pow_le_pow_left₀ t0 hc.le 2
    have h2' : 126 / 100 * v * (1999 / 10) ≤ ℓ * acc d L := mul_le_mul h1 ha.1 (by norm_num) (by linarith)
    have h3' : v ^ 2 ≤ 52 * v := by nlinarith
    unfold eps at hn
    linarith
  have hsp : speed32 ℓ v (acc d L) (acc d L) = v := by unfold speed32; rw [if_neg htri]
  refine ⟨hmℓ, hsp, ?_⟩
  have hf' : firstChoice32 ℓ v (acc d L) (acc d L) = .secondOrder := by unfold firstChoice32; rw [if_neg htri]
  unfold order32
  rw [hf', hsp, if_neg]
  push Not
  linarith

/-- The time along the path is limited. -/
theorem path_ratio (h : Straight32 x d L) (hv : Speed d L v) : L ≤ 374 * v := by
  have hge := hv.ge
  have hsl := hv.slow
  have hLf := h.Lf
  have hL := h.L_le
  have hL0 := h.L_pos
  by_contra hc
  push Not at hc
  have hr : (1 - 1 / 10 ^ 6) * L ≤ rnd L := by unfold eps at hLf; norm_num; linarith
  have h1 : ((1 - 1 / 10 ^ 6) * L) ^ 2 ≤ 100000 * v ^ 3 :=
    (pow_le_pow_left₀ (by norm_num; linarith) hr 2).trans (by norm_num at hsl ⊢; linarith)
  have h2 : (374 * v) ^ 3 ≤ L ^ 3 := pow_le_pow_left₀ (by linarith) hc.le 3
  have h3 : L ^ 3 ≤ 520 * L ^ 2 := by
    have : 0 ≤ L ^ 2 := by positivity
    nlinarith
  have h4 : 0 < L ^ 2 := by positivity
  norm_num [mul_pow] at h1 h2
  linarith

set_option maxHeartbeats 1000000 in
/-- The resumed motion. -/
theorem goes_on (h : Straight32 x d L) (hv : Speed d L v) {b : Ramp} (hb : Brake b v) {S₀ t T₁ : ℝ} (hs : Stop L v S₀ t)
    (h1 : v * (t + 166 / 100) ≤ L) (hT0 : t ≤ T₁) (hT1 : T₁ ≤ t + 62 / 100) {q : Profile32} {f : Single}
    (hd : q.doneLength = num (rnd (S₀ + b.len))) (hT : q.doneDuration = num T₁) (he : q.left.vStart = num 0)
    (he' : q.right.vEnd = num 0) (ha : q.aMax = num (acc d L)) (hda : q.dMax = num (-acc d L)) (hj : q.jMax = num 600)
    (hvf : (if q.vMax.lt (q.vFeed * f) then q.vMax else q.vFeed * f) = num v) :
    ∃ m dm Θ e : ℝ,
      (q.plan (num (rnd L)) f (num 0) .maximizeSpeed).GoesOn (up v (acc d L) 600 .secondOrder) (down v (acc d L) 600 .secondOrder) v m dm
        (rnd (S₀ + b.len)) T₁ ∧
      GoOn (up v (acc d L) 600 .secondOrder) (down v (acc d L) 600 .secondOrder) v L m dm (rnd (S₀ + b.len)) T₁ Θ e ∧
      v * Θ ≤ L + 252 / 100 * v := by
  have hge := hv.ge
  have hv0 : 0 < v := by linarith
  have h52 := h.speed_le hv
  have hL := h.L_le
  have hsq := h.L_sq
  have hlong : 127 / 100 * v ≤ L := by
    have := hs.pos
    nlinarith
  have ht0 := hs.pos
  have hS0 := hs.nonneg
  have hb0 := hb.len_nonneg
  have hb1 := hb.len_le
  have hnear := hs.near
  have hfar := hs.far
  have htiny := tiny_small
  have L519 : L ≤ 5198 / 10 := by
    by_contra hc
    push Not at hc
    nlinarith
  obtain ⟨ml, mr⟩ := h.mild hv hlong
  obtain ⟨-, -, -, hramps⟩ := h.reaches hv hlong
  have eS := abs_le.1 (rnd_mm (y := S₀ + b.len) (by linarith) (by linarith))
  have S1 : 0 ≤ rnd (S₀ + b.len) := rnd_nonneg (by linarith)
  have fS : rnd (rnd (S₀ + b.len)) = rnd (S₀ + b.len) := rnd_rnd _
  have eL := abs_le.1 (rnd_mm (y := L) (by linarith) (by linarith))
  norm_num at eS eL
  generalize hSdef : rnd (S₀ + b.len) = S₁ at *
  have eℓ := abs_le.1 (rnd_mm (y := rnd L - S₁) (by linarith) (by linarith))
  have hℓL : rnd (rnd L - S₁) ≤ rnd L := by
    have := rnd_mono (show rnd L - S₁ ≤ rnd L by linarith)
    rwa [rnd_rnd] at this
  norm_num at eℓ
  have hℓ1 : 126 / 100 * v ≤ rnd (rnd L - S₁) := by linarith
  obtain ⟨hm, e1, e2⟩ := h.reaches_again hv hlong (rnd_rnd _) hℓ1 hℓL
  have hQ := hm.Q_near.pos (by have := hm.product; linarith) (by norm_num)
  have had := hm.sum_near.pos (by linarith [hm.a_pos, hm.d_pos]) (by norm_num)
  have hplan := plan32 (p := ({ q with doneLength := num 0, doneDuration := num 0 } : Profile32)) (f := f) (minL := 0)
    ⟨rfl, rfl, he, he', ha, hda, hj⟩ hm.L_float hm.L_pos hm.a_pos hm.d_pos hm.v_pos hm.L_pos.le hvf hQ had hm.sizes_a hm.sizes_d
  rw [e1, e2] at hplan
  obtain ⟨p1, p2, p3, p4, p5, p6, p7⟩ := Profile32.plan_shift (f := f) (L := rnd L) (l := 0) hd hT (by linarith) (by linarith)
  have hl0 := ml.len_nonneg
  have hr0 := mr.len_nonneg
  have hl1 := ml.len_le
  have hr1 := mr.len_le
  have hld := ml.dur_le
  have hrd := mr.dur_le
  have hld0 := ml.dur_ge
  have hrd0 := mr.dur_ge
  have er : |ramps32 v (acc d L) (acc d L) 600 .secondOrder -
      ((up v (acc d L) 600 .secondOrder).len + (down v (acc d L) 600 .secondOrder).len)| ≤ 2 / 10 ^ 6 := by
    unfold ramps32
    have h1 := rnd_err ((up v (acc d L) 600 .secondOrder).len + (down v (acc d L) 600 .secondOrder).len)
    rw [abs_of_nonneg (add_nonneg hl0 hr0)] at h1
    unfold eps at h1
    norm_num at h1 htiny ⊢
    linarith
  have er := abs_le.1 er
  norm_num at er
  have em := abs_le.1 (rnd_mm (y := rnd (rnd L - S₁) - ramps32 v (acc d L) (acc d L) 600 .secondOrder) (by linarith) (by linarith))
  norm_num at em
  have hm1 : 5 / 10 * v ≤ rnd (rnd (rnd L - S₁) - ramps32 v (acc d L) (acc d L) 600 .secondOrder) := by linarith
  have hm2 : rnd (rnd (rnd L - S₁) - ramps32 v (acc d L) (acc d L) 600 .secondOrder) ≤ L - S₁ + 1 / 10 ^ 3 := by norm_num; linarith
  have hmL : rnd (rnd (rnd L - S₁) - ramps32 v (acc d L) (acc d L) 600 .secondOrder) ≤ 520 := by linarith
  have hsum : |S₁ + (up v (acc d L) 600 .secondOrder).len + rnd (rnd (rnd L - S₁) - ramps32 v (acc d L) (acc d L) 600 .secondOrder) +
      (down v (acc d L) 600 .secondOrder).len - L| ≤ 1 / 10 ^ 4 := by
    rw [abs_le]; norm_num; constructor <;> linarith
  generalize rnd (rnd (rnd L - S₁) - ramps32 v (acc d L) (acc d L) 600 .secondOrder) = m at *
  have hmid : |m - v * rnd (m / v)| ≤ 311 / 10 ^ 7 := by
    have h1 := rnd_err (m / v)
    rw [abs_of_nonneg (div_nonneg (by linarith) hv0.le)] at h1
    have h2 := mul_le_mul_of_nonneg_left h1 hv0.le
    have e3 : v * (eps * (m / v) + tiny) = eps * m + v * tiny := by field_simp
    have e4 : |m - v * rnd (m / v)| = v * |rnd (m / v) - m / v| := by
      rw [← abs_of_pos hv0, ← abs_mul, abs_of_pos hv0, abs_sub_comm]
      congr 1
      rw [mul_sub, mul_div_cancel₀ _ hv0.ne']
    rw [e3] at h2
    rw [e4]
    have q4 := mul_le_mul h52 htiny tiny_pos.le (by norm_num)
    have q5 := mul_le_mul_of_nonneg_left hmL eps_pos.le
    unfold eps at *
    norm_num at *
    linarith
  have hdm : v * rnd (m / v) ≤ m + 311 / 10 ^ 7 := by have := (abs_le.1 hmid).1; linarith
  have hdm0 : 0 ≤ rnd (m / v) := rnd_nonneg (div_nonneg (by linarith) hv0.le)
  generalize rnd (m / v) = dm at *
  have hvT : v * T₁ ≤ v * t + 62 / 100 * v := by
    have := mul_le_mul_of_nonneg_left hT1 hv0.le
    linarith
  have hΘ : v * (T₁ + (up v (acc d L) 600 .secondOrder).dur + dm + (down v (acc d L) 600 .secondOrder).dur + 1 / 1000) ≤ L + 252 / 100 * v := by
    have a1 := mul_le_mul_of_nonneg_left hld hv0.le
    have a2 := mul_le_mul_of_nonneg_left hrd hv0.le
    norm_num at hdm hm2
    linarith
  have hΘ0 : 1 / 1000 ≤ T₁ + (up v (acc d L) 600 .secondOrder).dur + dm + (down v (acc d L) 600 .secondOrder).dur + 1 / 1000 := by linarith
  have hratio := h.path_ratio hv
  generalize hΘdef : T₁ + (up v (acc d L) 600 .secondOrder).dur + dm + (down v (acc d L) 600 .secondOrder).dur + 1 / 1000 = Θ at *
  have hΘ1 : Θ ≤ 377 := by
    by_contra hc
    push Not at hc
    have := mul_lt_mul_of_pos_left hc hv0
    linarith
  refine ⟨m, dm, Θ, 6 / 10 ^ 8 * Θ, ⟨?_, ?_, ?_, p4, p5, ?_, ?_⟩, ?_, hΘ⟩
  · rw [p1]; exact hplan.left
  · rw [p2]; exact hplan.right
  · rw [p3]; exact hplan.mid
  · rw [p6, hplan.left.duration, hplan.right.duration, hplan.mid, num_add, num_add, num_add]
  · refine p7 ?_
    rw [hplan.mid]
    have : (num v).eq (num 0) = decide (v = 0) := Num.eq_fin _ _
    rw [this]
    simpa using hv0.ne'
  · refine ⟨ml, mr, hge, h52, L519, S1, by linarith, fS, hsum, hm1, hmid, by rw [hΘdef], ?_, by positivity, ?_, ?_⟩
    · intro y y0 y1
      have r := rnd_err y
      rw [abs_of_nonneg y0] at r
      have := mul_le_mul_of_nonneg_left y1 eps_pos.le
      unfold eps at *
      norm_num at *
      linarith
    · norm_num; linarith
    · have : v * (6 / 10 ^ 8 * Θ) = 6 / 10 ^ 8 * (v * Θ) := by ring
      rw [this]
      norm_num
      linarith

end Straight32

namespace GoOn
open Straight32
variable {x d : Nat → ℝ} {L v : ℝ} {l r : Ramp} {m dm S₁ T₁ Θ e u u' : ℝ}

theorem begins (h : GoOn l r v L m dm S₁ T₁ Θ e) : goesOnS l r v m dm S₁ T₁ T₁ = S₁ ∧ T₁ ≤ over l r dm T₁ ∧ over l r dm T₁ ≤ Θ ∧
    S₁ ≤ L := by
  have ho := abs_le.1 h.over_near
  have h1 := h.left.dur_ge
  have h2 := h.right.dur_ge
  have h3 := h.dm_ge
  have he := h.e_le
  have ht := h.time
  have hs := (abs_le.1 h.sum).2
  obtain ⟨l0, r0, -⟩ := h.lengths
  have hc := h.cruise
  have hv := h.v_ge
  norm_num at he hs
  refine ⟨by unfold goesOnS; rw [if_pos le_rfl], by linarith, by linarith, by linarith⟩

theorem range (h : GoOn l r v L m dm S₁ T₁ Θ e) (h0 : T₁ ≤ u) (h1 : u ≤ over l r dm T₁) :
    S₁ - 9 / 10 ^ 4 ≤ goesOnS l r v m dm S₁ T₁ u ∧ goesOnS l r v m dm S₁ T₁ u ≤ L + 9 / 10 ^ 4 := by
  obtain ⟨b1, b2, -⟩ := h.begins
  have a := (h.rises le_rfl h0 h1).1
  have b := (h.rises h0 h1 le_rfl).1
  have c := abs_le.1 h.ends
  rw [b1] at a
  norm_num at a b c ⊢
  constructor <;> linarith

theorem moved (h : GoOn l r v L m dm S₁ T₁ Θ e) (hs : Straight32 x d L) {i : Nat} (hi : i < 3) (h0 : T₁ ≤ u) (h1 : u ≤ over l r dm T₁) :
    |dir d L i * goesOnS l r v m dm S₁ T₁ u| ≤ 301 := by
  obtain ⟨a, b⟩ := h.range h0 h1
  have hn := h.S_nonneg
  have hL := hs.L_pos
  have hlong := hs.long
  rw [abs_mul]
  have k : |goesOnS l r v m dm S₁ T₁ u| ≤ L + 9 / 10 ^ 4 := by
    norm_num at a b ⊢
    rw [abs_le]; constructor <;> linarith
  have h2 := mul_le_mul_of_nonneg_left k (abs_nonneg (dir d L i))
  have h3 := hs.dir_length hi
  have h4 := mul_le_mul_of_nonneg_left hs.Lf.1 (abs_nonneg (dir d L i))
  have h5 := hs.dir_le hi
  have h6 : 0 ≤ |dir d L i| * L := mul_nonneg (abs_nonneg _) hL.le
  unfold eps at h4
  norm_num at *
  linarith

theorem falls (h : GoOn l r v L m dm S₁ T₁ Θ e) (hs : Straight32 x d L) {fpu : Fpu} {i : Nat} (hi : i < 3) (h0 : T₁ ≤ u) (huu : u ≤ u')
    (h1 : u' ≤ over l r dm T₁) :
    (0 ≤ dir d L i → spot fpu x d L i (goesOnS l r v m dm S₁ T₁ u) ≤ spot fpu x d L i (goesOnS l r v m dm S₁ T₁ u') + 42 / 10 ^ 5) ∧
    (dir d L i ≤ 0 → spot fpu x d L i (goesOnS l r v m dm S₁ T₁ u') ≤ spot fpu x d L i (goesOnS l r v m dm S₁ T₁ u) + 42 / 10 ^ 5) := by
  have a := abs_le.1 (hs.spot_near (fpu := fpu) hi (h.moved hs hi h0 (huu.trans h1)))
  have c := abs_le.1 (hs.spot_near (fpu := fpu) hi (h.moved hs hi (h0.trans huu) h1))
  have r := (h.rises h0 huu h1).1
  have h1 := hs.dir_le hi
  constructor
  · intro hd
    rw [abs_of_nonneg hd] at h1
    have := mul_le_mul_of_nonneg_left r hd
    norm_num at *
    linarith
  · intro hd
    rw [abs_of_nonpos hd] at h1
    have := mul_le_mul_of_nonneg_left r (neg_nonneg.2 hd)
    norm_num at *
    linarith

theorem rate (h : GoOn l r v L m dm S₁ T₁ Θ e) (hs : Straight32 x d L) {fpu : Fpu} {i : Nat} (hi : i < 3) (h0 : T₁ ≤ u) (huu : u ≤ u')
    (h1 : u' ≤ over l r dm T₁) :
    |spot fpu x d L i (goesOnS l r v m dm S₁ T₁ u') - spot fpu x d L i (goesOnS l r v m dm S₁ T₁ u)| ≤
      |dir d L i| * (v * (u' - u)) + 8 / 10 ^ 4 := by
  have a := abs_le.1 (hs.spot_near (fpu := fpu) hi (h.moved hs hi h0 (huu.trans h1)))
  have c := abs_le.1 (hs.spot_near (fpu := fpu) hi (h.moved hs hi (h0.trans huu) h1))
  obtain ⟨r1, r2⟩ := h.rises h0 huu h1
  have h1 := hs.dir_le hi
  have hvt : 0 ≤ v * (u' - u) := mul_nonneg (le_trans (by norm_num) h.v_ge) (by linarith)
  have h3 : |goesOnS l r v m dm S₁ T₁ u' - goesOnS l r v m dm S₁ T₁ u| ≤ v * (u' - u) + 6 / 10 ^ 4 := by
    norm_num at *
    rw [abs_le]; constructor <;> linarith
  have h4 : |dir d L i * goesOnS l r v m dm S₁ T₁ u' - dir d L i * goesOnS l r v m dm S₁ T₁ u| ≤
      |dir d L i| * (v * (u' - u)) + 61 / 10 ^ 5 := by
    rw [← mul_sub, abs_mul]
    have := mul_le_mul_of_nonneg_left h3 (abs_nonneg (dir d L i))
    norm_num at *
    linarith
  have h5 := abs_le.1 h4
  rw [abs_le]
  norm_num at *
  constructor <;> linarith

/-- A distance on the line near the computed one. -/
theorem clamped (h : GoOn l r v L m dm S₁ T₁ Θ e) (h0 : T₁ ≤ u) (h1 : u ≤ over l r dm T₁) :
    ∃ s, S₁ ≤ s ∧ s ≤ L ∧ |goesOnS l r v m dm S₁ T₁ u - s| ≤ 9 / 10 ^ 4 := by
  obtain ⟨a, c⟩ := h.range h0 h1
  obtain ⟨-, -, -, hl⟩ := h.begins
  refine ⟨max S₁ (min (goesOnS l r v m dm S₁ T₁ u) L), le_max_left _ _, max_le hl (min_le_right _ _), ?_⟩
  rw [abs_le]
  rcases le_total (goesOnS l r v m dm S₁ T₁ u) L with e | e
  · rw [min_eq_left e]
    rcases le_total S₁ (goesOnS l r v m dm S₁ T₁ u) with e' | e'
    · rw [max_eq_right e']; norm_num
    · rw [max_eq_left e']; constructor <;> norm_num at * <;> linarith
  · rw [min_eq_right e, max_eq_right (by linarith)]; constructor <;> norm_num at * <;> linarith

theorem line (h : GoOn l r v L m dm S₁ T₁ Θ e) (hs : Straight32 x d L) {fpu : Fpu} {i : Nat} (hi : i < 3) (h0 : T₁ ≤ u)
    (h1 : u ≤ over l r dm T₁) {s : ℝ} (s0 : S₁ ≤ s) (s1 : s ≤ L) (he : |goesOnS l r v m dm S₁ T₁ u - s| ≤ 9 / 10 ^ 4) :
    |spot fpu x d L i (goesOnS l r v m dm S₁ T₁ u) - (x i + d i * (s / L))| ≤ 1 / 1000 := by
  have k := mul_le_mul (hs.dir_le hi) he (abs_nonneg _) (by norm_num)
  have := hs.near_line (fpu := fpu) hi (h.moved hs hi h0 h1) (h.S_nonneg.trans s0) s1 k
  refine this.trans ?_
  norm_num

/-- Shortly before the end of the motion. -/
theorem at_end (h : GoOn l r v L m dm S₁ T₁ Θ e) (hs : Straight32 x d L) {fpu : Fpu} {i : Nat} (hi : i < 3) (h0 : T₁ ≤ u)
    (h1 : u ≤ over l r dm T₁) (hd : |dir d L i| * (v * (over l r dm T₁ - u)) ≤ 7 / 10000) :
    |spot fpu x d L i (goesOnS l r v m dm S₁ T₁ u) - (x i + d i)| ≤ 21 / 10000 := by
  have hL := hs.L_pos
  obtain ⟨a1, a2⟩ := h.rises h0 h1 le_rfl
  have c := abs_le.1 h.ends
  have hvt : 0 ≤ v * (over l r dm T₁ - u) := mul_nonneg (le_trans (by norm_num) h.v_ge) (by linarith)
  have k : |goesOnS l r v m dm S₁ T₁ u - L| ≤ v * (over l r dm T₁ - u) + 12 / 10 ^ 4 := by
    norm_num at a1 a2 c ⊢
    rw [abs_le]; constructor <;> linarith
  have k2 := mul_le_mul_of_nonneg_left k (abs_nonneg (dir d L i))
  have h5 := hs.dir_le hi
  have k3 : |dir d L i| * |goesOnS l r v m dm S₁ T₁ u - L| ≤ 2 / 1000 := by
    norm_num at *
    linarith
  have := hs.near_line (fpu := fpu) hi (h.moved hs hi h0 h1) hL.le le_rfl k3
  rw [div_self hL.ne', mul_one] at this
  refine this.trans ?_
  norm_num

/-- Within a tick an axis moves little, in exact arithmetic. -/
theorem hop (hs : Straight32 x d L) (hv : Speed d L v) (hΘ : v * Θ ≤ L + 252 / 100 * v) {fpu : Fpu} {i k : Nat}
    (hi : i < 3) (hk : reading32 fpu width32 k ≤ Θ) :
    |dir d L i| * (v * (reading32 fpu width32 (k + 1) - reading32 fpu width32 k)) ≤ 7 / 10000 := by
  have a := abs_le.1 (reading32_near fpu k)
  have b := abs_le.1 (reading32_near fpu (k + 1))
  have hw := width32_near
  have hw0 := width32_pos
  have hv0 : 0 < v := lt_of_lt_of_le (by norm_num) hv.ge
  have hd := abs_nonneg (dir d L i)
  have hdv : |dir d L i| * v ≤ 30001 / 1000 :=
    (mul_le_mul_of_nonneg_right (dir_top hi) hv0.le).trans (hs.speed_top hv)
  have hdv0 : 0 ≤ |dir d L i| * v := by positivity
  have hreach := hs.dir_reach hi
  have hD : |dir d L i| * v * Θ ≤ 3785 / 10 := by
    have := mul_le_mul_of_nonneg_left hΘ hd
    linarith
  push_cast at b
  have hkw0 : 0 ≤ (k : ℝ) * width32 := by positivity
  have hkw : (k : ℝ) * width32 ≤ 1001 / 1000 * Θ := by
    unfold eps at a
    linarith
  have hstep : reading32 fpu width32 (k + 1) - reading32 fpu width32 k ≤ 17 / 10 ^ 6 + 5 / 10 ^ 7 * Θ := by
    unfold eps at a b hw
    norm_num at a b hw ⊢
    linarith
  have h1 := mul_le_mul_of_nonneg_left hstep hdv0
  rw [← mul_assoc]
  norm_num at h1 ⊢
  linarith

end GoOn
end Moovr
