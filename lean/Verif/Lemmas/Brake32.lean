import Verif.Lemmas.Halt32
import Verif.Lemmas.Clock32
/-!
# Stopping a straight motion of the 3-axis machine in single precision while it cruises: the distance travelled
-/
namespace Moovr
open Num Float32 Single Ramp

open Classical in
/-- The computed distance of a ramp, constant after its end. -/
noncomputable def Ramp.held (b : Ramp) (τ : ℝ) : ℝ := if τ ≤ b.dur then b.dist τ else b.len

/-- What is used of a ramp that slows down from `v` to rest. -/
structure Brake (b : Ramp) (v : ℝ) : Prop where
  dur_nonneg : 0 ≤ b.dur
  dur_le : b.dur ≤ 6045 / 10000
  len_nonneg : 0 ≤ b.len
  len_le : b.len ≤ 31 / 100 * v
  zero : b.dist 0 = 0
  rises : ∀ τ τ', 0 ≤ τ → τ ≤ τ' → b.held τ ≤ b.held τ' + 13 / 10 ^ 5 ∧ b.held τ' ≤ b.held τ + v * (τ' - τ) + 13 / 10 ^ 5

theorem Ramp.Fine.held {b : Ramp} {V T Θ η : ℝ} (h : b.Fine V T (8 * eps * Θ) η) (hT : T ≤ Θ) {τ τ' : ℝ} (h0 : 0 ≤ τ) (h1 : τ ≤ τ') :
    b.held τ ≤ b.held τ' + (dip V T η + 203 / 100 * eps * (V * T)) ∧
    b.held τ' ≤ b.held τ + V * (τ' - τ) + (dip V T η + 203 / 100 * eps * (V * T)) := by
  have hV := h.V_pos
  have hT0 := h.T_pos
  have hep := eps_pos
  have he := abs_le.1 h.dur_err
  have hW : 0 < V * T := by positivity
  have hm : 0 ≤ eps * (V * T) := by positivity
  have hTT : eps * T ≤ eps * Θ := mul_le_mul_of_nonneg_left hT hep.le
  have h8 : 0 < eps * T := by positivity
  have hd0 : 0 ≤ dip V T η := by
    have := h.η_nonneg
    unfold dip; positivity
  have hv : 0 ≤ V * (τ' - τ) := mul_nonneg hV.le (by linarith)
  unfold Ramp.held
  by_cases c : τ' ≤ b.dur
  · rw [if_pos c, if_pos (h1.trans c)]
    obtain ⟨a, e⟩ := h.rises h0 h1 (by linarith)
    constructor <;> linarith
  · rw [if_neg c]
    push Not at c
    by_cases c' : τ ≤ b.dur
    · rw [if_pos c']
      have r1 := h.below h0 (by linarith)
      have r2 := (abs_le.1 (h.ends h0 (by linarith))).1
      have k1 : max (τ - (2 * b.D + b.d2)) 0 ≤ 203 / 100 * eps * T := max_le (by linarith) (by positivity)
      have k2 : |2 * b.D + b.d2 - τ| ≤ (τ' - τ) + 203 / 100 * eps * T := by
        rw [abs_le]; constructor <;> linarith
      have k3 := mul_le_mul_of_nonneg_left k1 hV.le
      have k4 := mul_le_mul_of_nonneg_left k2 hV.le
      constructor <;> linarith
    · rw [if_neg c']
      constructor <;> linarith

namespace Straight32
variable {x d : Nat → ℝ} {L v : ℝ}

/-- A long line: the motion reaches its speed, with limited jerk. -/
theorem reaches (h : Straight32 x d L) (hv : Speed d L v) (hl : 127 / 100 * v ≤ L) :
    speed32 (rnd L) v (acc d L) (acc d L) = v ∧ order32 (rnd L) v (acc d L) (acc d L) 600 = .secondOrder ∧
    rampTime v (acc d L) (acc d L) 600 ≤ 604 / 1000 ∧
    ramps32 v (acc d L) (acc d L) 600 .secondOrder ≤ 6222 / 10000 * v := by
  have hm := h.moderate hv
  have hge := hv.ge
  have h52 := h.speed_le hv
  have ha := h.acc_bounds
  have hL : 126 / 100 * v ≤ rnd L := by have := h.Lf.1; unfold eps at this; linarith
  have htri : ¬ tri32 (rnd L) (acc d L) (acc d L) < v := by
    intro hc
    have hn := hm.tri_near.ge
    have ha0 := hm.a_pos
    have e : 2 * rnd L * acc d L * acc d L / (acc d L + acc d L) = rnd L * acc d L := by field_simp; ring
    rw [e] at hn
    have t0 : 0 ≤ tri32 (rnd L) (acc d L) (acc d L) := rnd_nonneg (Real.sqrt_nonneg _)
    have h1 : tri32 (rnd L) (acc d L) (acc d L) ^ 2 ≤ v ^ 2 := pow_le_pow_left₀ t0 hc.le 2
    have h2 : 126 / 100 * v * (1999 / 10) ≤ rnd L * acc d L := mul_le_mul hL ha.1 (by norm_num) (by linarith)
    have h3 : v ^ 2 ≤ 52 * v := by nlinarith
    unfold eps at hn
    linarith
  have hsp : speed32 (rnd L) v (acc d L) (acc d L) = v := by unfold speed32; rw [if_neg htri]
  have hT : rampTime v (acc d L) (acc d L) 600 ≤ 604 / 1000 := by
    have hr := (h.rise_le hv).1
    unfold rise at hr
    rw [max_self] at hr
    unfold rampTime scale
    rw [max_self]
    linarith
  have hr : ramps32 v (acc d L) (acc d L) 600 .secondOrder ≤ 6222 / 10000 * v := by
    have h1 := Moderate.ramps_le (o := .secondOrder) (hsp ▸ hm.sizes_a) (hsp ▸ hm.sizes_d)
      (rfl : rampTime v (acc d L) (acc d L) 600 = _)
    have h2 := mul_le_mul_of_nonneg_left hT (show 0 ≤ v by linarith)
    linarith
  refine ⟨hsp, ?_, hT, hr⟩
  have hf : firstChoice32 (rnd L) v (acc d L) (acc d L) = .secondOrder := by unfold firstChoice32; rw [if_neg htri]
  unfold order32
  rw [hf, hsp, if_neg]
  push Not
  linarith

/-- The ramp at the end of the motion. -/
theorem brake (h : Straight32 x d L) (hv : Speed d L v) (hl : 127 / 100 * v ≤ L) :
    Brake (down v (acc d L) 600 .secondOrder) v := by
  obtain ⟨e1, e2, hT, -⟩ := h.reaches hv hl
  have hm := h.moderate hv
  have hge := hv.ge
  have h52 := h.speed_le hv
  have hsz : Sizes v (acc d L) 600 := e1 ▸ hm.sizes_d
  obtain ⟨ht, -, -⟩ := hm.trip (V := v) (T := rampTime v (acc d L) (acc d L) 600) (o := .secondOrder) e1.symm rfl e2.symm rfl rfl
  have hf := ht.hr
  have hTΘ := ht.le
  obtain ⟨T1, b1, f1, -, -⟩ := fits hsz .secondOrder
  have hok := f1.ok_down hsz
  have c1 : T1 ≤ rampTime v (acc d L) (acc d L) 600 := b1.trans (le_max_left _ _)
  have hlb := (Moderate.len_bound hsz f1).2
  have hT0 := hok.T_pos
  have hW : v * T1 ≤ v * (604 / 1000) := mul_le_mul_of_nonneg_left (c1.trans hT) (by linarith)
  have hW2 : v * rampTime v (acc d L) (acc d L) 600 ≤ 52 * (604 / 1000) :=
    mul_le_mul h52 hT (hT0.le.trans c1) (by norm_num)
  have hlate : Moderate.slowness (rnd L) v 600 * (v * rampTime v (acc d L) (acc d L) 600) ≤ 9165000 := by
    have e : v * rampTime v (acc d L) (acc d L) 600 = Props.rampDistance v (acc d L) (acc d L) 600 := by
      unfold rampTime scale Props.rampDistance
      rw [max_self, max_self]
    rw [e]
    unfold Moderate.slowness
    rcases h.late_le hv (u := 1) (by norm_num) le_rfl with c | c
    · linarith
    · linarith [c.2.1]
  refine ⟨hok.dur_nonneg, ?_, ht.len_nonneg.2, by linarith, hok.dist_zero, fun τ τ' h0 h1 => ?_⟩
  · have h2 := (abs_le.1 hok.dur_err).2
    have h3 := hok.total
    have : eps * T1 ≤ eps * 1 := mul_le_mul_of_nonneg_left (by linarith) eps_pos.le
    unfold eps at *
    linarith
  · obtain ⟨r1, r2⟩ := hf.held hTΘ h0 h1
    have hd : dip v (rampTime v (acc d L) (acc d L) 600) (66 * eps ^ 2 * (Moderate.slowness (rnd L) v 600 + 10000) * v) +
        203 / 100 * eps * (v * rampTime v (acc d L) (acc d L) 600) ≤ 13 / 10 ^ 5 := by
      unfold dip
      have e : 66 * eps ^ 2 * (Moderate.slowness (rnd L) v 600 + 10000) * v * rampTime v (acc d L) (acc d L) 600 =
        66 * eps ^ 2 * (Moderate.slowness (rnd L) v 600 * (v * rampTime v (acc d L) (acc d L) 600)) +
          660000 * eps ^ 2 * (v * rampTime v (acc d L) (acc d L) 600) := by ring
      rw [e]
      unfold eps
      norm_num
      linarith
    constructor <;> linarith

/-- Where the motion is when it is stopped. -/
structure Stop (L v S₀ t : ℝ) : Prop where
  float : rnd S₀ = S₀
  floatT : rnd t = t
  nonneg : 0 ≤ S₀
  pos : 0 < t
  room : S₀ + 62 / 100 * v ≤ L
  near : S₀ ≤ v * t + 1 / 1000
  far : v * t ≤ S₀ + 61 / 100 * v

set_option maxHeartbeats 1000000 in
/-- The stopped motion, and the distance at which it is stopped. -/
theorem halts (h : Straight32 x d L) (hv : Speed d L v) {D : ℝ} {S : ℝ → ℝ} (hl : Law d L v D S) {p : Profile32} {f : Single}
    (hp : Props.Between p f (num 0) (rnd L) v (acc d L) (acc d L) 600)
    (hS : ∀ t, rnd t = t → (p.plan (num (rnd L)) f (num 0) .maximizeSpeed).s (num t) = num (S t))
    {M : Machine} (hM : M.minLengthSProfile = 0) {o : Overrides} {X : Path32} (hX : X.type.moves = true)
    (hXL : X.trajectory.length = num (rnd L)) {t : ℝ} (ht : rnd t = t) (t0 : 61 / 100 ≤ t) (t1 : v * (t + 66 / 100) ≤ L) :
    (MotionItem32.optimizeAt M o .minimizeSpeed (num t) X (p.plan (num (rnd L)) f (num 0) .maximizeSpeed)).Halts
      (down v (acc d L) 600 .secondOrder) (S t) t ∧ Stop L v (S t) t := by
  have hge := hv.ge
  have h52 := h.speed_le hv
  have hlong : 127 / 100 * v ≤ L := by nlinarith
  obtain ⟨e1, e2, hT, hramps⟩ := h.reaches hv hlong
  have hb := h.brake hv hlong
  have hm := h.moderate hv
  have ha := h.acc_bounds
  have hsz : Sizes v (acc d L) 600 := e1 ▸ hm.sizes_d
  have hQ := hm.Q_near.pos (by have := hm.product; linarith) (by norm_num)
  have had := hm.sum_near.pos (by linarith [hm.a_pos, hm.d_pos]) (by norm_num)
  have hplan := plan32 hp.rest hm.L_float hm.L_pos hm.a_pos hm.d_pos hm.v_pos hm.L_pos.le hp.speed hQ had hm.sizes_a hm.sizes_d
  rw [e1, e2] at hplan
  have hkeep : (p.plan (num (rnd L)) f (num 0) .maximizeSpeed).aMax = num (acc d L) ∧
      (p.plan (num (rnd L)) f (num 0) .maximizeSpeed).dMax = num (-acc d L) ∧
      (p.plan (num (rnd L)) f (num 0) .maximizeSpeed).jMax = num 600 ∧
      (p.plan (num (rnd L)) f (num 0) .maximizeSpeed).right.vEnd = num 0 := by
    unfold Profile32.plan
    rw [chooseSpeed32 hp.rest hm.L_float hm.L_pos hm.a_pos hm.d_pos hm.v_pos hm.L_pos.le hp.speed hQ had]
    obtain ⟨-, -, c3⟩ := setPhases32 hp.rest hm.sizes_a hm.sizes_d (firstChoice32 (rnd L) v (acc d L) (acc d L))
    obtain ⟨-, -, b3⟩ := setPhases32 c3 hm.sizes_a hm.sizes_d .firstOrder
    simp only
    split_ifs
    · exact ⟨b3.aMax, b3.dMax, b3.jMax, b3.end_⟩
    · exact ⟨c3.aMax, c3.dMax, c3.jMax, c3.end_⟩
  generalize p.plan (num (rnd L)) f (num 0) .maximizeSpeed = q at *
  -- the first ramp is over
  obtain ⟨T1, b1, f1, -, -⟩ := fits hsz .secondOrder
  have hup := f1.ok_up hsz
  have hn := Moderate.ramps_nonneg hup (f1.ok_down hsz)
  have c1 : T1 ≤ rampTime v (acc d L) (acc d L) 600 := b1.trans (le_max_left _ _)
  have hT0 := hup.T_pos
  have k1 : (up v (acc d L) 600 .secondOrder).dur < t := by
    have h2 := (abs_le.1 hup.dur_err).2
    have h3 := hup.total
    have : eps * T1 ≤ eps * 1 := mul_le_mul_of_nonneg_left (by linarith) eps_pos.le
    unfold eps at *
    linarith
  have hdur0 := hup.dur_nonneg
  -- the cruise is not
  have hLf := h.Lf
  have hL520 := h.L_le
  have htiny := tiny_small
  have hy : |rnd (rnd L - ramps32 v (acc d L) (acc d L) 600 .secondOrder) -
      (rnd L - ramps32 v (acc d L) (acc d L) 600 .secondOrder)| ≤ 4 / 10 ^ 5 := by
    have h1 := rnd_err (rnd L - ramps32 v (acc d L) (acc d L) 600 .secondOrder)
    have h2 : |rnd L - ramps32 v (acc d L) (acc d L) 600 .secondOrder| ≤ 521 := by
      rw [abs_le]; unfold eps at hLf; constructor <;> linarith [hn.2.2]
    unfold eps at h1
    norm_num at *
    linarith
  have hvt : v * t ≤ rnd (rnd L - ramps32 v (acc d L) (acc d L) 600 .secondOrder) := by
    have := (abs_le.1 hy).1
    unfold eps at hLf
    norm_num at *
    nlinarith
  have hv0 : 0 < v := by linarith
  have k2 : rnd (t - (up v (acc d L) 600 .secondOrder).dur) ≤
      rnd (rnd (rnd L - ramps32 v (acc d L) (acc d L) 600 .secondOrder) / v) := by
    refine rnd_mono ?_
    rw [le_div_iff₀ hv0]
    nlinarith
  have hvq : q.v (num t) = num v := by
    unfold Profile32.v
    simp only [hplan.doneDuration, hplan.left.duration, hplan.mid, le_num, num_sub, sub_zero, ht, decide_eq_true_eq]
    rw [if_neg (by linarith), if_neg (by linarith), if_pos k2]
    rfl
  have hsq : num (S t) = num (rnd ((up v (acc d L) 600 .secondOrder).len +
      rnd (v * rnd (t - (up v (acc d L) 600 .secondOrder).dur)))) := by
    rw [← hS t ht, hplan.s ht]
    unfold tripS
    rw [if_neg (by linarith), if_neg (by linarith), if_pos k2]
  have hSt : S t = rnd ((up v (acc d L) 600 .secondOrder).len +
      rnd (v * rnd (t - (up v (acc d L) 600 .secondOrder).dur))) := Num.fin.inj (congrArg Single.val hsq)
  have hSf : rnd (S t) = S t := by rw [hSt, rnd_rnd]
  have hS0 : 0 ≤ S t := by
    rw [hSt]
    exact rnd_nonneg (add_nonneg hn.1 (rnd_nonneg (mul_nonneg hv0.le (rnd_nonneg (by linarith)))))
  have htD : t ≤ D := by
    by_contra hc
    push Not at hc
    have h1 := (hl.rises 0 D le_rfl hl.pos.le le_rfl).2
    have h2 := (abs_le.1 hl.ends).1
    obtain ⟨i, hi, htop⟩ := most_attained h.top_pos
    have htop : |dir d L i| = top d L := htop
    have h3 := (h.sizes hv hi).2.1
    have hdr := h.drift_nonneg hv
    rw [htop] at h3
    have h4 : Props.drift (rnd L) v (acc d L) (acc d L) 600 ≤ 1 / 1000 := by
      have := mul_le_mul_of_nonneg_right h.top_ge hdr
      norm_num at h3 ⊢
      linarith
    rw [hl.zero] at h1
    have h5 := mul_le_mul_of_nonneg_left hc.le hv0.le
    unfold eps at hLf
    linarith
  have hSle : S t ≤ v * t + 1 / 1000 := by
    have h1 := (hl.rises 0 t le_rfl (by linarith) htD).2
    obtain ⟨i, hi, htop⟩ := most_attained h.top_pos
    have htop : |dir d L i| = top d L := htop
    have h3 := (h.sizes hv hi).2.1
    have hdr := h.drift_nonneg hv
    rw [htop] at h3
    have h4 : Props.drift (rnd L) v (acc d L) (acc d L) 600 ≤ 1 / 1000 := by
      have := mul_le_mul_of_nonneg_right h.top_ge hdr
      norm_num at h3 ⊢
      linarith
    rw [hl.zero] at h1
    linarith
  have hSge : v * t ≤ S t + 61 / 100 * v := by
    have hd : (up v (acc d L) 600 .secondOrder).dur ≤ 605 / 1000 := by
      have h2 := (abs_le.1 hup.dur_err).2
      have h3 := hup.total
      have : eps * T1 ≤ eps * 1 := mul_le_mul_of_nonneg_left (by linarith) eps_pos.le
      unfold eps at *
      linarith
    have hvt2 : v * t ≤ 521 := by linarith
    have r1 := (abs_le.1 (rnd_err (t - (up v (acc d L) 600 .secondOrder).dur))).1
    rw [abs_of_nonneg (by linarith)] at r1
    have r2 : v * (t - 605 / 1000) - 4 / 10 ^ 5 ≤ v * rnd (t - (up v (acc d L) 600 .secondOrder).dur) := by
      have q1 : t - 605 / 1000 - (eps * t + tiny) ≤ rnd (t - (up v (acc d L) 600 .secondOrder).dur) := by
        have := mul_nonneg eps_pos.le hdur0
        linarith
      have q2 := mul_le_mul_of_nonneg_left q1 hv0.le
      have q3 : v * (t - 605 / 1000 - (eps * t + tiny)) = v * (t - 605 / 1000) - eps * (v * t) - v * tiny := by ring
      rw [q3] at q2
      have q4 := mul_le_mul h52 htiny tiny_pos.le (by norm_num)
      have q5 := mul_le_mul_of_nonneg_left hvt2 eps_pos.le
      unfold eps at *
      norm_num at *
      linarith
    have r3 : v * rnd (t - (up v (acc d L) 600 .secondOrder).dur) ≤ 522 := by
      have q1 := rnd_mono (show t - (up v (acc d L) 600 .secondOrder).dur ≤ t by linarith)
      rw [ht] at q1
      have := mul_le_mul_of_nonneg_left q1 hv0.le
      linarith
    have r4 := (abs_le.1 (rnd_err (v * rnd (t - (up v (acc d L) 600 .secondOrder).dur)))).1
    have n1 : 0 ≤ v * rnd (t - (up v (acc d L) 600 .secondOrder).dur) := mul_nonneg hv0.le (rnd_nonneg (by linarith))
    rw [abs_of_nonneg n1] at r4
    have r5 : rnd (v * rnd (t - (up v (acc d L) 600 .secondOrder).dur)) ≤ S t := by
      rw [hSt, ← rnd_rnd (v * rnd (t - (up v (acc d L) 600 .secondOrder).dur)), ← rnd_rnd (v * rnd (t - (up v (acc d L) 600 .secondOrder).dur))]
      refine rnd_mono ?_
      rw [rnd_rnd, rnd_rnd]
      linarith [hn.1]
    unfold eps at r4
    norm_num at *
    linarith
  have hstop : Stop L v (S t) t := ⟨hSf, ht, hS0, by linarith, by linarith, hSle, hSge⟩
  refine ⟨?_, hstop⟩
  have hrest : 63 / 100 * v ≤ rnd (rnd L - S t) ∧ rnd (rnd L - S t) ≤ 522 := by
    have h1 : 64 / 100 * v ≤ rnd L - S t := by unfold eps at hLf; linarith
    have h2 : rnd L - S t ≤ 521 := by unfold eps at hLf; linarith
    have h3 := abs_le.1 (rnd_err (rnd L - S t))
    rw [abs_of_nonneg (by linarith)] at h3
    unfold eps at h3
    norm_num at htiny
    constructor <;> linarith
  have hq2 : 0 < rnd (rnd (600 * rnd (acc d L / 600)) * rnd (acc d L / 600)) := by
    have h2 : rnd ((2 : ℝ) ^ (-2 : ℤ)) = 2 ^ (-2 : ℤ) := rnd_pow (by norm_num)
    have h4 : rnd ((2 : ℝ) ^ (-4 : ℤ)) = 2 ^ (-4 : ℤ) := rnd_pow (by norm_num)
    have e2 : (2 : ℝ) ^ (-2 : ℤ) = 1 / 4 := by norm_num [zpow_neg]
    have e4 : (2 : ℝ) ^ (-4 : ℤ) = 1 / 16 := by norm_num [zpow_neg]
    rw [e2] at h2
    rw [e4] at h4
    have b1 : 1 / 4 ≤ rnd (acc d L / 600) := by
      rw [← h2]; exact rnd_mono (by linarith)
    have b2 : 1 / 4 ≤ rnd (600 * rnd (acc d L / 600)) := by
      rw [← h2]; exact rnd_mono (by linarith)
    have b3 : 1 / 16 ≤ rnd (rnd (600 * rnd (acc d L / 600)) * rnd (acc d L / 600)) := by
      rw [← h4]; exact rnd_mono (by nlinarith)
    linarith
  have hlow : ∀ {y z : ℝ}, z ≤ y → 1 / 1000 ≤ z → 999 / 1000 * z ≤ rnd y := by
    intro y z hyz hz
    have h1 := (abs_le.1 (rnd_err y)).1
    rw [abs_of_nonneg (by linarith)] at h1
    unfold eps at h1
    norm_num at htiny
    linarith
  have hhigh : ∀ {y z : ℝ}, y ≤ z → 0 ≤ y → 1 / 1000 ≤ z → rnd y ≤ 1001 / 1000 * z := by
    intro y z hyz hy hz
    have h1 := (abs_le.1 (rnd_err y)).2
    rw [abs_of_nonneg hy] at h1
    unfold eps at h1
    norm_num at htiny
    linarith
  have hfar : rnd (rnd (v * v) * acc d L) < rnd (rnd (rnd (2 * rnd (rnd L - S t)) * acc d L) * acc d L) := by
    have hva : 9 / 100 * (1999 / 10) ≤ v * acc d L := mul_le_mul hge ha.1 (by norm_num) hv0.le
    have a1 : rnd (v * v) ≤ 1001 / 1000 * (52 * v) := hhigh (mul_le_mul_of_nonneg_right h52 hv0.le) (by positivity) (by linarith)
    have a1' : 0 ≤ rnd (v * v) := rnd_nonneg (by positivity)
    have a2 : rnd (rnd (v * v) * acc d L) ≤ 1001 / 1000 * (1001 / 1000 * (52 * v) * acc d L) :=
      hhigh (mul_le_mul_of_nonneg_right a1 (by linarith)) (mul_nonneg a1' (by linarith)) (by linarith)
    have d1 : 999 / 1000 * (126 / 100 * v) ≤ rnd (2 * rnd (rnd L - S t)) := hlow (by linarith [hrest.1]) (by linarith)
    have d2 : 999 / 1000 * (999 / 1000 * (126 / 100 * v) * (1999 / 10)) ≤ rnd (rnd (2 * rnd (rnd L - S t)) * acc d L) :=
      hlow (mul_le_mul d1 ha.1 (by norm_num) (by linarith)) (by linarith)
    have d3 : 999 / 1000 * (999 / 1000 * (999 / 1000 * (126 / 100 * v) * (1999 / 10)) * acc d L) ≤
        rnd (rnd (rnd (2 * rnd (rnd L - S t)) * acc d L) * acc d L) :=
      hlow (mul_le_mul_of_nonneg_right d2 (by linarith)) (by linarith)
    refine lt_of_le_of_lt a2 (lt_of_lt_of_le ?_ d3)
    linarith
  unfold MotionItem32.optimizeAt MotionItem32.optimize
  simp only [hX, if_true, hXL, hM]
  refine Profile32.plan_halt hsz ?_ rfl hvq hkeep.2.2.2 hkeep.1 hkeep.2.1 hkeep.2.2.1 hm.L_pos.le hq2 hfar ?_
  · show Profile32.s _ (num t) = num (S t)
    rw [hSt]
    unfold Profile32.s
    simp only [AccDec.setvStart, hplan.doneDuration, hplan.doneLength, hplan.left.duration, hplan.left.length, hplan.mid, le_num, num_sub,
      num_add, sub_zero, zero_add, ht, decide_eq_true_eq, Cruise.s, num_mul, Ramp.len_float]
    rw [if_neg (by linarith), if_neg (by linarith), if_pos k2]
  · have := hb.len_le
    linarith [hrest.1]

variable {b : Ramp} {S₀ t : ℝ}

theorem haltS_eq (hb : Brake b v) (hS : rnd S₀ = S₀) (u : ℝ) :
    haltS b S₀ t u = rnd (S₀ + b.held (rnd (min (max (u - t) 0) 1))) := by
  have h1 : rnd (1 : ℝ) = 1 := by have := rnd_int (m := 1) (by norm_num); simpa using this
  have hd := hb.dur_le
  unfold haltS
  split_ifs with c c'
  · rw [max_eq_right (by linarith), min_eq_left (by norm_num), rnd_zero]
    unfold Ramp.held
    rw [if_pos hb.dur_nonneg, hb.zero, add_zero, hS]
  · rw [max_eq_left (by linarith), min_eq_left]
    · unfold Ramp.held; rw [if_pos c']
    · by_contra hc
      push Not at hc
      have := rnd_mono hc.le
      rw [h1] at this
      linarith
  · rw [max_eq_left (by linarith)]
    unfold Ramp.held
    rcases le_total (u - t) 1 with c1 | c1
    · rw [min_eq_left c1, if_neg c']
    · rw [min_eq_right c1, h1, if_neg (by linarith)]

theorem held_range (hb : Brake b v) {τ : ℝ} (h0 : 0 ≤ τ) : -(13 / 10 ^ 5) ≤ b.held τ ∧ b.held τ ≤ b.len + 13 / 10 ^ 5 := by
  have h1 := (hb.rises 0 τ le_rfl h0).1
  have h2 := (hb.rises τ (τ + 1) h0 (by linarith)).1
  have e0 : b.held 0 = 0 := by unfold Ramp.held; rw [if_pos hb.dur_nonneg, hb.zero]
  have e1 : b.held (τ + 1) = b.len := by
    have := hb.dur_le
    unfold Ramp.held; rw [if_neg (by linarith)]
  rw [e0] at h1
  rw [e1] at h2
  constructor <;> linarith

/-- The error of a rounded distance. -/
theorem rnd_mm {y : ℝ} (h0 : -1 ≤ y) (h1 : y ≤ 520) : |rnd y - y| ≤ 311 / 10 ^ 7 := by
  have h2 := rnd_err y
  have h3 : |y| ≤ 520 := abs_le.2 ⟨by linarith, h1⟩
  have := tiny_small
  unfold eps at h2
  norm_num at *
  linarith

theorem rnd_unit {y : ℝ} (h0 : 0 ≤ y) (h1 : y ≤ 1) : |rnd y - y| ≤ 6 / 10 ^ 8 := by
  have h2 := rnd_err y
  rw [abs_of_nonneg h0] at h2
  have := tiny_small
  unfold eps at h2
  norm_num at *
  linarith

theorem Stop.range (h : Straight32 x d L) (hv : Speed d L v) (hb : Brake b v) (hs : Stop L v S₀ t) (u : ℝ) :
    S₀ - 2 / 10 ^ 4 ≤ haltS b S₀ t u ∧ haltS b S₀ t u ≤ S₀ + b.len + 2 / 10 ^ 4 := by
  rw [haltS_eq hb hs.float]
  obtain ⟨a, c⟩ := held_range hb (rnd_nonneg (show 0 ≤ min (max (u - t) 0) 1 from le_min (le_max_right _ _) (by norm_num)))
  have hl := hb.len_le
  have hr := hs.room
  have h0 := hs.nonneg
  have hge := hv.ge
  have hL := h.L_le
  generalize b.held (rnd (min (max (u - t) 0) 1)) = y at *
  norm_num at a c
  have e := abs_le.1 (rnd_mm (y := S₀ + y) (by linarith) (by linarith))
  norm_num at e ⊢
  constructor <;> linarith

theorem Stop.rises (h : Straight32 x d L) (hv : Speed d L v) (hb : Brake b v) (hs : Stop L v S₀ t) {u u' : ℝ} (huu : u ≤ u') :
    haltS b S₀ t u ≤ haltS b S₀ t u' + 2 / 10 ^ 4 ∧ haltS b S₀ t u' ≤ haltS b S₀ t u + v * (u' - u) + 2 / 10 ^ 4 := by
  rw [haltS_eq hb hs.float, haltS_eq hb hs.float]
  have n : ∀ u, 0 ≤ min (max (u - t) 0) 1 ∧ min (max (u - t) 0) 1 ≤ 1 :=
    fun u => ⟨le_min (le_max_right _ _) (by norm_num), min_le_right _ _⟩
  have m : min (max (u - t) 0) 1 ≤ min (max (u' - t) 0) 1 := min_le_min_right _ (max_le_max_right _ (by linarith))
  have w : min (max (u' - t) 0) 1 - min (max (u - t) 0) 1 ≤ u' - u := by
    have q : max (u' - t) 0 ≤ max (u - t) 0 + (u' - u) :=
      max_le (by linarith [le_max_left (u - t) 0]) (by linarith [le_max_right (u - t) 0])
    rcases le_total (max (u - t) 0) 1 with e | e
    · rw [min_eq_left e]; linarith [min_le_left (max (u' - t) 0) 1]
    · rw [min_eq_right e]; linarith [min_le_right (max (u' - t) 0) 1]
  have r1 := abs_le.1 (rnd_unit (n u).1 (n u).2)
  have r2 := abs_le.1 (rnd_unit (n u').1 (n u').2)
  have g1 := rnd_nonneg (n u).1
  have g2 := rnd_nonneg (n u').1
  have mm := rnd_mono m
  generalize min (max (u - t) 0) 1 = y at *
  generalize min (max (u' - t) 0) 1 = y' at *
  obtain ⟨k1, k2⟩ := hb.rises _ _ g1 mm
  obtain ⟨a, c⟩ := held_range hb g1
  obtain ⟨a', c'⟩ := held_range hb g2
  have hl := hb.len_le
  have hr := hs.room
  have h0 := hs.nonneg
  have hge := hv.ge
  have h52 := h.speed_le hv
  have hL := h.L_le
  generalize b.held (rnd y) = z at *
  generalize b.held (rnd y') = z' at *
  norm_num at a c a' c' k1 k2 r1 r2
  have e := abs_le.1 (rnd_mm (y := S₀ + z) (by linarith) (by linarith))
  have e' := abs_le.1 (rnd_mm (y := S₀ + z') (by linarith) (by linarith))
  have hvt : v * (rnd y' - rnd y) ≤ v * (u' - u) + 52 * (12 / 10 ^ 8) := by
    have q1 : rnd y' - rnd y ≤ (u' - u) + 12 / 10 ^ 8 := by norm_num; linarith
    have q2 := mul_le_mul_of_nonneg_left q1 (show 0 ≤ v by linarith)
    norm_num at q2 ⊢
    linarith
  norm_num at e e' hvt ⊢
  constructor <;> linarith

/-- After the stop time. -/
theorem Stop.ends (h : Straight32 x d L) (hv : Speed d L v) (hb : Brake b v) (hs : Stop L v S₀ t) {u : ℝ} (hu : rnd u = u)
    (htu : rnd (t + b.dur) < u) : |haltS b S₀ t u - (S₀ + b.len)| ≤ 2 / 10 ^ 4 := by
  have h1 : t + b.dur < u := by
    by_contra hc
    push Not at hc
    have := rnd_mono hc
    rw [hu] at this
    linarith
  have hone : rnd (1 : ℝ) = 1 := by have := rnd_int (m := 1) (by norm_num); simpa using this
  have hdf : rnd b.dur = b.dur := rnd_rnd _
  have h2 : b.dur ≤ rnd (min (max (u - t) 0) 1) := by
    rw [← hdf]
    refine rnd_mono (le_min ?_ (by linarith [hb.dur_le]))
    exact le_max_of_le_left (by linarith)
  have hh : -(13 / 10 ^ 5 + 52 / 10 ^ 8) ≤ b.held (rnd (min (max (u - t) 0) 1)) - b.len := by
    generalize rnd (min (max (u - t) 0) 1) = τ at *
    have k := (hb.rises τ (τ + 1 / 10 ^ 8) (hb.dur_nonneg.trans h2) (by norm_num)).2
    have e : b.held (τ + 1 / 10 ^ 8) = b.len := by
      unfold Ramp.held; rw [if_neg]; push Not; norm_num; linarith
    rw [e] at k
    have h52 := h.speed_le hv
    norm_num at k ⊢
    linarith
  rw [haltS_eq hb hs.float]
  obtain ⟨a, c⟩ := held_range hb (rnd_nonneg (show 0 ≤ min (max (u - t) 0) 1 from le_min (le_max_right _ _) (by norm_num)))
  have hl := hb.len_le
  have hr := hs.room
  have h0 := hs.nonneg
  have hge := hv.ge
  have hL := h.L_le
  generalize b.held (rnd (min (max (u - t) 0) 1)) = y at *
  norm_num at a c hh
  have e := abs_le.1 (rnd_mm (y := S₀ + y) (by linarith) (by linarith))
  rw [abs_le]
  norm_num at e ⊢
  constructor <;> linarith

theorem dir_reach (h : Straight32 x d L) {i : Nat} (hi : i < 3) : |dir d L i| * L ≤ 301 := by
  have hlen := h.dir_length hi
  have h3 := mul_le_mul_of_nonneg_left h.Lf.1 (abs_nonneg (dir d L i))
  have h4 : 0 ≤ |dir d L i| * L := mul_nonneg (abs_nonneg _) h.L_pos.le
  unfold eps at h3
  linarith

theorem Stop.moved (h : Straight32 x d L) (hv : Speed d L v) (hb : Brake b v) (hs : Stop L v S₀ t) {i : Nat} (hi : i < 3) (u : ℝ) :
    |dir d L i * haltS b S₀ t u| ≤ 301 := by
  obtain ⟨a, c⟩ := hs.range h hv hb u
  have hr := hs.room
  have hge := hv.ge
  have h0 := hs.nonneg
  have hl := hb.len_le
  have hL := h.L_pos
  rw [abs_mul]
  have k : |haltS b S₀ t u| ≤ L := by
    rw [abs_le]; norm_num at a c; constructor <;> linarith
  exact (mul_le_mul_of_nonneg_left k (abs_nonneg _)).trans (h.dir_reach hi)

theorem Stop.falls (h : Straight32 x d L) (hv : Speed d L v) (hb : Brake b v) (hs : Stop L v S₀ t) {fpu : Fpu} {i : Nat} (hi : i < 3)
    {u u' : ℝ} (huu : u ≤ u') :
    (0 ≤ dir d L i → spot fpu x d L i (haltS b S₀ t u) ≤ spot fpu x d L i (haltS b S₀ t u') + 31 / 10 ^ 5) ∧
    (dir d L i ≤ 0 → spot fpu x d L i (haltS b S₀ t u') ≤ spot fpu x d L i (haltS b S₀ t u) + 31 / 10 ^ 5) := by
  have a := abs_le.1 (h.spot_near (fpu := fpu) hi (hs.moved h hv hb hi u))
  have c := abs_le.1 (h.spot_near (fpu := fpu) hi (hs.moved h hv hb hi u'))
  have r := (hs.rises h hv hb huu).1
  have h1 := h.dir_le hi
  constructor
  · intro hd
    rw [abs_of_nonneg hd] at h1
    have := mul_le_mul_of_nonneg_left r hd
    norm_num at *
    linarith
  · intro hd
    rw [abs_of_nonpos hd] at h1
    have := mul_le_mul_of_nonneg_left r (neg_nonneg.2 hd)
    norm_num at *
    linarith

theorem Stop.rate (h : Straight32 x d L) (hv : Speed d L v) (hb : Brake b v) (hs : Stop L v S₀ t) {fpu : Fpu} {i : Nat} (hi : i < 3)
    {u u' : ℝ} (huu : u ≤ u') :
    |spot fpu x d L i (haltS b S₀ t u') - spot fpu x d L i (haltS b S₀ t u)| ≤ |dir d L i| * (v * (u' - u)) + 31 / 10 ^ 5 := by
  have a := abs_le.1 (h.spot_near (fpu := fpu) hi (hs.moved h hv hb hi u))
  have c := abs_le.1 (h.spot_near (fpu := fpu) hi (hs.moved h hv hb hi u'))
  obtain ⟨r1, r2⟩ := hs.rises h hv hb huu
  have h1 := h.dir_le hi
  have hvt : 0 ≤ v * (u' - u) := mul_nonneg (le_trans (by norm_num) hv.ge) (by linarith)
  have h3 : |haltS b S₀ t u' - haltS b S₀ t u| ≤ v * (u' - u) + 2 / 10 ^ 4 := by
    rw [abs_le]; constructor <;> linarith
  have h4 : |dir d L i * haltS b S₀ t u' - dir d L i * haltS b S₀ t u| ≤ |dir d L i| * (v * (u' - u)) + 2 / 10 ^ 4 := by
    rw [← mul_sub, abs_mul]
    have := mul_le_mul_of_nonneg_left h3 (abs_nonneg (dir d L i))
    norm_num at *
    linarith
  have h5 := abs_le.1 h4
  rw [abs_le]
  norm_num at *
  constructor <;> linarith

/-- A distance near one on the line. -/
theorem Stop.line (h : Straight32 x d L) (hv : Speed d L v) (hb : Brake b v) (hs : Stop L v S₀ t) {fpu : Fpu} {i : Nat} (hi : i < 3)
    {u s : ℝ} (h0 : S₀ ≤ s) (h1 : s ≤ S₀ + b.len) (he : |haltS b S₀ t u - s| ≤ 2 / 10 ^ 4) :
    |spot fpu x d L i (haltS b S₀ t u) - (x i + d i * (s / L))| ≤ 3 / 10 ^ 4 := by
  have hl := hb.len_le
  have hr := hs.room
  have hge := hv.ge
  have hn := hs.nonneg
  have k := mul_le_mul (h.dir_le hi) he (abs_nonneg _) (by norm_num)
  have := h.near_line (fpu := fpu) hi (hs.moved h hv hb hi u) (hn.trans h0) (by linarith) k
  refine this.trans ?_
  norm_num

/-- The motion would still go on after the stop. -/
theorem Law.past (h : Straight32 x d L) (hv : Speed d L v) {D : ℝ} {S : ℝ → ℝ} (hl : Law d L v D S)
    (ht : v * (t + 66 / 100) ≤ L) : t + 62 / 100 ≤ D := by
  by_contra hc
  push Not at hc
  have hge := hv.ge
  have hLf := h.Lf
  have hL520 := h.L_le
  have h1 := (hl.rises 0 D le_rfl hl.pos.le le_rfl).2
  have h2 := (abs_le.1 hl.ends).1
  obtain ⟨i, hi, htop⟩ := most_attained h.top_pos
  have htop : |dir d L i| = top d L := htop
  have h3 := (h.sizes hv hi).2.1
  have hdr := h.drift_nonneg hv
  rw [htop] at h3
  have h4 : Props.drift (rnd L) v (acc d L) (acc d L) 600 ≤ 1 / 1000 := by
    have := mul_le_mul_of_nonneg_right h.top_ge hdr
    norm_num at h3 ⊢
    linarith
  rw [hl.zero] at h1
  have h5 := mul_le_mul_of_nonneg_left hc.le (show 0 ≤ v by linarith)
  unfold eps at hLf
  linarith

/-- When it is over. -/
theorem Stop.stop_time (h : Straight32 x d L) (hv : Speed d L v) (hb : Brake b v) (hs : Stop L v S₀ t)
    (ht : v * (t + 66 / 100) ≤ L) : t ≤ rnd (t + b.dur) ∧ rnd (t + b.dur) ≤ t + 61 / 100 := by
  have h0 := hs.pos
  have hge := hv.ge
  have hL520 := h.L_le
  have hd := hb.dur_le
  have hd0 := hb.dur_nonneg
  have ht6 : t ≤ 6000 := by
    have : 9 / 100 * (t + 66 / 100) ≤ v * (t + 66 / 100) := mul_le_mul_of_nonneg_right hge (by linarith)
    linarith
  constructor
  · have := rnd_mono (show t ≤ t + b.dur by linarith)
    rwa [hs.floatT] at this
  · have h1 := (abs_le.1 (rnd_err (t + b.dur))).2
    rw [abs_of_nonneg (by linarith)] at h1
    have := tiny_small
    unfold eps at h1
    norm_num at *
    linarith

end Straight32
end Moovr
