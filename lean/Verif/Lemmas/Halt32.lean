import Verif.Lemmas.Run32
import Verif.Lemmas.Drive32
/-!
# Stopping a motion in single precision while it cruises

`optimize` with the lowest speed, at a time `t` in the cruise at speed `V`: the motion brakes to rest with the same ramp as at its
planned end, and from then on stays where it is.
-/
namespace Moovr
open Num Float32 Single Ramp

/-- A float is a multiple of the smallest positive float. -/
theorem rnd_multiple (x : ℝ) : ∃ m : ℤ, rnd x = m * 2 ^ (-149 : ℤ) := by
  obtain ⟨n, hn⟩ := Int.le.dest (expo_ge x)
  refine ⟨nearestEven (x / 2 ^ expo x) * 2 ^ n, ?_⟩
  have e : (2 : ℝ) ^ expo x = 2 ^ n * 2 ^ (-149 : ℤ) := by
    rw [← hn, zpow_add₀ (by norm_num), zpow_natCast, mul_comm]
  unfold rnd
  push_cast
  rw [e]
  ring

/-- The computed difference of different floats is not zero. -/
theorem sub_rnd_pos {x y : ℝ} (h : rnd x < rnd y) : 0 < rnd (rnd y - rnd x) := by
  obtain ⟨m, hm⟩ := rnd_multiple x
  obtain ⟨n, hn⟩ := rnd_multiple y
  have hp : (0 : ℝ) < 2 ^ (-149 : ℤ) := by positivity
  have h1 : m < n := by
    rw [hm, hn] at h
    exact_mod_cast lt_of_mul_lt_mul_right h hp.le
  have h2 : ((m : ℝ) + 1) ≤ n := by exact_mod_cast h1
  have h3 : (2 : ℝ) ^ (-149 : ℤ) ≤ rnd y - rnd x := by rw [hm, hn]; nlinarith
  have h4 := rnd_mono h3
  rw [rnd_pow le_rfl] at h4
  linarith

/-- The duration of a phase at rest. -/
theorem AccDec.rest32_duration {p : AccDec Single} {a j : ℝ} {o : Order} (hs : p.vStart = num 0) (he : p.vEnd = num 0)
    (hd : p.dMax = num (-a)) (hj : p.jMax = num j) (ha : a ≠ 0) (hj0 : 0 < j) (hq : 0 < rnd (rnd (j * rnd (a / j)) * rnd (a / j))) :
    (p.calculate o).duration = num 0 := by
  have hlt : Arith.lt (num 0) (num 0) = false := by simp
  have hz : ((0 : ℚ) : ℝ) = 0 := by norm_num
  have h0 : rnd (0 : ℝ) = 0 := rnd_zero
  cases o with
  | firstOrder =>
    have hd2 : num 0 / num (-a) = num 0 := by rw [num_div (neg_ne_zero.2 ha), zero_div, h0]
    simp only [AccDec.calculate, AccDec.calculateFirst, hs, he, hd, hlt, num_sub, num_add, lit_num, sub_self, add_zero, h0, hd2, hz,
      if_false, Bool.false_eq_true]
  | secondOrder =>
    have hdiv : num (- -a) / num j = num (rnd (a / j)) := by rw [num_div hj0.ne', neg_neg]
    have hlt2 : Arith.lt (num 0) (num (rnd (rnd (j * rnd (a / j)) * rnd (a / j)))) = true := by simp [hq]
    have hz2 : num 0 / num j = num 0 := by rw [num_div hj0.ne', zero_div, h0]
    have hsq : (Arith.sqrt (num 0) : Single) = num 0 := by rw [sqrt_num le_rfl, Real.sqrt_zero, h0]
    simp only [AccDec.calculate, AccDec.calculateDec, AccDec.finishSecond, hs, he, hd, hj, hlt, hlt2, num_sub, num_add,
      num_mul, num_neg, lit_num, sub_self, add_zero, zero_mul, h0, hdiv, hz2, hsq, hz, mul_zero, if_false, if_true,
      Bool.false_eq_true]

/-- A profile that brakes to rest with the ramp `b` from the time `t` and the distance `S₀` on. -/
structure Profile32.Halts (p : Profile32) (b : Ramp) (S₀ t : ℝ) : Prop where
  left : Computes p.left b
  doneLength : p.doneLength = num S₀
  doneDuration : p.doneDuration = num t
  mid : p.mid.vMid = num 0 ∧ p.mid.duration = ⟨posInf⟩
  duration : p.duration = ⟨posInf⟩
  tStop : p.tStop = num (rnd (t + b.dur))
  end_ : p.right.vEnd = num 0

open Classical in
/-- The computed distance when braking. -/
noncomputable def haltS (b : Ramp) (S₀ t u : ℝ) : ℝ :=
  if u ≤ t then S₀ else if rnd (u - t) ≤ b.dur then rnd (S₀ + b.dist (rnd (u - t))) else rnd (S₀ + b.len)

theorem Profile32.Halts.s {p : Profile32} {b : Ramp} {S₀ t u : ℝ} (h : p.Halts b S₀ t) :
    p.s (num u) = num (haltS b S₀ t u) := by
  have hle : ∀ x : ℝ, (num x).le ⟨posInf⟩ = true := fun _ => rfl
  unfold Profile32.s haltS
  simp only [h.doneDuration, h.doneLength, h.left.duration, h.left.length, h.mid.1, h.mid.2, le_num, num_sub, num_add,
    decide_eq_true_eq, h.left.s, Cruise.s, num_mul, hle, if_true, zero_mul, rnd_zero, add_zero, rnd_rnd]
  split_ifs <;> rfl

/-- Planning with the lowest speed from the speed `V` on, at the distance `S₀`. -/
theorem Profile32.plan_halt {p : Profile32} {L l a j V S₀ t : ℝ} {f : Single} (hsz : Sizes V a j) (hS : p.doneLength = num S₀)
    (ht : p.doneDuration = num t) (hv : p.left.vStart = num V) (he : p.right.vEnd = num 0) (ha : p.aMax = num a)
    (hd : p.dMax = num (-a)) (hj : p.jMax = num j) (hl : l ≤ L) (hq : 0 < rnd (rnd (j * rnd (a / j)) * rnd (a / j)))
    (hfar : rnd (rnd (V * V) * a) < rnd (rnd (rnd (2 * rnd (L - S₀)) * a) * a))
    (hroom : (down V a j .secondOrder).len < rnd (L - S₀)) :
    (p.plan (num L) f (num l) .minimizeSpeed).Halts (down V a j .secondOrder) S₀ t := by
  have hz : rnd (0 : ℝ) = 0 := rnd_zero
  have a0 := hsz.a_pos
  have j0 := hsz.j_pos
  have hsub : num L - p.doneLength = num (rnd (L - S₀)) := by rw [hS, num_sub]
  have hmin : Profile32.vTri p.left.vStart p.right.vEnd p.aMax p.dMax (num L - p.doneLength) .minimizeSpeed = num 0 := by
    rw [hsub]
    simp only [Profile32.vTri, hv, he, ha, hd, num_mul, num_sub, num_add, zero_mul, hz, mul_neg, rnd_neg,
      neg_zero, sub_zero, rnd_rnd, le_num, decide_eq_true_eq]
    rw [if_neg]
    have h1 : rnd (-rnd (rnd (rnd (2 * rnd (L - S₀)) * a) * a) + rnd (rnd (V * V) * a)) < 0 := by
      have hx := sub_rnd_pos hfar
      rw [show -rnd (rnd (rnd (2 * rnd (L - S₀)) * a) * a) + rnd (rnd (V * V) * a) =
        -(rnd (rnd (rnd (2 * rnd (L - S₀)) * a) * a) - rnd (rnd (V * V) * a)) by ring, rnd_neg]
      linarith
    linarith
  have hc : p.chooseSpeed (num L) f (num l) .minimizeSpeed = (num 0, .secondOrder) := by
    unfold Profile32.chooseSpeed
    simp only [hmin, lt_num, lt_irrefl, decide_false, Bool.false_eq_true, if_false, not_lt.2 hl]
  have hm := members_down hsz (p := (p.left.setMax p.aMax p.dMax p.jMax).setvEnd (num 0)) hv rfl hd hj .secondOrder
  have el := hm.computes_down
  have er := AccDec.rest32 (p := (p.right.setMax p.aMax p.dMax p.jMax).setvStart (num 0)) (o := .secondOrder) rfl he hd hj
      a0.ne' j0 hq
  have ed := AccDec.rest32_duration (p := (p.right.setMax p.aMax p.dMax p.jMax).setvStart (num 0)) (o := .secondOrder) rfl he hd hj
      a0.ne' j0 hq
  have hcond : ((num L - (p.setPhases (num 0) .secondOrder).doneLength).lt
      ((p.setPhases (num 0) .secondOrder).left.length + (p.setPhases (num 0) .secondOrder).right.length)) = false := by
    show (num L - p.doneLength).lt (_ + _) = _
    rw [hsub]
    erw [el.length, er.2.2.1]
    rw [num_add, add_zero, Ramp.len_float, lt_num]
    simpa using hroom.le
  have hplan : p.plan (num L) f (num l) .minimizeSpeed = (p.setPhases (num 0) .secondOrder).finish (num L) (num 0) := by
    unfold Profile32.plan
    rw [hc]
    simp only [hcond, Bool.false_eq_true, if_false]
  have hml : (num L - (p.setPhases (num 0) .secondOrder).doneLength) -
      ((p.setPhases (num 0) .secondOrder).left.length + (p.setPhases (num 0) .secondOrder).right.length) =
      num (rnd (rnd (L - S₀) - (down V a j .secondOrder).len)) := by
    show (num L - p.doneLength) - (_ + _) = _
    rw [hsub]
    erw [el.length, er.2.2.1]
    rw [num_add, add_zero, Ramp.len_float, num_sub]
  have hpos : 0 < rnd (rnd (L - S₀) - (down V a j .secondOrder).len) := by
    have e1 := Ramp.len_float (down V a j .secondOrder)
    rw [← e1] at hroom ⊢
    exact sub_rnd_pos hroom
  have hmd : num (rnd (rnd (L - S₀) - (down V a j .secondOrder).len)) / num 0 = ⟨posInf⟩ := by
    show (⟨round32 (Num.div (fin _) (fin 0))⟩ : Single) = _
    unfold Num.div
    simp only [if_true, infOfSign, if_pos hpos]
    rfl
  rw [hplan]
  refine ⟨el, hS, ht, ⟨rfl, ?_⟩, ?_, ?_, er.2.1⟩
  · show _ / num 0 = _
    rw [hml, hmd]
  · show p.doneDuration + _ + _ / num 0 + _ = _
    rw [hml, hmd, ht]
    erw [el.duration, ed]
    rfl
  · show (if (num 0).eq (num 0) then p.doneDuration + _ else _) = _
    rw [if_pos (by simp), ht]
    erw [el.duration]
    rw [num_add]

end Moovr
