import Verif.Lemmas.Link32
import Verif.Lemmas.Trip32
/-!
# Planning a motion between rests in single precision
-/
namespace Moovr
open Num Float32 Single Ramp

theorem Ramp.dist_float (r : Ramp) (t : ℝ) : rnd (r.dist t) = r.dist t := by
  unfold Ramp.dist dist1 dist2 dist3
  split_ifs <;> exact rnd_rnd _

theorem Ramp.len_float (r : Ramp) : rnd r.len = r.len := rnd_rnd _

/-- A profile computes the distance of two ramps with a cruise in between. -/
structure Profile32.Travels (p : Profile32) (l r : Ramp) (V m dm : ℝ) : Prop where
  left : Computes p.left l
  right : Computes p.right r
  mid : p.mid = ⟨num V, num m, num dm⟩
  doneLength : p.doneLength = num 0
  doneDuration : p.doneDuration = num 0
  duration : p.duration = num (tripDur l r dm)
  tStop : p.tStop = ⟨posInf⟩

theorem Profile32.Travels.s {p : Profile32} {l r : Ramp} {V m dm t : ℝ} (h : p.Travels l r V m dm) (ht : rnd t = t) :
    p.s (num t) = num (tripS l r V m dm t) := by
  unfold Profile32.s tripS
  simp only [h.doneDuration, h.doneLength, h.left.duration, h.left.length, h.mid, le_num, num_sub, num_add, sub_zero, zero_add, ht,
    decide_eq_true_eq, h.left.s, Ramp.dist_float, Cruise.s, num_mul, h.right.s, Ramp.len_float]
  split_ifs <;> rfl

/-- The top speed of the triangular profile, as computed. -/
noncomputable def tri32 (L a d : ℝ) : ℝ := rnd √(rnd (rnd (rnd (rnd (2 * L) * a) * d) / rnd (a + d)))

open Classical in
/-- The cruise speed chosen. -/
noncomputable def speed32 (L v0 a d : ℝ) : ℝ := if tri32 L a d < v0 then tri32 L a d else v0

open Classical in
/-- The order of the profile chosen at first. -/
noncomputable def firstChoice32 (L v0 a d : ℝ) : Order := if tri32 L a d < v0 then .firstOrder else .secondOrder

/-- Length of both ramps. -/
noncomputable def ramps32 (V a d j : ℝ) (o : Order) : ℝ := rnd ((up V a j o).len + (down V d j o).len)

open Classical in
/-- The order of the profile. -/
noncomputable def order32 (L v0 a d j : ℝ) : Order :=
  if L < ramps32 (speed32 L v0 a d) a d j (firstChoice32 L v0 a d) then .firstOrder else firstChoice32 L v0 a d

/-- A profile before planning, between rests, with limits `a`, `d`, `j`. -/
structure Profile32.Resting (p : Profile32) (a d j : ℝ) : Prop where
  doneLength : p.doneLength = num 0
  doneDuration : p.doneDuration = num 0
  start : p.left.vStart = num 0
  end_ : p.right.vEnd = num 0
  aMax : p.aMax = num a
  dMax : p.dMax = num (-d)
  jMax : p.jMax = num j

theorem chooseSpeed32 {p : Profile32} {L v0 a d j minL : ℝ} {f : Single} (h : p.Resting a d j) (hL : rnd L = L) (hL0 : 0 < L)
    (ha : 0 < a) (hd : 0 < d) (hv : 0 < v0) (hm : minL ≤ L) (hv0 : (if p.vMax.lt (p.vFeed * f) then p.vMax else p.vFeed * f) = num v0)
    (hQ : 0 < rnd (rnd (rnd (2 * L) * a) * d)) (had : 0 < rnd (a + d)) :
    p.chooseSpeed (num L) f (num minL) .maximizeSpeed = (num (speed32 L v0 a d), firstChoice32 L v0 a d) := by
  have e1 : Profile32.vTri p.left.vStart p.right.vEnd p.aMax p.dMax (num L - p.doneLength) .maximizeSpeed = num (tri32 L a d) := by
    have hq : 0 ≤ rnd (rnd (rnd (rnd (2 * L) * a) * d) / rnd (a + d)) := rnd_nonneg (by positivity)
    simp only [Profile32.vTri, h.start, h.end_, h.aMax, h.dMax, h.doneLength, num_mul, num_sub, sub_zero, hL, mul_zero, zero_mul, rnd_zero,
      mul_neg, rnd_neg, zero_add, sub_neg_eq_add, neg_zero, rnd_rnd, num_div had.ne', sqrt_num hq]
    rfl
  have e2 : Profile32.vTri p.left.vStart p.right.vEnd p.aMax p.dMax (num L - p.doneLength) .minimizeSpeed = num 0 := by
    have : ¬ 0 ≤ -rnd (rnd (rnd (2 * L) * a) * d) := by linarith
    simp only [Profile32.vTri, h.start, h.end_, h.aMax, h.dMax, h.doneLength, num_mul, num_sub, num_add, sub_zero, add_zero, hL, mul_zero, zero_mul, rnd_zero,
      mul_neg, rnd_neg, neg_zero, rnd_rnd, le_num, decide_eq_true_eq, if_neg this]
  have t0 : 0 ≤ tri32 L a d := rnd_nonneg (Real.sqrt_nonneg _)
  unfold Profile32.chooseSpeed
  simp only [e1, e2, hv0, lt_num, decide_eq_true_eq, if_neg (not_lt.2 hm)]
  unfold speed32 firstChoice32
  by_cases c : tri32 L a d < v0
  · simp only [if_pos c, lt_num, decide_eq_true_eq, if_neg (not_lt.2 t0)]
  · simp only [if_neg c, lt_num, decide_eq_true_eq, if_neg (not_lt.2 hv.le)]

theorem setPhases32 {p : Profile32} {V a d j : ℝ} (h : p.Resting a d j) (h1 : Sizes V a j) (h2 : Sizes V d j) (o : Order) :
    Computes (p.setPhases (num V) o).left (up V a j o) ∧ Computes (p.setPhases (num V) o).right (down V d j o) ∧
    (p.setPhases (num V) o).Resting a d j := by
  refine ⟨?_, ?_, ?_⟩
  · exact (members_up h1 (p := ((p.left.setMax p.aMax p.dMax p.jMax).setvEnd (num V))) h.start rfl h.aMax h.jMax o).computes_up
  · exact (members_down h2 (p := ((p.right.setMax p.aMax p.dMax p.jMax).setvStart (num V))) rfl h.end_ h.dMax h.jMax o).computes_down
  · refine ⟨h.doneLength, h.doneDuration, ?_, ?_, h.aMax, h.dMax, h.jMax⟩
    · exact (members_up h1 (p := ((p.left.setMax p.aMax p.dMax p.jMax).setvEnd (num V))) h.start rfl h.aMax h.jMax o).vStart
    · exact (members_down h2 (p := ((p.right.setMax p.aMax p.dMax p.jMax).setvStart (num V))) rfl h.end_ h.dMax h.jMax o).vEnd

theorem plan32 {p : Profile32} {L v0 a d j minL : ℝ} {f : Single} (h : p.Resting a d j) (hL : rnd L = L) (hL0 : 0 < L)
    (ha : 0 < a) (hd : 0 < d) (hv : 0 < v0) (hm : minL ≤ L) (hv0 : (if p.vMax.lt (p.vFeed * f) then p.vMax else p.vFeed * f) = num v0)
    (hQ : 0 < rnd (rnd (rnd (2 * L) * a) * d)) (had : 0 < rnd (a + d))
    (h1 : Sizes (speed32 L v0 a d) a j) (h2 : Sizes (speed32 L v0 a d) d j) :
    (p.plan (num L) f (num minL) .maximizeSpeed).Travels (up (speed32 L v0 a d) a j (order32 L v0 a d j))
      (down (speed32 L v0 a d) d j (order32 L v0 a d j)) (speed32 L v0 a d)
      (rnd (L - ramps32 (speed32 L v0 a d) a d j (order32 L v0 a d j)))
      (rnd (rnd (L - ramps32 (speed32 L v0 a d) a d j (order32 L v0 a d j)) / speed32 L v0 a d)) := by
  have hV := h1.V_pos
  unfold Profile32.plan
  rw [chooseSpeed32 h hL hL0 ha hd hv hm hv0 hQ had]
  simp only
  have key : ∀ (q : Profile32) (o : Order), q.Resting a d j → Computes q.left (up (speed32 L v0 a d) a j o) →
      Computes q.right (down (speed32 L v0 a d) d j o) → q.mid.vMid = num (speed32 L v0 a d) →
      (q.finish (num L) (num (speed32 L v0 a d))).Travels (up (speed32 L v0 a d) a j o)
      (down (speed32 L v0 a d) d j o) (speed32 L v0 a d)
      (rnd (L - ramps32 (speed32 L v0 a d) a d j o)) (rnd (rnd (L - ramps32 (speed32 L v0 a d) a d j o) / speed32 L v0 a d)) := by
    intro q o hq hl hr hv
    have em : (num L - q.doneLength) - (q.left.length + q.right.length) = num (rnd (L - ramps32 (speed32 L v0 a d) a d j o)) := by
      rw [hq.doneLength, hl.length, hr.length, num_sub, num_add, num_sub, sub_zero, hL]; rfl
    refine ⟨hl, hr, ?_, hq.doneLength, hq.doneDuration, ?_, ?_⟩
    · simp only [Profile32.finish, em, num_div hV.ne', hv]
    · simp only [Profile32.finish, em, num_div hV.ne', hq.doneDuration, hl.duration, hr.duration, num_add, zero_add]
      unfold tripDur
      rw [show rnd (up (speed32 L v0 a d) a j o).dur = (up (speed32 L v0 a d) a j o).dur from rnd_rnd _]
    · simp only [Profile32.finish]
      rw [if_neg]
      intro hc
      have : (num (speed32 L v0 a d)).eq (num 0) = decide (speed32 L v0 a d = 0) := Num.eq_fin _ _
      rw [this, decide_eq_true_eq] at hc
      exact hV.ne' hc
  obtain ⟨c1, c2, c3⟩ := setPhases32 h h1 h2 (firstChoice32 L v0 a d)
  have el : (num L - (p.setPhases (num (speed32 L v0 a d)) (firstChoice32 L v0 a d)).doneLength).lt
      ((p.setPhases (num (speed32 L v0 a d)) (firstChoice32 L v0 a d)).left.length +
       (p.setPhases (num (speed32 L v0 a d)) (firstChoice32 L v0 a d)).right.length) =
      decide (L < ramps32 (speed32 L v0 a d) a d j (firstChoice32 L v0 a d)) := by
    rw [c3.doneLength, c1.length, c2.length, num_sub, num_add, sub_zero, hL, lt_num]; rfl
  rw [el]
  unfold order32
  by_cases c : L < ramps32 (speed32 L v0 a d) a d j (firstChoice32 L v0 a d)
  · simp only [c, decide_true, if_true]
    obtain ⟨b1, b2, b3⟩ := setPhases32 c3 h1 h2 .firstOrder
    exact key _ _ b3 b1 b2 rfl
  · simp only [c, decide_false, Bool.false_eq_true, if_false]
    exact key _ _ c3 c1 c2 rfl

end Moovr
