import Verif.Lemmas.Num
import Verif.Spec.Plan
/-!
# What `motion::optimize` computes on finite inputs
-/
namespace Moovr
open Num AccDec

/-- Length of a first-order speed change. -/
noncomputable def lenFirst (a d u w : ℝ) : ℝ := if u < w then (w ^ 2 - u ^ 2) / (2 * a) else (w ^ 2 - u ^ 2) / (2 * d)

theorem length_first {p : AccDec ℝ} (hp : p.Params) :
    (p.calculate .firstOrder).length = lenFirst p.aMax p.dMax p.vStart p.vEnd := by
  have ha := hp.aMax.ne'; have hd := hp.dMax.ne
  by_cases h : p.vStart < p.vEnd
  · simp [calculate, calculateFirst, lenFirst, h]; field_simp; ring
  · simp [calculate, calculateFirst, lenFirst, h]; field_simp; ring

namespace PlanIn

/-- Squares of the largest and smallest cruise speed. -/
noncomputable def hi (i : PlanIn) : ℝ := (i.vE * i.vE * i.a - i.vS * i.vS * i.d - 2 * i.L * i.a * i.d) / (i.a - i.d)
noncomputable def lo (i : PlanIn) : ℝ := (2 * i.L * i.a * i.d - i.vE * i.vE * i.d + i.vS * i.vS * i.a) / (i.a - i.d)

variable {i : PlanIn}

theorem Feasible.den (h : i.Feasible) : 0 < i.a - i.d := by linarith [h.a, h.d]

theorem Feasible.hi_nonneg (h : i.Feasible) : 0 ≤ i.hi := by
  refine div_nonneg ?_ h.den.le
  nlinarith [mul_nonneg (mul_self_nonneg i.vE) h.a.le,
    mul_nonneg (mul_self_nonneg i.vS) (neg_nonneg.2 h.d.le), mul_nonneg (mul_nonneg h.L h.a.le) (neg_nonneg.2 h.d.le)]

theorem Feasible.lo_le_hi (h : i.Feasible) : i.lo ≤ i.hi := by
  have hd := h.den
  unfold lo hi
  rw [div_le_div_iff_of_pos_right hd]
  have ha := h.a; have hdd := h.d; have hL := h.L; have h1 := h.slow; have h2 := h.fast
  rcases le_total (i.vE ^ 2) (i.vS ^ 2) with hc | hc
  · nlinarith [mul_le_mul_of_nonneg_left h1 ha.le, mul_nonneg (sub_nonneg.2 hc) (neg_nonneg.2 hdd.le)]
  · nlinarith [mul_le_mul_of_nonneg_left h2 (neg_nonneg.2 hdd.le), mul_nonneg (sub_nonneg.2 hc) ha.le]

theorem Feasible.lo_le_max (h : i.Feasible) : i.lo ≤ (max i.vS i.vE) ^ 2 := by
  have hd := h.den
  unfold lo
  rw [div_le_iff₀ hd]
  have ha := h.a; have hdd := h.d; have hL := h.L
  have e1 : i.vS ^ 2 ≤ (max i.vS i.vE) ^ 2 := pow_le_pow_left₀ h.vS (le_max_left _ _) 2
  have e2 : i.vE ^ 2 ≤ (max i.vS i.vE) ^ 2 := pow_le_pow_left₀ h.vE (le_max_right _ _) 2
  nlinarith [mul_le_mul_of_nonneg_left e1 ha.le, mul_le_mul_of_nonneg_left e2 (neg_nonneg.2 hdd.le),
    mul_nonneg (mul_nonneg hL ha.le) (neg_nonneg.2 hdd.le)]

/-- First-order phases fit into the remaining length. -/
theorem Feasible.fits (h : i.Feasible) {w : ℝ} (h1 : i.lo ≤ w ^ 2) (h2 : w ^ 2 ≤ i.hi) :
    lenFirst i.a i.d i.vS w + lenFirst i.a i.d w i.vE ≤ i.L := by
  have hd := h.den; have ha := h.a; have hdd := h.d
  obtain ⟨D, hD⟩ : ∃ D, D = -i.d := ⟨_, rfl⟩
  have hD0 : 0 < D := by linarith
  have ed : i.d = -D := by linarith
  have hs := h.slow; have hf := h.fast
  unfold lo at h1; unfold hi at h2
  rw [div_le_iff₀ hd] at h1; rw [le_div_iff₀ hd] at h2
  unfold lenFirst
  rw [ed] at *
  have key : ∀ x, x / (2 * -D) = -x / (2 * D) := by intro x; rw [mul_neg, div_neg, neg_div]
  split_ifs with c1 c2 c2
  · rw [← add_div, div_le_iff₀ (by linarith)]; linarith
  · rw [key, div_add_div _ _ (by linarith) (by linarith), div_le_iff₀ (by positivity)]; nlinarith
  · rw [key, div_add_div _ _ (by linarith) (by linarith), div_le_iff₀ (by positivity)]; nlinarith
  · rw [key, key, ← add_div, div_le_iff₀ (by linarith)]; linarith

theorem Of.vTri_max {p : Profile} {length : Num} (ho : i.Of p length) (h : i.Feasible) :
    Profile.vTri p.left.vStart p.right.vEnd p.aMax p.dMax (length - p.doneLength) .maximizeSpeed = fin (√i.hi) := by
  have hn := h.hi_nonneg
  have hd := h.den.ne'
  simp only [Profile.vTri, ho.vS, ho.vE, ho.a, ho.d, ho.length, ho.doneL, fin_sub, fin_mul, fin_div hd]
  unfold hi at hn
  rw [show i.doneL + i.L - i.doneL = i.L by ring, sqrt_fin hn]; rfl

theorem Of.vTri_min {p : Profile} {length : Num} (ho : i.Of p length) (h : i.Feasible) :
    Profile.vTri p.left.vStart p.right.vEnd p.aMax p.dMax (length - p.doneLength) .minimizeSpeed = fin (√i.lo) := by
  have hd := h.den
  have hd' := hd.ne'
  simp only [Profile.vTri, ho.vS, ho.vE, ho.a, ho.d, ho.length, ho.doneL, fin_sub, fin_add, fin_mul, fin_div hd', le_fin,
    decide_eq_true_eq]
  rw [show i.doneL + i.L - i.doneL = i.L by ring]
  split_ifs with hr
  · rw [sqrt_fin (div_nonneg hr hd.le)]; rfl
  · have : i.lo ≤ 0 := by unfold lo; exact div_nonpos_of_nonpos_of_nonneg (not_le.1 hr).le hd.le
    rw [Real.sqrt_eq_zero'.2 this]

end PlanIn

/-- The cruise speed chosen. -/
theorem chooseSpeed_spec {i : PlanIn} {p : Profile} {length : Num} (ho : i.Of p length) (h : i.Feasible)
    {feedOverride : Num} (hfeed : (p.vFeed * feedOverride).NonNeg) (hv : p.vMax.NonNeg) (minLen : ℝ) (st : Strategy) :
    ∃ w, (p.chooseSpeed length feedOverride minLen st).1 = fin w ∧ 0 ≤ w ∧ i.lo ≤ w ^ 2 ∧ w ^ 2 ≤ i.hi ∧
      (w ≤ max i.vS i.vE ∨ st = .maximizeSpeed ∧
        (fin w).le (p.vFeed * feedOverride) = true ∧ (fin w).le p.vMax = true) ∧
      (st = .minimizeSpeed → w = √i.lo) ∧
      (st = .maximizeSpeed → ∃ x, x ≤ w ∧ (x = √i.hi ∨ fin x = p.vMax ∨ fin x = p.vFeed * feedOverride)) := by
  have hmax := ho.vTri_max h
  have hmin := ho.vTri_min h
  have hlh : √i.lo ≤ √i.hi := Real.sqrt_le_sqrt h.lo_le_hi
  have hhi2 : √i.hi ^ 2 = i.hi := Real.sq_sqrt h.hi_nonneg
  have hlo0 := Real.sqrt_nonneg i.lo
  have hlo2 : i.lo ≤ √i.lo ^ 2 := by
    rcases le_total 0 i.lo with hn | hn
    · rw [Real.sq_sqrt hn]
    · exact hn.trans (sq_nonneg _)
  have hlow : √i.lo ≤ max i.vS i.vE := by
    rw [Real.sqrt_le_left (le_max_of_le_left h.vS)]; exact h.lo_le_max
  have final : ∀ w, √i.lo ≤ w → w ≤ √i.hi → i.lo ≤ w ^ 2 ∧ w ^ 2 ≤ i.hi := fun w h1 h2 =>
    ⟨hlo2.trans (pow_le_pow_left₀ hlo0 h1 2), (pow_le_pow_left₀ (hlo0.trans h1) h2 2).trans hhi2.le⟩
  -- lifting to the minimum
  have lift : ∀ (w : ℝ) (o : Order) (x : Num × Order),
      x = (if (fin w).lt (fin (√i.lo)) then (fin (√i.lo), Order.firstOrder) else (fin w, o)) →
      x.1 = fin (max w (√i.lo)) := by
    intro w o x hx
    rw [hx, lt_fin]
    by_cases hc : w < √i.lo
    · simp [hc, max_eq_right hc.le]
    · simp [hc, max_eq_left (not_lt.1 hc)]
  cases st
  · refine ⟨√i.lo, ?_, hlo0, (final _ le_rfl hlh).1, (final _ le_rfl hlh).2, Or.inl hlow, fun _ => rfl, by simp⟩
    unfold Profile.chooseSpeed
    simp only [hmin]
    rw [lift 0 _ _ rfl, max_eq_right hlo0]
  · -- before lifting, the speed is a finite number at most the triangular speed
    obtain ⟨w, o, e, hw0, hwhi, hwf, hwv, hwx⟩ : ∃ w o,
        (let order := if length.lt (fin minLen) then Order.firstOrder else .secondOrder
         let vMid := p.vFeed * feedOverride
         let vMid := if p.vMax.lt vMid then p.vMax else vMid
         if (fin (√i.hi)).lt vMid then (fin (√i.hi), Order.firstOrder) else (vMid, order)) = (fin w, o) ∧ 0 ≤ w ∧
        w ≤ √i.hi ∧ (fin w).le (p.vFeed * feedOverride) = true ∧ (fin w).le p.vMax = true ∧
        (w = √i.hi ∨ fin w = p.vMax ∨ fin w = p.vFeed * feedOverride) := by
      simp only
      generalize p.vFeed * feedOverride = f at *
      generalize p.vMax = m at *
      have hs := Real.sqrt_nonneg i.hi
      rcases f with f | _ | _ | _ <;> simp only [Num.NonNeg] at hfeed
      · rcases m with m | _ | _ | _ <;> simp only [Num.NonNeg] at hv
        · rw [lt_fin]
          by_cases c1 : m < f
          · simp only [c1, decide_true, if_true, lt_fin]
            by_cases c2 : √i.hi < m
            · exact ⟨_, _, by rw [if_pos (by simpa using c2)], hs, le_rfl, by simpa using (c2.trans c1).le, by simpa using c2.le, by simp⟩
            · exact ⟨_, _, by rw [if_neg (by simpa using c2)], hv, not_lt.1 c2, by simpa using c1.le, by simp, by simp⟩
          · simp only [c1, decide_false, lt_fin]
            simp only [Bool.false_eq_true, if_false, lt_fin]
            by_cases c2 : √i.hi < f
            · exact ⟨_, _, by rw [if_pos (by simpa using c2)], hs, le_rfl, by simpa using c2.le,
                by simpa using c2.le.trans (not_lt.1 c1), by simp⟩
            · exact ⟨_, _, by rw [if_neg (by simpa using c2)], hfeed, not_lt.1 c2, by simp, by simpa using not_lt.1 c1, by simp⟩
        · simp only [Num.lt]
          by_cases c2 : √i.hi < f
          · exact ⟨_, _, by simp [c2]; rfl, hs, le_rfl, by simpa using c2.le, by simp [Num.le], by simp⟩
          · exact ⟨_, _, by simp [c2]; rfl, hfeed, not_lt.1 c2, by simp, by simp [Num.le], by simp⟩
      · rcases m with m | _ | _ | _ <;> simp only [Num.NonNeg] at hv
        · simp only [Num.lt]
          by_cases c2 : √i.hi < m
          · exact ⟨_, _, by simp [c2]; rfl, hs, le_rfl, by simp [Num.le], by simpa using c2.le, by simp⟩
          · exact ⟨_, _, by simp [c2]; rfl, hv, not_lt.1 c2, by simp [Num.le], by simp, by simp⟩
        · exact ⟨_, _, by simp [Num.lt]; rfl, hs, le_rfl, by simp [Num.le], by simp [Num.le], by simp⟩
    refine ⟨max w (√i.lo), ?_, le_max_of_le_left hw0, (final _ (le_max_right _ _) (max_le hwhi hlh)).1,
      (final _ (le_max_right _ _) (max_le hwhi hlh)).2, ?_, by simp,
      fun _ => ⟨w, le_max_left _ _, hwx⟩⟩
    · unfold Profile.chooseSpeed
      simp only [hmin, hmax]
      simp only at e
      rw [e]
      exact lift w o _ rfl
    · rcases le_total w (√i.lo) with hc | hc
      · rw [max_eq_right hc]; exact Or.inl hlow
      · rw [max_eq_left hc]; exact Or.inr ⟨rfl, hwf, hwv⟩

/-- Inputs of a phase. -/
def phaseIn (a d j u w : ℝ) : AccDec ℝ := ⟨u, w, a, d, j, 0, 0, 0, 0, 0, 0, 0, 0⟩

/-- A phase from speed `u` to speed `w` within the limits. -/
structure PhaseOk (i : PlanIn) (u w : ℝ) (q : AccDec ℝ) : Prop where
  good : q.Good
  vStart : q.vStart = u
  vEnd : q.vEnd = w
  aMax : q.aMax ≤ i.a
  dMax : i.d ≤ q.dMax
  brief : w ≤ u → q.duration ≤ 2 * max (√((u - w) / i.j)) ((u - w) / -i.d)
  brief' : u ≤ w → q.duration ≤ 2 * max (√((w - u) / i.j)) ((w - u) / i.a)

theorem brief_calculate {p : AccDec ℝ} (hp : p.Params) (h : p.vEnd ≤ p.vStart) (o : Order) :
    (p.calculate o).duration ≤ 2 * max (√((p.vStart - p.vEnd) / p.jMax)) ((p.vStart - p.vEnd) / -p.dMax) := by
  have hn : ¬ p.vStart < p.vEnd := not_lt.2 h
  have hd := hp.dMax
  have hj := hp.jMax
  have h0 : 0 ≤ (p.vStart - p.vEnd) / -p.dMax := div_nonneg (by linarith) (by linarith)
  have hmax := le_max_right (√((p.vStart - p.vEnd) / p.jMax)) ((p.vStart - p.vEnd) / -p.dMax)
  have hmax' := le_max_left (√((p.vStart - p.vEnd) / p.jMax)) ((p.vStart - p.vEnd) / -p.dMax)
  cases o
  · have e : (p.calculate .firstOrder).duration = (p.vStart - p.vEnd) / -p.dMax := by
      simp only [calculate, calculateFirst, hn, lt_real, if_false]
      rw [div_neg, ← neg_div]; congr 1; ring
    rw [e]; linarith
  · have e : p.calculate .secondOrder = p.calculateDec := by simp [calculate, hn]
    rw [e]
    by_cases hc : p.vStart - p.vEnd < p.jMax * (-p.dMax / p.jMax) * (-p.dMax / p.jMax)
    · have e : p.calculateDec.duration = √((p.vStart - p.vEnd) / p.jMax) + √((p.vStart - p.vEnd) / p.jMax) := by
        simp [calculateDec, finishSecond, hc]
      rw [e]; linarith
    · have hq : 0 < -p.dMax / p.jMax := div_pos (by linarith) hj
      have e : p.calculateDec.duration = -p.dMax / p.jMax + (p.vStart - p.vEnd) / -p.dMax := by
        have hd' := hd.ne
        simp [calculateDec, finishSecond, hc]
        field_simp; ring
      have : -p.dMax / p.jMax ≤ (p.vStart - p.vEnd) / -p.dMax := by
        rw [le_div_iff₀ (by linarith)]
        have : p.jMax * (-p.dMax / p.jMax) * (-p.dMax / p.jMax) = -p.dMax / p.jMax * -p.dMax := by field_simp
        linarith
      rw [e]; linarith

theorem brief_calculate' {p : AccDec ℝ} (hp : p.Params) (h : p.vStart ≤ p.vEnd) (o : Order) :
    (p.calculate o).duration ≤ 2 * max (√((p.vEnd - p.vStart) / p.jMax)) ((p.vEnd - p.vStart) / p.aMax) := by
  rcases h.eq_or_lt with he | hlt
  · have := brief_calculate hp he.ge o
    rw [he, sub_self] at this ⊢
    simpa using this
  have ha := hp.aMax
  have hj := hp.jMax
  have h0 : 0 ≤ (p.vEnd - p.vStart) / p.aMax := div_nonneg (by linarith) ha.le
  have hmax := le_max_right (√((p.vEnd - p.vStart) / p.jMax)) ((p.vEnd - p.vStart) / p.aMax)
  have hmax' := le_max_left (√((p.vEnd - p.vStart) / p.jMax)) ((p.vEnd - p.vStart) / p.aMax)
  cases o
  · have e : (p.calculate .firstOrder).duration = (p.vEnd - p.vStart) / p.aMax := by
      simp only [calculate, calculateFirst, hlt, lt_real, if_true]
    rw [e]; linarith
  · have e : p.calculate .secondOrder = p.calculateAcc := by simp [calculate, hlt]
    rw [e]
    by_cases hc : p.vEnd - p.vStart < p.jMax * (p.aMax / p.jMax) * (p.aMax / p.jMax)
    · have e : p.calculateAcc.duration = √((p.vEnd - p.vStart) / p.jMax) + √((p.vEnd - p.vStart) / p.jMax) := by
        simp [calculateAcc, finishSecond, hc]
      rw [e]; linarith
    · have e : p.calculateAcc.duration = p.aMax / p.jMax + (p.vEnd - p.vStart) / p.aMax := by
        have ha' := ha.ne'
        simp [calculateAcc, finishSecond, hc]
        field_simp; ring
      have : p.aMax / p.jMax ≤ (p.vEnd - p.vStart) / p.aMax := by
        rw [le_div_iff₀ ha]
        have : p.jMax * (p.aMax / p.jMax) * (p.aMax / p.jMax) = p.aMax / p.jMax * p.aMax := by field_simp
        linarith
      rw [e]; linarith

theorem phaseOk_calculate {i : PlanIn} (h : i.Feasible) {u w : ℝ} (hu : 0 ≤ u) (hw : 0 ≤ w) (o : Order) :
    PhaseOk i u w ((phaseIn i.a i.d i.j u w).calculate o) := by
  have hp : (phaseIn i.a i.d i.j u w).Params := ⟨hu, hw, h.a, h.d, h.j⟩
  obtain ⟨g, g1, g2⟩ := good_calculate hp o
  exact ⟨g, by rw [calculate_vStart]; rfl, by rw [calculate_vEnd]; rfl, g1, g2, fun hle => brief_calculate hp hle o,
    fun hle => brief_calculate' hp hle o⟩

/-- What a plan looks like: phases `l` and `r`, cruise at speed `w` over a distance `m`. -/
structure Planned (i : PlanIn) (q : Profile) (l r : AccDec ℝ) (w m : ℝ) : Prop where
  left : q.left = l.toNum
  right : q.right = r.toNum
  lOk : PhaseOk i i.vS w l
  rOk : PhaseOk i w i.vE r
  w0 : 0 ≤ w
  m0 : 0 ≤ m
  total : l.length + m + r.length = i.L
  vMid : q.mid.vMid = fin w
  midLength : q.mid.length = fin m
  midDuration : q.mid.duration = fin m / fin w
  doneL : q.doneLength = fin i.doneL
  doneT : q.doneDuration = fin i.doneT
  duration : q.duration = fin (i.doneT + l.duration) + fin m / fin w + fin r.duration
  tStop : q.tStop = if w = 0 then fin (i.doneT + l.duration) else posInf
  a : q.aMax = fin i.a
  d : q.dMax = fin i.d
  j : q.jMax = fin i.j

theorem setPhases_spec {i : PlanIn} {p : Profile} {length : Num} (ho : i.Of p length) (h : i.Feasible) {w : ℝ}
    (hw : 0 ≤ w) (o : Order) :
    let q := p.setPhases (fin w) o
    q.left = ((phaseIn i.a i.d i.j i.vS w).calculate o).toNum ∧
    q.right = ((phaseIn i.a i.d i.j w i.vE).calculate o).toNum ∧ i.Of q length ∧ q.mid.vMid = fin w ∧
    q.vFeed = p.vFeed ∧ q.vMax = p.vMax := by
  have hl : (p.setPhases (fin w) o).left = ((phaseIn i.a i.d i.j i.vS w).calculate o).toNum :=
    calculate_toNum ⟨ho.vS, rfl, ho.a, ho.d, ho.j⟩ ⟨h.vS, hw, h.a, h.d, h.j⟩ o
  have hr : (p.setPhases (fin w) o).right = ((phaseIn i.a i.d i.j w i.vE).calculate o).toNum :=
    calculate_toNum ⟨rfl, ho.vE, ho.a, ho.d, ho.j⟩ ⟨hw, h.vE, h.a, h.d, h.j⟩ o
  refine ⟨hl, hr, ⟨ho.length, ho.doneL, ho.doneT, ?_, ?_, ho.a, ho.d, ho.j⟩, rfl, rfl, rfl⟩
  · rw [hl]; show fin _ = _; rw [calculate_vStart]; rfl
  · rw [hr]; show fin _ = _; rw [calculate_vEnd]; rfl

/-- The planner's result. -/
theorem plan_planned {i : PlanIn} {p : Profile} {length : Num} (ho : i.Of p length) (h : i.Feasible)
    {feedOverride : Num} (hfeed : (p.vFeed * feedOverride).NonNeg) (hv : p.vMax.NonNeg) (minLen : ℝ) (st : Strategy) :
    ∃ l r w m, Planned i (p.plan length feedOverride minLen st) l r w m ∧
      (w ≤ max i.vS i.vE ∨ st = .maximizeSpeed ∧
        (fin w).le (p.vFeed * feedOverride) = true ∧ (fin w).le p.vMax = true) ∧
      (st = .minimizeSpeed → w = √i.lo) ∧
      (st = .maximizeSpeed → ∃ x, x ≤ w ∧ (x = √i.hi ∨ fin x = p.vMax ∨ fin x = p.vFeed * feedOverride)) ∧
      (p.plan length feedOverride minLen st).vFeed = p.vFeed ∧ (p.plan length feedOverride minLen st).vMax = p.vMax := by
  obtain ⟨w, e, hw, hlo, hhi, hcap, hmin, hfull⟩ := chooseSpeed_spec ho h hfeed hv minLen st
  -- the profile before `finish`
  have key : ∃ (q : Profile) (o : Order), p.plan length feedOverride minLen st = q.finish length (fin w) ∧
      q.left = ((phaseIn i.a i.d i.j i.vS w).calculate o).toNum ∧
      q.right = ((phaseIn i.a i.d i.j w i.vE).calculate o).toNum ∧ i.Of q length ∧ q.mid.vMid = fin w ∧
      q.vFeed = p.vFeed ∧ q.vMax = p.vMax ∧
      ((phaseIn i.a i.d i.j i.vS w).calculate o).length + ((phaseIn i.a i.d i.j w i.vE).calculate o).length ≤ i.L := by
    unfold Profile.plan
    simp only [e]
    generalize (p.chooseSpeed length feedOverride minLen st).2 = o
    obtain ⟨s1, s2, s3, s4, s5, s6⟩ := setPhases_spec ho h hw o
    have hcond : (length - (p.setPhases (fin w) o).doneLength).lt
        ((p.setPhases (fin w) o).left.length + (p.setPhases (fin w) o).right.length) =
        decide (i.L < ((phaseIn i.a i.d i.j i.vS w).calculate o).length +
          ((phaseIn i.a i.d i.j w i.vE).calculate o).length) := by
      rw [s3.doneL, s3.length, s1, s2]
      simp only [toNum, fin_sub, fin_add, lt_fin]
      rw [show i.doneL + i.L - i.doneL = i.L by ring]
    rw [hcond]
    by_cases hc : i.L < ((phaseIn i.a i.d i.j i.vS w).calculate o).length +
          ((phaseIn i.a i.d i.j w i.vE).calculate o).length
    · simp only [hc, decide_true, if_true]
      obtain ⟨t1, t2, t3, t4, t5, t6⟩ := setPhases_spec s3 h hw .firstOrder
      refine ⟨_, .firstOrder, rfl, t1, t2, t3, t4, t5.trans s5, t6.trans s6, ?_⟩
      rw [length_first ⟨h.vS, hw, h.a, h.d, h.j⟩, length_first ⟨hw, h.vE, h.a, h.d, h.j⟩]
      exact h.fits hlo hhi
    · simp only [hc, decide_false, Bool.false_eq_true, if_false]
      exact ⟨_, o, rfl, s1, s2, s3, s4, s5, s6, not_lt.1 hc⟩
  obtain ⟨q, o, eq, ql, qr, qo, qm, qf, qv, hle⟩ := key
  rw [eq]
  have l' := phaseOk_calculate h h.vS hw o
  have r' := phaseOk_calculate h hw h.vE o
  generalize (phaseIn i.a i.d i.j i.vS w).calculate o = l at *
  generalize (phaseIn i.a i.d i.j w i.vE).calculate o = r at *
  have hm : (length - q.doneLength) - (q.left.length + q.right.length) = fin (i.L - (l.length + r.length)) := by
    rw [qo.doneL, qo.length, ql, qr]
    simp only [toNum, fin_sub, fin_add]
    rw [show i.doneL + i.L - i.doneL = i.L by ring]
  refine ⟨l, r, w, i.L - (l.length + r.length), ?_, hcap, hmin, hfull, qf, qv⟩
  constructor
  · exact ql
  · exact qr
  · exact l'
  · exact r'
  · exact hw
  · linarith
  · ring
  · exact qm
  · exact hm
  · simp only [Profile.finish, hm]
  · exact qo.doneL
  · exact qo.doneT
  · show q.doneDuration + q.left.duration + ((length - q.doneLength) - (q.left.length + q.right.length)) / fin w +
      q.right.duration = _
    rw [hm, qo.doneT, ql, qr, toNum_duration, toNum_duration, fin_add]
  · simp only [Profile.finish, qo.doneT, ql, toNum, fin_add, eq_fin, decide_eq_true_eq]
  · exact qo.a
  · exact qo.d
  · exact qo.j

namespace Planned
variable {i : PlanIn} {q : Profile} {l r : AccDec ℝ} {w m : ℝ}

/-- Distance as a real function, for a positive cruise speed. -/
noncomputable def sFun (i : PlanIn) (l r : AccDec ℝ) (w m t : ℝ) : ℝ :=
  if t ≤ i.doneT then i.doneL
  else if t ≤ i.doneT + l.duration then i.doneL + l.s (t - i.doneT)
  else if t ≤ i.doneT + l.duration + m / w then i.doneL + l.length + w * (t - i.doneT - l.duration)
  else i.doneL + l.length + m + r.s (t - i.doneT - l.duration - m / w)

/-- Speed as a real function, for a positive cruise speed. -/
noncomputable def vFun (i : PlanIn) (l r : AccDec ℝ) (w m t : ℝ) : ℝ :=
  if t ≤ i.doneT then l.v 0
  else if t ≤ i.doneT + l.duration then l.v (t - i.doneT)
  else if t ≤ i.doneT + l.duration + m / w then w
  else r.v (t - i.doneT - l.duration - m / w)

/-- Acceleration as a real function, for a positive cruise speed. -/
noncomputable def aFun (i : PlanIn) (l r : AccDec ℝ) (w m t : ℝ) : ℝ :=
  if t ≤ i.doneT then l.a 0
  else if t ≤ i.doneT + l.duration then l.a (t - i.doneT)
  else if t ≤ i.doneT + l.duration + m / w then 0
  else r.a (t - i.doneT - l.duration - m / w)

theorem s_eq (h : Planned i q l r w m) (hw : 0 < w) (t : ℝ) : q.s (fin t) = fin (sFun i l r w m t) := by
  unfold Profile.s sFun
  rw [h.midDuration, fin_div hw.ne', h.doneT, h.doneL, h.left, h.right, h.midLength]
  simp only [Cruise.s, h.vMid, toNum_s]
  simp only [toNum_duration, toNum_length, fin_sub, fin_add, fin_mul, le_fin, decide_eq_true_eq, ite_fin, toNum_s]
  have e1 : (t - i.doneT ≤ l.duration) = (t ≤ i.doneT + l.duration) := by
    apply propext; constructor <;> intro h <;> linarith
  have e2 : (t - i.doneT - l.duration ≤ m / w) = (t ≤ i.doneT + l.duration + m / w) := by
    apply propext; constructor <;> intro h <;> linarith
  simp only [e1, e2]

theorem v_eq (h : Planned i q l r w m) (hw : 0 < w) (t : ℝ) : q.v (fin t) = fin (vFun i l r w m t) := by
  unfold Profile.v vFun
  rw [h.midDuration, fin_div hw.ne', h.doneT, h.left, h.right]
  simp only [Cruise.v, h.vMid, toNum_v]
  simp only [toNum_duration, toNum_length, fin_sub, le_fin, decide_eq_true_eq, ite_fin, toNum_v]
  have e1 : (t - i.doneT ≤ l.duration) = (t ≤ i.doneT + l.duration) := by
    apply propext; constructor <;> intro h <;> linarith
  have e2 : (t - i.doneT - l.duration ≤ m / w) = (t ≤ i.doneT + l.duration + m / w) := by
    apply propext; constructor <;> intro h <;> linarith
  simp only [e1, e2]

theorem a_eq (h : Planned i q l r w m) (hw : 0 < w) (t : ℝ) : q.a (fin t) = fin (aFun i l r w m t) := by
  unfold Profile.a aFun
  rw [h.midDuration, fin_div hw.ne', h.doneT, h.left, h.right]
  simp only [Cruise.a, toNum_a, arith_lit, lit_real, Rat.cast_zero]
  simp only [toNum_duration, toNum_length, fin_sub, le_fin, decide_eq_true_eq, ite_fin, toNum_a]
  have e1 : (t - i.doneT ≤ l.duration) = (t ≤ i.doneT + l.duration) := by
    apply propext; constructor <;> intro h <;> linarith
  have e2 : (t - i.doneT - l.duration ≤ m / w) = (t ≤ i.doneT + l.duration + m / w) := by
    apply propext; constructor <;> intro h <;> linarith
  simp only [e1, e2]

end Planned
end Moovr
