import Verif.Lemmas.Request
/-!
# Re-planning a motion in progress
-/
namespace Moovr
open Num AccDec Set

namespace Planned
variable {i : PlanIn} {q : Profile} {l r : AccDec ℝ} {w m : ℝ}

theorem s_left (h : Planned i q l r w m) {t : ℝ} (ht : t ≤ i.doneT + l.duration) :
    q.s (fin t) = fin (if t ≤ i.doneT then i.doneL else i.doneL + l.s (t - i.doneT)) := by
  unfold Profile.s
  rw [h.doneT, h.doneL, h.left]
  simp only [le_fin, toNum_duration, fin_sub, decide_eq_true_eq, toNum_s, fin_add]
  rw [if_pos (show t - i.doneT ≤ l.duration by linarith), ite_fin]

theorem v_left (h : Planned i q l r w m) {t : ℝ} (ht : t ≤ i.doneT + l.duration) :
    q.v (fin t) = fin (if t ≤ i.doneT then i.vS else l.v (t - i.doneT)) := by
  unfold Profile.v
  rw [h.doneT, h.left]
  simp only [le_fin, toNum_duration, fin_sub, decide_eq_true_eq, toNum_v]
  rw [if_pos (show t - i.doneT ≤ l.duration by linarith), ite_fin, h.lOk.good.v_zero, h.lOk.vStart]

theorem a_left (h : Planned i q l r w m) {t : ℝ} (ht : t ≤ i.doneT + l.duration) :
    q.a (fin t) = fin (if t ≤ i.doneT then l.a 0 else l.a (t - i.doneT)) := by
  unfold Profile.a
  rw [h.doneT, h.left]
  simp only [le_fin, toNum_duration, fin_sub, decide_eq_true_eq, toNum_a]
  rw [if_pos (show t - i.doneT ≤ l.duration by linarith), ite_fin]

/-- After a stop. -/
theorem stopped (h : Planned i q l r 0 m) (hm : 0 < m) {t : ℝ} (ht : i.doneT + l.duration < t) :
    q.s (fin t) = fin (i.doneL + l.length) ∧ q.v (fin t) = fin 0 := by
  have h0 := h.lOk.good.dur_nonneg
  have hd : q.mid.duration = posInf := by rw [h.midDuration, fin_div_zero_pos hm]
  have c1 : ¬ t ≤ i.doneT := by linarith
  have c2 : ¬ t - i.doneT ≤ l.duration := by linarith
  constructor
  · unfold Profile.s
    rw [h.doneT, h.doneL, h.left, hd]
    simp only [le_fin, toNum_duration, fin_sub, decide_eq_true_eq, c1, c2, if_false, Cruise.s, h.vMid, toNum_length, fin_mul,
      fin_add, zero_mul, add_zero, Num.le, if_true]
  · unfold Profile.v
    rw [h.doneT, h.left, hd]
    simp only [le_fin, toNum_duration, fin_sub, decide_eq_true_eq, c1, c2, if_false, Cruise.v, h.vMid, Num.le, if_true]

end Planned

/-- Distance, speed and their relation at one time of a plan. -/
structure Snapshot (i : PlanIn) (q : Profile) (t S V : ℝ) : Prop where
  s : q.s (fin t) = fin S
  v : q.v (fin t) = fin V
  vPos : 0 ≤ V
  sLe : S ≤ i.doneL + i.L
  slow : V ^ 2 ≤ i.vE ^ 2 - 2 * i.d * (i.doneL + i.L - S)

theorem Planned.snapshot {i : PlanIn} {q : Profile} {l r : AccDec ℝ} {w m : ℝ} (h : Planned i q l r w m) (hf : i.Feasible)
    (hw : 0 < w) {t : ℝ} (ht : (fin t).le q.duration = true) : ∃ S V, Snapshot i q t S V := by
  rw [h.dur_eq hw, le_fin, decide_eq_true_eq] at ht
  refine ⟨_, _, h.s_eq hw t, h.v_eq hw t, ?_, ?_, h.slow hf hw ht⟩
  · exact le_trans (le_min (le_min hf.vS hf.vE) hw.le) (h.v_bounds ht).1
  · rw [← h.s_end hw]
    exact h.monotone_sFun hf hw ht (Set.mem_Iic.2 le_rfl) ht

/-- Time `t` is not in the first phase. -/
def Profile.PastLeft (q : Profile) (t : Num) : Prop :=
  t.le q.doneDuration = true ∨ (t - q.doneDuration).le q.left.duration = false

/-- The profile from which a running motion is re-planned. -/
noncomputable def Profile.rebase (q : Profile) (t : Num) : Profile :=
  let q' := { q with left := q.left.setvStart (q.v t) }
  { q' with doneLength := q'.s t, doneDuration := t }

theorem Profile.rebase_s {q : Profile} {t : Num} (h : q.PastLeft t) : (q.rebase t).doneLength = q.s t := by
  show Profile.s { q with left := q.left.setvStart (q.v t) } t = _
  unfold Profile.s
  rcases h with h | h
  · simp only [h, if_true]
  · by_cases hc : t.le q.doneDuration = true
    · simp only [hc, if_true]
    · have e : (q.left.setvStart (q.v t)).duration = q.left.duration := rfl
      have e' : (q.left.setvStart (q.v t)).length = q.left.length := rfl
      simp only [hc, e, h, e', if_false, Bool.false_eq_true]

theorem optimizeAt_eq {M : Machine} {o : Overrides} {st : Strategy} {x : Path} (hx : x.type.moves = true) (t : Num)
    (q : Profile) : MotionItem.optimizeAt M o st t x q =
      (q.rebase t).plan x.trajectory.length o.feedOverride M.minLengthSProfile st := by
  unfold MotionItem.optimizeAt MotionItem.optimize
  rw [if_pos hx]; rfl

/-- The input of the new plan. -/
def PlanIn.at (i : PlanIn) (t S V : ℝ) : PlanIn := ⟨i.doneL + i.L - S, S, t, V, i.vE, i.a, i.d, i.j⟩

theorem Snapshot.feasible {i : PlanIn} {q : Profile} {t S V : ℝ} (h : Snapshot i q t S V) (hf : i.Feasible) (hv : i.vE = 0) :
    (i.at t S V).Feasible := by
  have hs := h.sLe; have ha := hf.a
  refine ⟨by show 0 ≤ i.doneL + i.L - S; linarith, h.vPos, hf.vE, hf.a, hf.d, hf.j, h.slow, ?_⟩
  show i.vE ^ 2 ≤ V ^ 2 + 2 * i.a * (i.doneL + i.L - S)
  rw [hv]
  have : 0 ≤ i.a * (i.doneL + i.L - S) := mul_nonneg ha.le (by linarith)
  nlinarith [sq_nonneg V]

theorem Snapshot.of {i : PlanIn} {q : Profile} {t S V : ℝ} (h : Snapshot i q t S V) {p length} (ho : i.Of p length)
    {l r : AccDec ℝ} {w m : ℝ} (hp : Planned i q l r w m) (hl : q.PastLeft (fin t)) :
    (i.at t S V).Of (q.rebase (fin t)) length := by
  refine ⟨?_, ?_, rfl, h.v, ?_, hp.a, hp.d, hp.j⟩
  · rw [ho.length]; simp [PlanIn.at]
  · rw [Profile.rebase_s hl, h.s]; rfl
  · show q.right.vEnd = _
    rw [hp.right]
    show fin r.vEnd = _
    rw [hp.rOk.vEnd]; rfl

/-- The stop plan. -/
theorem stop_planned {i : PlanIn} {p : Profile} {length : Num} (ho : i.Of p length) (h : i.Feasible) (hv : i.vE = 0)
    {ov : Num} (hfeed : (p.vFeed * ov).NonNeg) (hvm : p.vMax.NonNeg) (minLen : ℝ) :
    ∃ l r m, Planned i (p.plan length ov minLen .minimizeSpeed) l r 0 m := by
  obtain ⟨l, r, w, m, hp, -, hw, -, -, -⟩ := plan_planned ho h hfeed hvm minLen .minimizeSpeed
  have : w = 0 := by
    rw [hw rfl]
    apply Real.sqrt_eq_zero'.2
    apply div_nonpos_of_nonpos_of_nonneg _ h.den.le
    have := h.slow
    rw [hv] at this ⊢
    nlinarith [h.a]
  subst this
  exact ⟨l, r, m, hp⟩

end Moovr
