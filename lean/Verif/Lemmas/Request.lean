import Verif.Lemmas.PlanFun
import Verif.Lemmas.Limit
/-!
# Planning a new request
-/
namespace Moovr
open Num AccDec

theorem Num.Pos.nonNeg {x : Num} (h : x.Pos) : x.NonNeg := by
  rcases x with x | _ | _ | _ <;> simp_all [Num.Pos, Num.NonNeg]
  exact h.le

theorem fin_le_trans {x y : ℝ} (h : x ≤ y) {z : Num} (hz : (fin y).le z = true) : (fin x).le z = true := by
  rcases z with z | _ | _ | _
  · rw [le_fin, decide_eq_true_eq] at *; exact h.trans hz
  · rfl
  · simp [Num.le] at hz
  · simp [Num.le] at hz

theorem Moves.dirs {n : Nat} {r : SimplifiedMotion} {L : ℝ} (h : Moves n r L) :
    ∃ rho, r.trajectory.radius = fin rho ∧ (Trajectory.ofReq r.trajectory).Dirs n r.direction rho := by
  obtain ⟨rho, e, hr⟩ := h.radius
  refine ⟨rho, e, ?_, e, hr⟩
  intro i hi
  obtain ⟨x, hx⟩ := h.delta i hi
  simp only [Trajectory.ofReq, SimplifiedMotion.direction]
  by_cases hc : i = r.trajectory.arcAxis0 ∨ i = r.trajectory.arcAxis1
  · rw [if_pos hc, if_pos hc]
  · rw [if_neg hc, if_neg hc, hx, h.length, fin_div h.pos.ne']

theorem Moves.direction_ne {n : Nat} {r : SimplifiedMotion} {L : ℝ} (h : Moves n r L) :
    ∃ i, i < n ∧ r.direction i ≠ 0 := by
  obtain ⟨i, hi, hc⟩ := h.some
  refine ⟨i, hi, ?_⟩
  unfold SimplifiedMotion.direction
  by_cases hc' : i = r.trajectory.arcAxis0 ∨ i = r.trajectory.arcAxis1
  · rw [if_pos hc']; exact one_ne_zero
  · rw [if_neg hc']
    rcases hc with hc | hc | ⟨x, hx, e⟩
    · exact absurd (Or.inl hc) hc'
    · exact absurd (Or.inr hc) hc'
    · rw [e, h.length]; exact div_ne_zero hx h.pos.ne'

/-- The profile of a request before planning. -/
noncomputable def reqProfile (M : Machine) (p : Profile) (r : SimplifiedMotion) : Profile :=
  (p.limit M (.ofReq r.trajectory)).setSpeed r.vFeed

theorem setProfile_eq {M : Machine} {r : SimplifiedMotion} (ht : r.type.moves = true) (x : Path) (p : Profile)
    (o : Overrides) (st : Strategy) :
    MotionItem.setProfile M x p r o st =
      (reqProfile M p r).plan r.trajectory.length o.feedOverride M.minLengthSProfile st := by
  have e1 : (MotionItem.setPath x r).trajectory = .ofReq r.trajectory := by
    unfold MotionItem.setPath; rcases h : r.type <;> simp_all [MotionType.moves]
  have e2 : MotionItem.setProfile M x p r o st =
      MotionItem.optimize M o st (MotionItem.setPath x r) ((p.limit M (MotionItem.setPath x r).trajectory).setSpeed r.vFeed) := by
    unfold MotionItem.setProfile; rcases h : r.type <;> simp_all [MotionType.moves]
  have e3 : (MotionItem.setPath x r).type.moves = true := ht
  rw [e2, MotionItem.optimize, if_pos e3, e1]; rfl

/-- Planner inputs of a request. -/
theorem reqProfile_of {M : Machine} (hM : M.Ok) {r : SimplifiedMotion} {L : ℝ} (h : Moves M.n r L) (p : Profile) :
    ∃ i : PlanIn, i.Of (reqProfile M p r) r.trajectory.length ∧ i.Feasible ∧ i.L = L ∧ i.doneL = 0 ∧ i.doneT = 0 ∧ i.vS = 0 ∧
      i.vE = 0 ∧ i.j = M.jMax ∧ (reqProfile M p r).vFeed = r.vFeed ∧ (reqProfile M p r).vMax.Pos := by
  obtain ⟨rho, _, hd⟩ := h.dirs
  obtain ⟨hl, hj⟩ := limit_spec hM hd p
  obtain ⟨k, hk, hne⟩ := h.direction_ne
  have ha : ∃ a, 0 < a ∧ (p.limit M (.ofReq r.trajectory)).aMax = fin a := by
    have := hl.a
    generalize (p.limit M (.ofReq r.trajectory)).aMax = x at this
    cases this with
    | inf hf => exact absurd (hf k hk) hne
    | val a h1 _ _ => exact ⟨a, h1, rfl⟩
  have hdm : ∃ d, d < 0 ∧ (p.limit M (.ofReq r.trajectory)).dMax = fin d := by
    have := hl.d
    generalize (p.limit M (.ofReq r.trajectory)).dMax = x at this
    rcases x with x | _ | _ | _
    · cases this with
      | val y h1 _ _ => exact ⟨x, by linarith, rfl⟩
    · cases this
    · cases this with
      | inf hf => exact absurd (hf k hk) hne
    · cases this
  have hv : (p.limit M (.ofReq r.trajectory)).vMax.Pos := by
    have := hl.v
    generalize (p.limit M (.ofReq r.trajectory)).vMax = x at this
    cases this with
    | inf hf => trivial
    | val a h1 _ _ => exact h1
  obtain ⟨a, ha0, ea⟩ := ha
  obtain ⟨d, hd0, ed⟩ := hdm
  refine ⟨⟨L, 0, 0, 0, 0, a, d, M.jMax⟩, ⟨?_, rfl, rfl, rfl, rfl, ea, ed, hj⟩,
    ⟨h.pos.le, le_rfl, le_rfl, ha0, hd0, hM.jMax, ?_, ?_⟩, rfl, rfl, rfl, rfl, rfl, rfl, rfl, hv⟩
  · rw [h.length]; simp
  · show (0:ℝ) ^ 2 ≤ 0 ^ 2 - 2 * d * L; nlinarith [h.pos]
  · show (0:ℝ) ^ 2 ≤ 0 ^ 2 + 2 * a * L; nlinarith [h.pos]

/-- With the maximize-speed strategy the cruise speed is positive. -/
theorem cruise_pos {i : PlanIn} (h : i.Feasible) (hL : 0 < i.L) {w : ℝ} {vM f : Num} (hv : vM.Pos) (hf : f.Pos)
    (hx : ∃ x, x ≤ w ∧ (x = √i.hi ∨ fin x = vM ∨ fin x = f)) : 0 < w := by
  obtain ⟨x, hxw, rfl | rfl | rfl⟩ := hx
  · refine lt_of_lt_of_le (Real.sqrt_pos.2 ?_) hxw
    refine div_pos ?_ h.den
    nlinarith [mul_nonneg (mul_self_nonneg i.vE) h.a.le, mul_nonneg (mul_self_nonneg i.vS) (neg_nonneg.2 h.d.le),
      mul_pos (mul_pos hL h.a) (neg_pos.2 h.d)]
  · exact lt_of_lt_of_le hv hxw
  · exact lt_of_lt_of_le hf hxw

end Moovr
