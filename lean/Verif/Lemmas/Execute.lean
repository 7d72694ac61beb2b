import Verif.Spec.Execute
import Verif.Lemmas.Replan
import Verif.Lemmas.Steps
import Mathlib.Analysis.Calculus.MeanValue
import Mathlib.Analysis.SpecialFunctions.Trigonometric.Bounds
/-!
# Queued motions that are planned from rest to rest
-/
namespace Moovr
open Num AccDec Set ExecSpec

/-! ## Plans from rest -/

/-- A profile from which (the rest of) a request is planned, to end at rest. -/
structure Base (M : Machine) (r : SimplifiedMotion) (i : PlanIn) (p : Profile) : Prop where
  of : i.Of p r.trajectory.length
  feasible : i.Feasible
  vE : i.vE = 0
  jerk : i.j = M.jMax
  vFeed : p.vFeed = r.vFeed
  vMax : p.vMax.Pos
  speed : ∀ v : ℝ, 0 ≤ v → (fin v).le p.vMax = true → ∀ axis, axis < M.n → v * |r.direction axis| ≤ M.vMax axis
  turn : ∀ v : ℝ, 0 ≤ v → (fin v).le p.vMax = true → ∀ axis, axis < M.n →
    (axis = r.trajectory.arcAxis0 ∨ axis = r.trajectory.arcAxis1) → v ^ 2 ≤ M.aMax axis * val r.trajectory.radius
  speedUp : ∀ axis, axis < M.n → i.a * |r.direction axis| ≤ M.aMax axis
  slowDown : ∀ axis, axis < M.n → -i.d * |r.direction axis| ≤ -M.dMax axis
  allowed : ∀ v a : ℝ, Allowed M r v a → (fin v).le p.vMax = true ∧ a ≤ i.a ∧ a ≤ -i.d

/-- A profile from which a request is planned: nothing done yet, at rest at both ends. -/
structure Rest (M : Machine) (r : SimplifiedMotion) (i : PlanIn) (p : Profile) : Prop extends Base M r i p where
  length : i.L = val r.trajectory.length
  doneL : i.doneL = 0
  doneT : i.doneT = 0
  vS : i.vS = 0

/-- A profile planned from rest, with a feed override. -/
def RestPlan (M : Machine) (r : SimplifiedMotion) (ov : Num) (st : Strategy) (q : Profile) : Prop :=
  ∃ i p, Rest M r i p ∧ (r.vFeed * ov).Pos ∧ q = p.plan r.trajectory.length ov M.minLengthSProfile st

theorem rest_request {M : Machine} (hM : M.Ok) {r : SimplifiedMotion} (h : Moves M.n r (val r.trajectory.length)) (p : Profile) :
    ∃ i, Rest M r i (reqProfile M p r) := by
  obtain ⟨i, h1, h2, h3, h4, h5, h6, h7, h8, h9, h10⟩ := reqProfile_of hM h p
  refine ⟨i, ⟨h1, h2, h7, h8, h9, h10, ?_, ?_, ?_, ?_, ?_⟩, h3, h4, h5, h6⟩
  rotate_left
  · intro v hv hle axis hax harc
    obtain ⟨rho, hrho, hd⟩ := h.dirs
    obtain ⟨hl, -⟩ := limit_spec hM hd p
    have := hl.v
    change (fin v).le (p.limit M (.ofReq r.trajectory)).vMax = true at hle
    generalize (p.limit M (.ofReq r.trajectory)).vMax = x at this hle
    cases this with
    | inf hf => exact absurd (show axis = _ ∨ axis = _ from harc) (hf axis hax).2
    | val x hx hok _ =>
      rw [le_fin, decide_eq_true_eq] at hle
      rw [hrho]
      exact (pow_le_pow_left₀ hv hle 2).trans (hok.2 axis hax harc)
  · intro axis hax
    obtain ⟨rho, hrho, hd⟩ := h.dirs
    obtain ⟨hl, -⟩ := limit_spec hM hd p
    have := hl.a
    have e := h1.a
    change (p.limit M (.ofReq r.trajectory)).aMax = _ at e
    rw [e] at this
    cases this with
    | val x hx hok hatt => exact hok axis hax
  · intro axis hax
    obtain ⟨rho, hrho, hd⟩ := h.dirs
    obtain ⟨hl, -⟩ := limit_spec hM hd p
    have := hl.d
    have e := h1.d
    change (p.limit M (.ofReq r.trajectory)).dMax = _ at e
    rw [e, fin_neg] at this
    cases this with
    | val x hx hok hatt => exact hok axis hax
  · intro v a hall
    obtain ⟨rho, hrho, hd⟩ := h.dirs
    obtain ⟨hl, -⟩ := limit_spec hM hd p
    obtain ⟨k, hk, hne⟩ := h.direction_ne
    have le_of : ∀ {x y B : ℝ} {m : Nat}, r.direction m ≠ 0 → x * |r.direction m| = B → y * |r.direction m| ≤ B → y ≤ x := by
      intro x y B m hm hx hy
      rw [← hx] at hy
      exact le_of_mul_le_mul_right hy (abs_pos.2 hm)
    refine ⟨?_, ?_, ?_⟩
    · show (fin v).le (p.limit M (.ofReq r.trajectory)).vMax = true
      have := hl.v
      generalize (p.limit M (.ofReq r.trajectory)).vMax = x at this
      cases this with
      | inf hf => rfl
      | val x hx _ hatt =>
        rw [le_fin, decide_eq_true_eq]
        rcases hatt with ⟨m, hm, hne, e⟩ | ⟨m, hm, harc, e⟩
        · exact le_of hne e (hall.speed m hm)
        · have := hall.turn m hm harc
          rw [hrho] at this
          change v ^ 2 ≤ M.aMax m * rho at this
          rw [← e] at this
          exact (sq_le_sq₀ hall.v0.le hx.le).1 this
    · have := hl.a
      have e := h1.a
      change (p.limit M (.ofReq r.trajectory)).aMax = _ at e
      rw [e] at this
      cases this with
      | val x hx _ hatt =>
        obtain ⟨m, hm, hne, e⟩ := hatt
        exact le_of hne e (hall.acc m hm)
    · have := hl.d
      have e := h1.d
      change (p.limit M (.ofReq r.trajectory)).dMax = _ at e
      rw [e, fin_neg] at this
      cases this with
      | val x hx _ hatt =>
        obtain ⟨m, hm, hne, e⟩ := hatt
        exact le_of hne e (hall.dec m hm)
  intro v hv hle axis hax
  obtain ⟨rho, -, hd⟩ := h.dirs
  obtain ⟨hl, -⟩ := limit_spec hM hd p
  have := hl.v
  change (fin v).le (p.limit M (.ofReq r.trajectory)).vMax = true at hle
  generalize (p.limit M (.ofReq r.trajectory)).vMax = x at this hle
  cases this with
  | inf hf => rw [(hf axis hax).1]; simpa using (hM.vMax axis hax).le
  | val x hx hok _ =>
    rw [le_fin, decide_eq_true_eq] at hle
    exact (mul_le_mul_of_nonneg_right hle (abs_nonneg _)).trans (hok.1 axis hax)

theorem restPlan_set {M : Machine} (hM : M.Ok) {r : SimplifiedMotion} (h : Moves M.n r (val r.trajectory.length)) (x : Path)
    (p : Profile) (o : Overrides) (ho : (r.vFeed * o.feedOverride).Pos) (st : Strategy) :
    RestPlan M r o.feedOverride st (MotionItem.setProfile M x p r o st) := by
  obtain ⟨i, hi⟩ := rest_request hM h p
  exact ⟨i, _, hi, ho, setProfile_eq h.type x p o st⟩

theorem Planned.of {i : PlanIn} {q : Profile} {l r : AccDec ℝ} {w m : ℝ} (h : Planned i q l r w m) {length : Num}
    (hl : length = fin (i.doneL + i.L)) : i.Of q length := by
  refine ⟨hl, h.doneL, h.doneT, ?_, ?_, h.a, h.d, h.j⟩
  · rw [h.left]; show fin l.vStart = _; rw [h.lOk.vStart]
  · rw [h.right]; show fin r.vEnd = _; rw [h.rOk.vEnd]

/-- The plan is again a profile from which the same motion can be planned. -/
theorem Base.next {M : Machine} {r : SimplifiedMotion} {i i' : PlanIn} {p q : Profile} (h : Base M r i p)
    (ho : i'.Of q r.trajectory.length) (hf : i'.Feasible) (hv : i'.vE = 0) (hj : i'.j = i.j) (ha : i'.a = i.a) (hd : i'.d = i.d)
    (ef : q.vFeed = p.vFeed) (ev : q.vMax = p.vMax) : Base M r i' q :=
  ⟨ho, hf, hv, hj.trans h.jerk, ef.trans h.vFeed, by rw [ev]; exact h.vMax, by rw [ev]; exact h.speed, by rw [ev]; exact h.turn,
    by rw [ha]; exact h.speedUp, by rw [hd]; exact h.slowDown, by rw [ev, ha, hd]; exact h.allowed⟩

theorem RestPlan.rest {M : Machine} {r : SimplifiedMotion} {ov : Num} {st : Strategy} {q : Profile} (h : RestPlan M r ov st q) :
    ∃ i, Rest M r i q := by
  obtain ⟨i, p, hr, hov, rfl⟩ := h
  obtain ⟨l, rr, w, m, hp, -, -, -, ef, ev⟩ := plan_planned hr.of hr.feasible (feedOverride := ov)
    (by rw [hr.vFeed]; exact hov.nonNeg) hr.vMax.nonNeg M.minLengthSProfile st
  exact ⟨i, hr.toBase.next (hp.of hr.of.length) hr.feasible hr.vE rfl rfl rfl ef ev, hr.length, hr.doneL, hr.doneT, hr.vS⟩

theorem RestPlan.optimize {M : Machine} {r : SimplifiedMotion} {ov : Num} {st : Strategy} {q : Profile} (h : RestPlan M r ov st q)
    {x : Path} (hx : x.type.moves = true) (hl : x.trajectory.length = r.trajectory.length) {o : Overrides}
    (ho : (r.vFeed * o.feedOverride).Pos) (st' : Strategy) : RestPlan M r o.feedOverride st' (MotionItem.optimize M o st' x q) := by
  obtain ⟨i, hi⟩ := h.rest
  refine ⟨i, q, hi, ho, ?_⟩
  unfold MotionItem.optimize
  rw [if_pos hx, hl]

theorem RestPlan.optimizeAt {M : Machine} {r : SimplifiedMotion} {ov : Num} {st : Strategy} {q : Profile} (h : RestPlan M r ov st q)
    {x : Path} (hx : x.type.moves = true) (hl : x.trajectory.length = r.trajectory.length) {o : Overrides}
    (ho : (r.vFeed * o.feedOverride).Pos) (st' : Strategy) : RestPlan M r o.feedOverride st' (MotionItem.optimizeAt M o st' (fin 0) x q) := by
  obtain ⟨i, p, hr, hov, e⟩ := h
  obtain ⟨l, rr, w, m, hp, -, -, -, ef, ev⟩ := plan_planned hr.of hr.feasible (feedOverride := ov)
    (by rw [hr.vFeed]; exact hov.nonNeg) hr.vMax.nonNeg M.minLengthSProfile st
  rw [← e] at hp ef ev
  have ho' := hp.of hr.of.length
  have h0 : (fin 0).le q.doneDuration = true := by rw [hp.doneT, hr.doneT, le_fin]; simp
  have hl0 := hp.lOk.good.dur_nonneg
  have hv : q.v (fin 0) = fin 0 := by
    rw [hp.v_left (by rw [hr.doneT]; linarith), hr.doneT, if_pos le_rfl, hr.vS]
  refine ⟨i, q.rebase (fin 0), ⟨hr.toBase.next ⟨ho'.length, ?_, ?_, ?_, ho'.vE, ho'.a, ho'.d, ho'.j⟩ hr.feasible hr.vE rfl rfl
    rfl ef ev, hr.length, hr.doneL, hr.doneT, hr.vS⟩, ho, ?_⟩
  · rw [Profile.rebase_s (Or.inl h0)]
    unfold Profile.s
    rw [if_pos h0, hp.doneL]
  · show fin 0 = _; rw [hr.doneT]
  · show q.v (fin 0) = _; rw [hv, hr.vS]
  · rw [optimizeAt_eq hx, hl]

theorem RestPlan.endAtRest {M : Machine} {r : SimplifiedMotion} {ov : Num} {st : Strategy} {q : Profile} (h : RestPlan M r ov st q) :
    M.kit.endAtRest q = q := by
  obtain ⟨i, hi⟩ := h.rest
  show ({ q with right := { q.right with vEnd := fin 0 } } : Profile) = q
  have e := hi.of.vE
  rw [hi.vE] at e
  rw [← e]

theorem RestPlan.startAtRest {M : Machine} {r : SimplifiedMotion} {ov : Num} {st : Strategy} {q : Profile} (h : RestPlan M r ov st q) :
    M.kit.startAtRest q = q := by
  obtain ⟨i, hi⟩ := h.rest
  show ({ q with left := { q.left with vStart := fin 0 } } : Profile) = q
  have e := hi.of.vS
  rw [hi.vS] at e
  rw [← e]

/-! ## Geometry -/

theorem place_lipschitz {n : Nat} {r : SimplifiedMotion} (h : Executable n r) {axis : Nat} (ha : axis < n) (s s' : ℝ) :
    |place r axis s - place r axis s'| ≤ |r.direction axis| * |s - s'| := by
  have hL := h.moves.pos
  have cosl : ∀ x y : ℝ, |Real.cos x - Real.cos y| ≤ |x - y| := by
    intro x y
    have := Real.lipschitzWith_cos.dist_le_mul x y
    simpa [Real.dist_eq] using this
  have sinl : ∀ x y : ℝ, |Real.sin x - Real.sin y| ≤ |x - y| := by
    intro x y
    have := Real.lipschitzWith_sin.dist_le_mul x y
    simpa [Real.dist_eq] using this
  by_cases hc : axis = r.trajectory.arcAxis0 ∨ axis = r.trajectory.arcAxis1
  · have hd : r.direction axis = 1 := by unfold SimplifiedMotion.direction; rw [if_pos hc]
    obtain ⟨x, hx, hpos⟩ := h.moves.radius
    have hx0 := hpos axis ha hc
    obtain ⟨-, -, -, -, -, hle⟩ := h.arc (by rcases hc with rfl | rfl <;> simp [ha])
    rw [hd, abs_one, one_mul]
    have hr : val r.trajectory.radius = x := by rw [hx]; rfl
    have key : ∀ y : ℝ, |y| ≤ |(val r.trajectory.startAngle + val r.trajectory.deltaAngle / val r.trajectory.length * s) -
        (val r.trajectory.startAngle + val r.trajectory.deltaAngle / val r.trajectory.length * s')| →
        |val r.trajectory.radius * y| ≤ |s - s'| := by
      intro y hy
      rw [show (val r.trajectory.startAngle + val r.trajectory.deltaAngle / val r.trajectory.length * s) -
        (val r.trajectory.startAngle + val r.trajectory.deltaAngle / val r.trajectory.length * s') =
        val r.trajectory.deltaAngle / val r.trajectory.length * (s - s') by ring, abs_mul, abs_div, abs_of_pos hL] at hy
      rw [abs_mul, abs_of_pos (by rw [hr]; exact hx0)]
      calc val r.trajectory.radius * |y|
          ≤ val r.trajectory.radius * (|val r.trajectory.deltaAngle| / val r.trajectory.length * |s - s'|) :=
            mul_le_mul_of_nonneg_left hy (by rw [hr]; exact hx0.le)
        _ = (val r.trajectory.radius * |val r.trajectory.deltaAngle|) / val r.trajectory.length * |s - s'| := by ring
        _ ≤ 1 * |s - s'| := mul_le_mul_of_nonneg_right ((div_le_one hL).2 hle) (abs_nonneg _)
        _ = |s - s'| := one_mul _
    unfold place
    by_cases h0 : axis = r.trajectory.arcAxis0
    · simp only [if_pos h0]
      rw [add_sub_add_left_eq_sub, ← mul_sub]
      exact key _ (cosl _ _)
    · have h1 : axis = r.trajectory.arcAxis1 := hc.resolve_left h0
      simp only [if_neg h0, if_pos h1]
      rw [add_sub_add_left_eq_sub, ← mul_sub]
      exact key _ (sinl _ _)
  · obtain ⟨x, hx⟩ := h.moves.delta axis ha
    have hd : r.direction axis = val (r.trajectory.delta axis) / val r.trajectory.length := by
      unfold SimplifiedMotion.direction
      rw [if_neg hc, hx, h.moves.length]; rfl
    unfold place
    simp only [if_neg (fun h => hc (.inl h)), if_neg (fun h => hc (.inr h))]
    rw [add_sub_add_left_eq_sub, ← mul_sub, hd, abs_mul]

theorem position_place {n : Nat} {r : SimplifiedMotion} (h : Executable n r) {axis : Nat} (ha : axis < n) (s : ℝ) :
    (Trajectory.ofReq r.trajectory).position axis (fin s) = fin (place r axis s) ∧
    ((Trajectory.ofReq r.trajectory).isMoving axis = false → ∀ s', place r axis s = place r axis s') := by
  have hL := h.moves.pos
  have hl := h.moves.length
  obtain ⟨x0, hx0⟩ := h.start axis ha
  obtain ⟨x, hx⟩ := h.moves.delta axis ha
  obtain ⟨rho, hrho, -⟩ := h.moves.radius
  have hq : ∀ {y : Num} {z : ℝ}, y = fin z → y / r.trajectory.length = fin (val y / val r.trajectory.length) := by
    intro y z hy
    rw [hy, hl, fin_div hL.ne']; rfl
  have hmv : ∀ y : ℝ, (!(fin y).eq (fin 0)) = false → y = 0 := by
    intro y hy; simpa using hy
  unfold Trajectory.position Trajectory.isMoving place
  simp only [Trajectory.ofReq]
  by_cases h0 : axis = r.trajectory.arcAxis0
  · obtain ⟨-, ⟨c0, hc0⟩, -, ⟨θ, hθ⟩, ⟨φ, hφ⟩, -⟩ := h.arc (by rw [← h0]; exact .inl ha)
    simp only [if_pos h0, if_pos (Or.inl h0 : axis = r.trajectory.arcAxis0 ∨ axis = r.trajectory.arcAxis1), hq hφ]
    refine ⟨by rw [hc0, hrho, hθ]; rfl, fun hm s' => ?_⟩
    rw [hmv _ hm]; simp
  · by_cases h1 : axis = r.trajectory.arcAxis1
    · obtain ⟨-, -, ⟨c0, hc0⟩, ⟨θ, hθ⟩, ⟨φ, hφ⟩, -⟩ := h.arc (by rw [← h1]; exact .inr ha)
      simp only [if_neg h0, if_pos h1, if_pos (Or.inr h1 : axis = r.trajectory.arcAxis0 ∨ axis = r.trajectory.arcAxis1), hq hφ]
      refine ⟨by rw [hc0, hrho, hθ]; rfl, fun hm s' => ?_⟩
      rw [hmv _ hm]; simp
    · have hn : ¬ (axis = r.trajectory.arcAxis0 ∨ axis = r.trajectory.arcAxis1) := fun h => h.elim h0 h1
      simp only [if_neg h0, if_neg h1, if_neg hn, hq hx]
      refine ⟨by rw [hx0]; rfl, fun hm s' => ?_⟩
      rw [hmv _ hm]; simp

/-! ## What a queued motion does -/

/-- The cell holds the path of the request. -/
structure Holds (M : Machine) (r : SimplifiedMotion) (x : Motion M.kit) : Prop where
  request : x.request = some r
  type : x.traj.type.moves = true
  traj : x.traj.trajectory = .ofReq r.trajectory

/-- Planned from rest, with given or some override and strategy. -/
def Ready (M : Machine) (ov : Num) (st : Strategy) (x : Motion M.kit) (r : SimplifiedMotion) : Prop :=
  Holds M r x ∧ RestPlan M r ov st x.prof
@[inherit_doc Ready] def Waits (M : Machine) (x : Motion M.kit) (r : SimplifiedMotion) : Prop := ∃ ov st, Ready M ov st x r

/-- The profile is a plan, with a positive cruise speed; all its speeds are within the limits and the feed rate `f`. -/
def Under (M : Machine) (r : SimplifiedMotion) (f : Num) (q : Profile) : Prop :=
  ∃ i l rr w m B, Base M r i q ∧ Planned i q l rr w m ∧ 0 < w ∧ w ≤ B ∧ i.vS ≤ B ∧ (fin B).le q.vMax = true ∧ (fin B).le f = true ∧
    0 ≤ i.doneT ∧ i.doneL + i.L = val r.trajectory.length

/-- The motion `x` in the queue executes the job, from the time on at which it was planned. -/
structure Runs (M : Machine) (x : Motion M.kit) (j : Job) : Prop where
  holds : Holds M j.r x
  exe : Executable M.n j.r
  under : Under M j.r j.f x.prof
  duration : x.prof.duration = fin j.T
  noStop : x.prof.tStop = posInf
  s : ∀ t, x.prof.doneDuration.le (fin t) = true → x.prof.s (fin t) = fin (j.S t)
  v : ∀ t, x.prof.doneDuration.le (fin t) = true → x.prof.v (fin t) = fin (j.V t)
  ok : j.Sound M

theorem Runs.request {M : Machine} {x : Motion M.kit} {j : Job} (h : Runs M x j) : x.request = some j.r := h.holds.request

theorem Runs.position {M : Machine} {x : Motion M.kit} {j : Job} (h : Runs M x j) (axis : Nat) (ha : axis < M.n) (s : ℝ) :
    x.traj.trajectory.position axis (fin s) = fin (place j.r axis s) := by
  rw [h.holds.traj]; exact (position_place h.exe ha s).1

theorem Runs.still {M : Machine} {x : Motion M.kit} {j : Job} (h : Runs M x j) (axis : Nat) (ha : axis < M.n)
    (hm : x.traj.trajectory.isMoving axis = false) (s s' : ℝ) : place j.r axis s = place j.r axis s' := by
  rw [h.holds.traj] at hm; exact (position_place h.exe ha s).2 hm s'

/-- Law of a plan. -/
theorem law_of_planned {M : Machine} {r : SimplifiedMotion} (hr : Executable M.n r) {f : Num} {i : PlanIn} {q : Profile}
    {l rr : AccDec ℝ} {w m : ℝ} (h : Base M r i q) (hpl : Planned i q l rr w m) (hw : 0 < w) {B : ℝ} (hB : w ≤ B) (hS : i.vS ≤ B)
    (hwv : (fin B).le q.vMax = true) (hwf : (fin B).le f = true) :
    Law M r f (Planned.sFun i l rr w m) (Planned.vFun i l rr w m) i.doneT (Planned.tEnd i l rr w m) := by
  have hT0 : i.doneT ≤ Planned.tEnd i l rr w m := by
    have := hpl.lOk.good.dur_nonneg; have := hpl.rOk.good.dur_nonneg; have := hpl.mw
    unfold Planned.tEnd; linarith
  have hmono := hpl.monotone_sFun h.feasible hw
  have hvb : ∀ t, t ≤ Planned.tEnd i l rr w m → 0 ≤ Planned.vFun i l rr w m t ∧ Planned.vFun i l rr w m t ≤ B := by
    intro t ht
    obtain ⟨b1, b2⟩ := hpl.v_bounds ht
    refine ⟨le_trans (le_min (le_min h.feasible.vS h.feasible.vE) hw.le) b1, b2.trans (max_le (max_le hS ?_) hB)⟩
    rw [h.vE]; exact hw.le.trans hB
  have hlip : ∀ a b, i.doneT ≤ a → a ≤ b → b ≤ Planned.tEnd i l rr w m →
      Planned.sFun i l rr w m b - Planned.sFun i l rr w m a ≤ B * (b - a) := by
    intro a b ha hab hb
    have := (convex_Icc a b).image_sub_le_mul_sub_of_deriv_le (f := Planned.sFun i l rr w m) (C := B)
      (hpl.continuous_sFun hw).continuousOn ?_ ?_ a (left_mem_Icc.2 hab) b (right_mem_Icc.2 hab) hab
    · exact this
    · intro x hx
      rw [interior_Icc] at hx
      exact (hpl.deriv_sFun hw (by linarith [hx.1])).differentiableAt.differentiableWithinAt
    · intro x hx
      rw [interior_Icc] at hx
      rw [(hpl.deriv_sFun hw (by linarith [hx.1])).deriv]
      exact (hvb x (by linarith [hx.2])).2
  have hacc := hpl.lip_vFun h.feasible hT0
  refine ⟨?_, hpl.continuous_sFun hw, hpl.continuous_vFun, ?_, ?_, fun t h0 h1 => hpl.deriv_sFun hw h0, ?_, ?_, ?_⟩
  · intro a b ha hab hb
    exact hmono (mem_Iic.2 (hab.trans hb)) (mem_Iic.2 hb) hab
  · intro axis hax a b ha hab hb
    refine (place_lipschitz hr hax _ _).trans ?_
    have h1 := hmono (mem_Iic.2 (hab.trans hb)) (mem_Iic.2 hb) hab
    have h2 := h.speed B (hw.le.trans hB) hwv axis hax
    rw [abs_of_nonneg (sub_nonneg.2 h1)]
    calc |r.direction axis| * (Planned.sFun i l rr w m b - Planned.sFun i l rr w m a)
        ≤ |r.direction axis| * (B * (b - a)) := mul_le_mul_of_nonneg_left (hlip a b ha hab hb) (abs_nonneg _)
      _ = B * |r.direction axis| * (b - a) := by ring
      _ ≤ M.vMax axis * (b - a) := mul_le_mul_of_nonneg_right h2 (sub_nonneg.2 hab)
  · intro y hy a b ha hab hb
    refine (hlip a b ha hab hb).trans (mul_le_mul_of_nonneg_right ?_ (sub_nonneg.2 hab))
    rw [hy, le_fin, decide_eq_true_eq] at hwf
    exact hwf
  · intro axis hax a b ha hab hb
    have h1 := (hacc a b ha hab hb).2
    calc (Planned.vFun i l rr w m b - Planned.vFun i l rr w m a) * |r.direction axis|
        ≤ i.a * (b - a) * |r.direction axis| := mul_le_mul_of_nonneg_right h1 (abs_nonneg _)
      _ = i.a * |r.direction axis| * (b - a) := by ring
      _ ≤ M.aMax axis * (b - a) := mul_le_mul_of_nonneg_right (h.speedUp axis hax) (sub_nonneg.2 hab)
  · intro axis hax a b ha hab hb
    have h1 := (hacc a b ha hab hb).1
    calc (Planned.vFun i l rr w m a - Planned.vFun i l rr w m b) * |r.direction axis|
        ≤ -i.d * (b - a) * |r.direction axis| := mul_le_mul_of_nonneg_right (by linarith) (abs_nonneg _)
      _ = -i.d * |r.direction axis| * (b - a) := by ring
      _ ≤ -M.dMax axis * (b - a) := mul_le_mul_of_nonneg_right (h.slowDown axis hax) (sub_nonneg.2 hab)
  · intro axis hax harc t h0 h1
    obtain ⟨b0, b1⟩ := hvb t h1
    exact (pow_le_pow_left₀ b0 b1 2).trans (h.turn B (hw.le.trans hB) hwv axis hax harc)

/-- What is known of a plan at maximum speed. -/
theorem maximized {M : Machine} {r : SimplifiedMotion} {i : PlanIn} {p : Profile} (h : Base M r i p) (hS : i.vS = 0) (hL : 0 < i.L)
    {ov : Num} (hov : (r.vFeed * ov).Pos) :
    ∃ l rr w m, Planned i (p.plan r.trajectory.length ov M.minLengthSProfile .maximizeSpeed) l rr w m ∧ 0 < w ∧
      Base M r i (p.plan r.trajectory.length ov M.minLengthSProfile .maximizeSpeed) ∧
      (fin w).le (p.plan r.trajectory.length ov M.minLengthSProfile .maximizeSpeed).vMax = true ∧
      (fin w).le (r.vFeed * ov) = true ∧
      (∀ v a, Allowed M r v a → (fin v).le (r.vFeed * ov) = true → v ^ 2 ≤ a * i.L → v ≤ w) ∧
      w * (Planned.tEnd i l rr w m - i.doneT) ≤ 2 * i.L := by
  obtain ⟨l, rr, w, m, hpl, hcap, -, hfull, ef, ev⟩ := plan_planned h.of h.feasible (feedOverride := ov)
    (by rw [h.vFeed]; exact hov.nonNeg) h.vMax.nonNeg M.minLengthSProfile .maximizeSpeed
  have hw : 0 < w := cruise_pos h.feasible hL h.vMax (by rw [h.vFeed]; exact hov) (hfull rfl)
  have hcap' : (fin w).le (p.vFeed * ov) = true ∧ (fin w).le p.vMax = true := by
    rcases hcap with hc | hc
    · rw [hS, h.vE, max_self] at hc; linarith
    · exact hc.2
  refine ⟨l, rr, w, m, hpl, hw, h.next (hpl.of h.of.length) h.feasible h.vE rfl rfl rfl ef ev, by rw [ev]; exact hcap'.2,
    by rw [← h.vFeed]; exact hcap'.1, ?_, ?_⟩
  · intro v a hall hvf hva
    obtain ⟨b1, b2, b3⟩ := h.allowed v a hall
    obtain ⟨x, hxw, hx⟩ := hfull rfl
    refine le_trans ?_ hxw
    rcases hx with rfl | hx | hx
    · refine Real.le_sqrt_of_sq_le (hva.trans ?_)
      unfold PlanIn.hi
      rw [hS, h.vE, le_div_iff₀ h.feasible.den]
      have ha := hall.a0
      have k1 : 0 ≤ (i.a - a) * -i.d := mul_nonneg (by linarith) (by linarith)
      have k2 : 0 ≤ (-i.d - a) * i.a := mul_nonneg (by linarith) (by linarith)
      nlinarith [mul_nonneg hL.le k1, mul_nonneg hL.le k2]
    · rw [← hx, le_fin, decide_eq_true_eq] at b1; exact b1
    · rw [← h.vFeed, ← hx, le_fin, decide_eq_true_eq] at hvf; exact hvf
  · have e1 : 2 * l.length = w * l.duration := by
      rw [hpl.lOk.good.length, hpl.lOk.good.duration]
      unfold SCurve.len SCurve.dur
      have e2 : l.curve.vS = 0 := by rw [curve]; split <;> simp [hpl.lOk.vStart, hS]
      have e3 : l.curve.vE = w := by rw [curve]; split <;> simp [hpl.lOk.vEnd]
      rw [e2, e3]; ring
    have e1' : 2 * rr.length = w * rr.duration := by
      rw [hpl.rOk.good.length, hpl.rOk.good.duration]
      unfold SCurve.len SCurve.dur
      have e2 : rr.curve.vE = 0 := by rw [curve]; split <;> simp [hpl.rOk.vEnd, h.vE]
      have e3 : rr.curve.vS = w := by rw [curve]; split <;> simp [hpl.rOk.vStart]
      rw [e2, e3]; ring
    have e2 : w * (m / w) = m := by field_simp
    have := hpl.total; have := hpl.m0
    unfold Planned.tEnd
    linarith

/-- A motion planned from rest at maximum speed executes its request. -/
theorem runs_of_restPlan {M : Machine} {r : SimplifiedMotion} (hr : Executable M.n r) {x : Motion M.kit} (hx : Holds M r x)
    {ov : Num} (hp : RestPlan M r ov .maximizeSpeed x.prof) : ∃ j : Job, j.r = r ∧ j.f = r.vFeed * ov ∧ Runs M x j ∧ j.Ok M := by
  obtain ⟨i, p, h, hov, e⟩ := hp
  have hLpos : 0 < i.L := by rw [h.length]; exact hr.moves.pos
  obtain ⟨l, rr, w, m, hpl, hw, hb, hwv, hwf, hfast, hwT⟩ := maximized h.toBase h.vS hLpos hov
  rw [← e] at hpl hb hwv
  have hlaw := law_of_planned hr hb hpl hw le_rfl (by rw [h.vS]; exact hw.le) hwv hwf
  rw [h.doneT] at hlaw
  have hT0 : 0 ≤ Planned.tEnd i l rr w m := by
    have := hpl.lOk.good.dur_nonneg; have := hpl.rOk.good.dur_nonneg; have := hpl.mw
    unfold Planned.tEnd; rw [h.doneT]; linarith
  have hS0 : Planned.sFun i l rr w m 0 = 0 := by
    have := hpl.s_start; rw [h.doneT, h.doneL] at this; exact this
  have hST : Planned.sFun i l rr w m (Planned.tEnd i l rr w m) = i.L := by
    rw [hpl.s_end hw, h.doneL, zero_add]
  have hsound : Job.Sound M ⟨r, r.vFeed * ov, Planned.tEnd i l rr w m, Planned.sFun i l rr w m, Planned.vFun i l rr w m⟩ := by
    refine ⟨hlaw, ?_, hS0, ?_, ?_, ?_⟩
    · refine lt_of_le_of_ne hT0 fun e => ?_
      change 0 = Planned.tEnd i l rr w m at e
      rw [← e, hS0] at hST
      exact hLpos.ne hST
    · show _ = val r.trajectory.length
      rw [← h.length]; exact hST
    · have := hpl.v_start; rw [h.doneT, h.vS] at this; exact this
    · have := hpl.v_end hw; rw [h.vE] at this; exact this
  refine ⟨⟨r, r.vFeed * ov, Planned.tEnd i l rr w m, Planned.sFun i l rr w m, Planned.vFun i l rr w m⟩, rfl, rfl,
    ⟨hx, hr, ⟨i, l, rr, w, m, w, hb, hpl, hw, le_rfl, by rw [h.vS]; exact hw.le, hwv, hwf, h.doneT.ge,
      by rw [h.doneL, h.length, zero_add]⟩, hpl.dur_eq hw, ?_, fun t _ => hpl.s_eq hw t,
      fun t _ => hpl.v_eq hw t, hsound⟩, hsound, ?_, ?_, ?_⟩
  · rw [hpl.tStop, if_neg hw.ne']
  · intro v a hall hvf hva
    change v ^ 2 ≤ a * val r.trajectory.length at hva
    rw [← h.length] at hva
    show v * Planned.tEnd i l rr w m ≤ 2 * val r.trajectory.length
    rw [← h.length]
    rw [h.doneT, sub_zero] at hwT
    exact (mul_le_mul_of_nonneg_right (hfast v a hall hvf hva) hT0).trans hwT
  · obtain ⟨s1, s2, s3⟩ := hpl.shape hw (by rw [h.vS]; exact hw.le) (by rw [h.vE]; exact hw.le)
    have hl := hpl.lOk.good.dur_nonneg; have hr' := hpl.rOk.good.dur_nonneg; have hm := hpl.mw
    have hva : Planned.vFun i l rr w m (i.doneT + l.duration) = w := s2 _ le_rfl (by linarith)
    refine ⟨i.doneT + l.duration, i.doneT + l.duration + m / w, by rw [h.doneT]; linarith, by linarith, ?_,
      fun x y h0 => s1 x y (by rw [h.doneT]; exact h0), fun x h1 h2 => (s2 x h1 h2).trans hva.symm, s3, fun v acc hall => ?_⟩
    · show _ ≤ Planned.tEnd i l rr w m
      unfold Planned.tEnd; linarith
    · obtain ⟨-, b2, b3⟩ := h.allowed v acc hall
      have k1 := hpl.lOk.brief' (by rw [h.vS]; exact hw.le)
      have k2 := hpl.rOk.brief (by rw [h.vE]; exact hw.le)
      rw [h.vS, sub_zero, h.jerk] at k1
      rw [h.vE, sub_zero, h.jerk] at k2
      change i.doneT + l.duration ≤ 2 * max (√(Planned.vFun i l rr w m _ / M.jMax)) (Planned.vFun i l rr w m _ / acc) ∧
        Planned.tEnd i l rr w m - _ ≤ 2 * max (√(Planned.vFun i l rr w m _ / M.jMax)) (Planned.vFun i l rr w m _ / acc)
      rw [hva, h.doneT]
      have key : ∀ y, acc ≤ y → 2 * max (√(w / M.jMax)) (w / y) ≤ 2 * max (√(w / M.jMax)) (w / acc) := fun y hy =>
        mul_le_mul_of_nonneg_left (max_le_max le_rfl (div_le_div_of_nonneg_left hw.le hall.a0 hy)) (by norm_num)
      refine ⟨by linarith [key _ b2], ?_⟩
      have : Planned.tEnd i l rr w m - (0 + l.duration + m / w) = rr.duration := by
        unfold Planned.tEnd; rw [h.doneT]; ring
      rw [this]; exact k2.trans (key _ b3)
  · have hl := hpl.lOk.good.dur_nonneg; have hr' := hpl.rOk.good.dur_nonneg; have hm := hpl.mw
    obtain ⟨-, s2, -⟩ := hpl.shape hw (by rw [h.vS]; exact hw.le) (by rw [h.vE]; exact hw.le)
    have hva : Planned.vFun i l rr w m (i.doneT + l.duration) = w := s2 _ le_rfl (by linarith)
    refine ⟨i.doneT + l.duration, by rw [h.doneT]; linarith, ?_, fun v a hall hvf hL => ?_⟩
    · show _ ≤ Planned.tEnd i l rr w m
      unfold Planned.tEnd; linarith
    · change v ^ 2 ≤ a * val r.trajectory.length at hL
      rw [← h.length] at hL
      show v ≤ Planned.vFun i l rr w m (i.doneT + l.duration)
      rw [hva]
      exact hfast v a hall hvf hL

theorem Waits.begun {M : Machine} {x : Motion M.kit} {r : SimplifiedMotion} (h : Waits M x r) : x.prof.doneDuration = fin 0 := by
  obtain ⟨ov, st, -, hp⟩ := h
  obtain ⟨i, hi⟩ := hp.rest
  rw [hi.of.doneT, hi.doneT]

end Moovr
