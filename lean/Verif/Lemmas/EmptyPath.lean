import Verif.Lemmas.TickInv
/-!
# Motions of length zero

A request of length zero without any displacement: every quotient by its length is "not a number".
-/
namespace Moovr
open Num MotionCtrl

namespace Num

@[simp] theorem nan_add (x : Num) : nan + x = nan := by cases x <;> rfl
@[simp] theorem add_nan (x : Num) : x + nan = nan := by cases x <;> rfl
@[simp] theorem neg_nan : -nan = nan := rfl
@[simp] theorem neg_posInf : -posInf = negInf := rfl
@[simp] theorem neg_negInf : -negInf = posInf := rfl
@[simp] theorem nan_sub (x : Num) : nan - x = nan := nan_add (-x)
@[simp] theorem sub_nan (x : Num) : x - nan = nan := add_nan x
@[simp] theorem nan_mul (x : Num) : nan * x = nan := by cases x <;> rfl
@[simp] theorem mul_nan (x : Num) : x * nan = nan := by cases x <;> rfl
@[simp] theorem nan_div (x : Num) : nan / x = nan := by cases x <;> rfl
@[simp] theorem div_nan (x : Num) : x / nan = nan := by cases x <;> rfl
@[simp] theorem sqrt_nan : nan.sqrt = nan := rfl
@[simp] theorem abs_nan : nan.abs = nan := rfl
@[simp] theorem nan_lt (x : Num) : nan.lt x = false := by cases x <;> rfl
@[simp] theorem lt_nan (x : Num) : x.lt nan = false := by cases x <;> rfl
@[simp] theorem le_nan (x : Num) : x.le nan = false := by cases x <;> rfl
@[simp] theorem nan_le (x : Num) : nan.le x = false := by cases x <;> rfl
@[simp] theorem posInf_lt (x : Num) : posInf.lt x = false := by cases x <;> rfl
@[simp] theorem zero_mul_posInf : fin 0 * posInf = nan := by
  show infOfSign 0 = nan; simp [infOfSign]
@[simp] theorem zero_mul_negInf : fin 0 * negInf = nan := by
  show infOfSign (-0) = nan; simp [infOfSign]
@[simp] theorem posInf_mul_zero : posInf * fin 0 = nan := by
  show infOfSign 0 = nan; simp [infOfSign]
@[simp] theorem negInf_mul_zero : negInf * fin 0 = nan := by
  show infOfSign (-0) = nan; simp [infOfSign]

end Num

/-- A motion with neither length nor displacement. -/
structure ZeroReq (n : Nat) (r : SimplifiedMotion) : Prop where
  length : r.trajectory.length = fin 0
  delta : ∀ i, i < n → r.trajectory.delta i = fin 0
  arc0 : n ≤ r.trajectory.arcAxis0
  arc1 : n ≤ r.trajectory.arcAxis1

/-- The stored trajectory of such a motion. -/
structure EmptyPath (n : Nat) (t : Trajectory) : Prop where
  rate : ∀ i, i < n → t.deltaRealTime i = nan
  direction : ∀ i, i < n → t.directionUnitVector i = nan
  arc0 : n ≤ t.arcAxis0
  arc1 : n ≤ t.arcAxis1
  length : t.length = fin 0

theorem ZeroReq.path {n : Nat} {r : SimplifiedMotion} (h : ZeroReq n r) : EmptyPath n (.ofReq r.trajectory) := by
  have hne : ∀ i, i < n → ¬ (i = r.trajectory.arcAxis0 ∨ i = r.trajectory.arcAxis1) := fun i hi => by
    have := h.arc0; have := h.arc1; omega
  refine ⟨fun i hi => ?_, fun i hi => ?_, h.arc0, h.arc1, h.length⟩
  · show (if _ then _ else _) = nan
    rw [if_neg (hne i hi), h.length, h.delta i hi, zero_div_zero]
  · show (if _ then _ else _) = nan
    rw [if_neg (hne i hi), h.length, h.delta i hi, zero_div_zero]

/-- On such a motion every axis steps forward as long as it is below the value that the conversion of "not a number" to an
integer yields, and never backward. -/
theorem decision_empty {M : Machine} {c : MotionCtrl M.kit} (h : EmptyPath M.n c.buffer.getHead.traj.trajectory) (a : Nat) :
    c.decision a = if a < M.n ∧ c.machinePosition a < M.unspecified nan then some .forward else none := by
  unfold decision
  simp only
  by_cases ha : a < M.n
  · have h1 : M.kit.isMoving c.buffer.getHead.traj a = true := by
      show (!(c.buffer.getHead.traj.trajectory.deltaRealTime a).eq (fin 0)) = true
      rw [h.rate a ha]; rfl
    have h2 : ∀ d, M.kit.position c.buffer.getHead.traj a d = nan := by
      intro d
      show c.buffer.getHead.traj.trajectory.position a d = nan
      unfold Trajectory.position
      have := h.arc0; have := h.arc1
      rw [if_neg (by omega), if_neg (by omega), h.rate a ha]
      exact (congrArg _ (nan_mul d)).trans (add_nan _)
    have h3 : M.kit.needStepForward a nan (c.machinePosition a) = decide (c.machinePosition a < M.unspecified nan) := rfl
    have h4 : M.kit.needStepBackward a nan (c.machinePosition a) = false := rfl
    have ha' : a < M.kit.n := ha
    rw [h2, h3, h4, if_pos ⟨ha', h1⟩]
    by_cases hu : c.machinePosition a < M.unspecified nan
    · simp [hu, ha]
    · simp [hu]
  · have ha' : ¬ a < M.kit.n := ha
    rw [if_neg (by tauto), if_neg (by tauto)]

theorem move_empty {M : Machine} {c : MotionCtrl M.kit} (h : EmptyPath M.n c.buffer.getHead.traj.trajectory) (a : Nat) :
    c.move.1.machinePosition a =
      if a < M.n ∧ c.machinePosition a < M.unspecified nan then c.machinePosition a + 1 else c.machinePosition a := by
  show (match c.decision a with
      | some .forward => c.machinePosition a + 1
      | some .backward => c.machinePosition a - 1
      | none => c.machinePosition a) = _
  rw [decision_empty h a]
  by_cases hx : a < M.n ∧ c.machinePosition a < M.unspecified nan
  · rw [if_pos hx, if_pos hx]
  · rw [if_neg hx, if_neg hx]

/-! ## The plan of such a motion -/

/-- The limits and the state of the profile of a motion of length zero. -/
structure ZeroProf (M : Machine) (p : Profile) : Prop where
  vMax : p.vMax = posInf
  aMax : p.aMax = posInf
  dMax : p.dMax = negInf
  jMax : p.jMax = fin M.jMax
  doneLength : p.doneLength = fin 0
  doneDuration : p.doneDuration = fin 0
  vEnd : p.right.vEnd = fin 0
  vStart : p.left.vStart = fin 0 ∨ p.left.vStart = nan

theorem limit_empty {M : Machine} {t : Trajectory} (h : EmptyPath M.n t) (p : Profile) :
    p.limit M t = { p with vMax := posInf, aMax := posInf, dMax := negInf, jMax := fin M.jMax } := by
  have key : ∀ l : List Nat, (∀ i ∈ l, i < M.n) → ∀ q : Profile, l.foldl (Profile.limitAxis M t) q = q := by
    intro l
    induction l with
    | nil => intros; rfl
    | cons i l ih =>
      intro hl q
      have hi := hl i List.mem_cons_self
      have h0 := h.arc0; have h1 := h.arc1
      have : Profile.limitAxis M t q i = q := by
        have hne : ¬ (i = t.arcAxis0 ∨ i = t.arcAxis1) := by omega
        unfold Profile.limitAxis
        simp [h.direction i hi, hne]
      rw [List.foldl_cons, this]
      exact ih (fun j hj => hl j (List.mem_cons_of_mem _ hj)) q
  unfold Profile.limit
  rw [key _ (fun i hi => List.mem_range.1 hi)]

theorem zeroProf_set {M : Machine} {t : Trajectory} (h : EmptyPath M.n t) (p : Profile) (v : Num) :
    ZeroProf M ((p.limit M t).setSpeed v) := by
  rw [limit_empty h]
  exact ⟨rfl, rfl, rfl, rfl, rfl, rfl, rfl, .inl rfl⟩

/-- The limit speed of the planner is "not a number". -/
theorem choose_zero {M : Machine} {p : Profile} (h : ZeroProf M p) (hv : p.vFeed = posInf) {o : ℝ} (ho : 0 < o) (mL : ℝ) :
    p.chooseSpeed (fin 0) (fin o) mL .maximizeSpeed =
      (posInf, if (fin 0).lt (fin mL) then Order.firstOrder else .secondOrder) := by
  have hf : posInf * fin o = posInf := by
    show infOfSign o = posInf; simp [infOfSign, ho]
  unfold Profile.chooseSpeed Profile.vTri
  simp only [h.vMax, h.aMax, h.dMax, h.doneLength, h.vEnd, hv, hf, fin_mul, fin_sub, mul_zero, sub_zero, zero_mul_posInf,
    nan_sub, nan_mul, nan_add, nan_div, sqrt_nan, nan_lt, le_nan, posInf_lt, Bool.false_eq_true, if_false]

theorem choose_rest {M : Machine} {p : Profile} (h : ZeroProf M p) (ov : Num) (mL : ℝ) :
    p.chooseSpeed (fin 0) ov mL .minimizeSpeed =
      (fin 0, if (fin 0).lt (fin mL) then Order.firstOrder else .secondOrder) := by
  unfold Profile.chooseSpeed Profile.vTri
  simp only [h.vMax, h.aMax, h.dMax, h.doneLength, h.vEnd, fin_mul, fin_sub, mul_zero, sub_zero, zero_mul_posInf,
    nan_sub, nan_mul, nan_add, nan_div, sqrt_nan, nan_lt, le_nan, posInf_lt, Bool.false_eq_true, if_false]
  have : (fin 0).lt (fin 0) = false := by simp [Num.lt]
  simp only [this, Bool.false_eq_true, if_false]

/-- The first phase of an infinitely fast motion has no duration. -/
theorem left_nan {M : Machine} (hj : 0 < M.jMax) {q : AccDec Num} (hs : q.vStart = fin 0 ∨ q.vStart = nan) (ord : Order) :
    (((q.setMax posInf negInf (fin M.jMax)).setvEnd posInf).calculate ord).duration = nan := by
  have e1 : posInf / fin M.jMax = posInf := by
    show (if M.jMax < 0 then negInf else posInf) = posInf; rw [if_neg (not_lt.2 hj.le)]
  have e2 : fin M.jMax * posInf = posInf := by show infOfSign M.jMax = posInf; simp [infOfSign, hj]
  have e3 : posInf * posInf = posInf := rfl
  have e4 : posInf - fin 0 = posInf := rfl
  have e5 : posInf - posInf = nan := rfl
  have e6 : posInf / posInf = nan := rfl
  have e7 : (fin 0).lt posInf = true := rfl
  have lt_def : ∀ x y : Num, Arith.lt x y = x.lt y := fun _ _ => rfl
  cases ord with
  | firstOrder =>
    show (AccDec.calculateFirst _).duration = nan
    unfold AccDec.calculateFirst AccDec.setMax AccDec.setvEnd
    rcases hs with hs | hs <;> simp [hs, lt_def, e4, e6, e7]
  | secondOrder =>
    unfold AccDec.calculate AccDec.setMax AccDec.setvEnd
    rcases hs with hs | hs
    · simp [hs, lt_def, e7, AccDec.calculateAcc, AccDec.finishSecond, e1, e2, e3, e4, e5]
    · simp [hs, lt_def, AccDec.calculateDec, AccDec.finishSecond]

theorem AccDec.calculate_vStart_num (a : AccDec Num) (o : Order) : (a.calculate o).vStart = a.vStart := by
  cases o
  · rfl
  · simp only [AccDec.calculate, AccDec.calculateAcc, AccDec.calculateDec, AccDec.finishSecond]
    split <;> split <;> rfl

theorem AccDec.calculate_vEnd_num (a : AccDec Num) (o : Order) : (a.calculate o).vEnd = a.vEnd := by
  cases o
  · rfl
  · simp only [AccDec.calculate, AccDec.calculateAcc, AccDec.calculateDec, AccDec.finishSecond]
    split <;> split <;> rfl

/-- An infinitely fast motion of length zero never ends: its duration is "not a number". -/
theorem plan_zero {M : Machine} (hj : 0 < M.jMax) {p : Profile} (h : ZeroProf M p) (hv : p.vFeed = posInf) {o : ℝ}
    (ho : 0 < o) (mL : ℝ) :
    (p.plan (fin 0) (fin o) mL .maximizeSpeed).duration = nan ∧ (p.plan (fin 0) (fin o) mL .maximizeSpeed).tStop = posInf := by
  have key : ∀ ord, (p.setPhases posInf ord).left.duration = nan := fun ord => by
    unfold Profile.setPhases
    simp only [h.aMax, h.dMax, h.jMax]
    exact left_nan hj h.vStart ord
  have hq : ∀ q : Profile, q.left.duration = nan → (q.finish (fin 0) posInf).duration = nan ∧
      (q.finish (fin 0) posInf).tStop = posInf := fun q hq => by
    unfold Profile.finish
    simp only [hq, add_nan, nan_add, true_and]
    rfl
  have hb : ∀ o1 o2, ((p.setPhases posInf o1).setPhases posInf o2).left.duration = nan := fun o1 o2 => by
    unfold Profile.setPhases
    simp only [h.aMax, h.dMax, h.jMax]
    exact left_nan hj (by rw [AccDec.calculate_vStart_num]; exact h.vStart) o2
  unfold Profile.plan
  simp only [choose_zero h hv ho]
  generalize (if (fin 0).lt (fin mL) = true then Order.firstOrder else Order.secondOrder) = ord
  split
  · exact hq _ (hb _ _)
  · exact hq _ (key _)

/-- A profile for a speed of zero has no defined speed, or none at all, at its beginning. -/
theorem left_rest {M : Machine} (hj : 0 < M.jMax) {q : AccDec Num} (hs : q.vStart = fin 0 ∨ q.vStart = nan) (ord : Order) :
    (((q.setMax posInf negInf (fin M.jMax)).setvEnd (fin 0)).calculate ord).v (fin 0) = fin 0 ∨
    (((q.setMax posInf negInf (fin M.jMax)).setvEnd (fin 0)).calculate ord).v (fin 0) = nan := by
  have e0 : (fin 0).lt (fin 0) = false := by simp [Num.lt]
  have e1 : posInf / fin M.jMax = posInf := by
    show (if M.jMax < 0 then negInf else posInf) = posInf; rw [if_neg (not_lt.2 hj.le)]
  have e2 : fin M.jMax * posInf = posInf := by show infOfSign M.jMax = posInf; simp [infOfSign, hj]
  have e3 : posInf * posInf = posInf := rfl
  have e4 : fin 0 / fin M.jMax = fin 0 := by rw [fin_div hj.ne']; simp
  have e5 : (fin 0).sqrt = fin 0 := by simp [Num.sqrt]
  have e6 : fin 0 / negInf = fin 0 := rfl
  have e7 : (fin 0).lt posInf = true := rfl
  have lt_def : ∀ x y : Num, Arith.lt x y = x.lt y := fun _ _ => rfl
  have sqrt_def : ∀ x : Num, Arith.sqrt x = x.sqrt := fun _ => rfl
  have lit_def : ∀ x : ℚ, (Arith.lit x : Num) = fin (x : ℝ) := fun _ => rfl
  cases ord with
  | firstOrder =>
    right
    rcases hs with hs | hs <;>
      simp [AccDec.calculate, AccDec.calculateFirst, AccDec.setMax, AccDec.setvEnd, AccDec.v, hs, lt_def, lit_def, e0, e6]
  | secondOrder =>
    rcases hs with hs | hs
    · left
      simp [AccDec.calculate, AccDec.calculateDec, AccDec.finishSecond, AccDec.setMax, AccDec.setvEnd, AccDec.v, hs, lt_def,
        lit_def, sqrt_def, e0, e1, e2, e3, e4, e5, e7]
    · right
      simp [AccDec.calculate, AccDec.calculateDec, AccDec.finishSecond, AccDec.setMax, AccDec.setvEnd, AccDec.v, hs, lt_def]

/-- Planned at rest and then asked for its speed at its start. -/
theorem plan_rest {M : Machine} (hj : 0 < M.jMax) {p : Profile} (h : ZeroProf M p) (ov : Num) (mL : ℝ) :
    let q := p.plan (fin 0) ov mL .minimizeSpeed
    ZeroProf M { q with left := q.left.setvStart (q.v (fin 0)) } ∧ q.vFeed = p.vFeed := by
  have hle : (fin 0).le (fin 0) = true := by simp [Num.le]
  have key : ∀ o1, ZeroProf M (p.setPhases (fin 0) o1) := fun o1 => by
    unfold Profile.setPhases
    exact ⟨h.vMax, h.aMax, h.dMax, h.jMax, h.doneLength, h.doneDuration, (AccDec.calculate_vEnd_num _ _).trans h.vEnd, by
      show AccDec.vStart (AccDec.calculate _ _) = _ ∨ AccDec.vStart (AccDec.calculate _ _) = _
      rw [AccDec.calculate_vStart_num]; exact h.vStart⟩
  have fin' : ∀ (q : Profile) o, ZeroProf M q →
      let x := (q.setPhases (fin 0) o).finish (fin 0) (fin 0)
      ZeroProf M { x with left := x.left.setvStart (x.v (fin 0)) } := fun q o hq => by
    refine ⟨hq.vMax, hq.aMax, hq.dMax, hq.jMax, hq.doneLength, hq.doneDuration, (AccDec.calculate_vEnd_num _ _).trans hq.vEnd, ?_⟩
    show Profile.v _ _ = _ ∨ Profile.v _ _ = _
    unfold Profile.v
    have e : ((q.setPhases (fin 0) o).finish (fin 0) (fin 0)).doneDuration = fin 0 := hq.doneDuration
    rw [e, hle, if_pos rfl]
    have := left_rest hj hq.vStart o
    unfold Profile.finish Profile.setPhases
    simp only [hq.aMax, hq.dMax, hq.jMax]
    exact this
  unfold Profile.plan
  simp only [choose_rest h]
  generalize (if (fin 0).lt (fin mL) = true then Order.firstOrder else Order.secondOrder) = ord
  split
  · exact ⟨fin' _ _ (key ord), rfl⟩
  · exact ⟨fin' _ _ h, rfl⟩

theorem s_zero {M : Machine} {p : Profile} (h : ZeroProf M p) : p.s (fin 0) = fin 0 := by
  unfold Profile.s
  rw [h.doneDuration, if_pos (by simp [Num.le])]
  exact h.doneLength

/-- Replanned at its start as an infinitely fast motion. -/
theorem optimizeAt_zero {M : Machine} (hj : 0 < M.jMax) {x : Path} (hx : EmptyPath M.n x.trajectory) (hm : x.type.moves = true)
    {q : Profile} (hq : ZeroProf M { q with left := q.left.setvStart (q.v (fin 0)) }) (hf : q.vFeed = posInf) {o : ℝ} (ho : 0 < o)
    {ov : Overrides} (hov : ov.feedOverride = fin o) :
    (MotionItem.optimizeAt M ov .maximizeSpeed (fin 0) x q).duration = nan ∧
    (MotionItem.optimizeAt M ov .maximizeSpeed (fin 0) x q).tStop = posInf := by
  have e : MotionItem.optimizeAt M ov .maximizeSpeed (fin 0) x q =
      Profile.plan { q with
        left := q.left.setvStart (q.v (fin 0))
        doneLength := Profile.s { q with left := q.left.setvStart (q.v (fin 0)) } (fin 0)
        doneDuration := fin 0 } (fin 0) (fin o) M.minLengthSProfile .maximizeSpeed := by
    unfold MotionItem.optimizeAt MotionItem.optimize
    simp only [hm, if_true, hx.length, hov]
  rw [e]
  have hz : ZeroProf M { q with
        left := q.left.setvStart (q.v (fin 0))
        doneLength := Profile.s { q with left := q.left.setvStart (q.v (fin 0)) } (fin 0)
        doneDuration := fin 0 } := ⟨hq.vMax, hq.aMax, hq.dMax, hq.jMax, s_zero hq, rfl, hq.vEnd, hq.vStart⟩
  exact plan_zero hj hz hf ho _

end Moovr
