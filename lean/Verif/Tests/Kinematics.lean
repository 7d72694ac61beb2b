import Mathlib.Tactic.NormNum
import Verif.Model.MotionItem
import Verif.Model.Junction
import Verif.Lemmas.Num
import Verif.Lemmas.EmptyPath
/-!
# The project's unit tests, run on the model: kinematics

The assertions of `/repo/test/native/test_motion_item` (and `test_motion_simplifiedmotion`), checked on the model with real
arithmetic. They are tests of the model, not proofs about the code.
-/
namespace Moovr.Tests
open Num

/-! ## `speedProfileAccDec` -/

/-- The constructor with five arguments — speedprofileaccdec.cpp:18-31. -/
noncomputable def part (vStart vEnd aMax dMax jMax : ℝ) : AccDec ℝ :=
  ((AccDec.zero.setMax aMax dMax jMax).setvStart vStart).setvEnd vEnd

/-- `initializeMotionPart` -/
example :
    let p := part 1.1 2.2 3.3 4.4 5.5
    p.vStart = 1.1 ∧ p.vEnd = 2.2 ∧ p.aMax = 3.3 ∧ p.dMax = 4.4 ∧ p.jMax = 5.5 ∧ p.dV1 = 0 ∧ p.s1 = 0 ∧ p.s2 = 0 ∧ p.s3 = 0 ∧
      p.length = 0 ∧ p.d1d3 = 0 ∧ p.d2 = 0 ∧ p.duration = 0 := by
  simp [part, AccDec.zero, AccDec.setMax, AccDec.setvStart, AccDec.setvEnd, Arith.lit]

/-- The planned quantities of a phase. -/
def outputs (p : AccDec ℝ) : List ℝ := [p.dV1, p.s1, p.s2, p.s3, p.length, p.d1d3, p.d2, p.duration]

/-- The inputs of a phase. -/
def inputs (p : AccDec ℝ) : List ℝ := [p.vStart, p.vEnd, p.aMax, p.dMax, p.jMax]

/-- `a`, `v` and `s` at a number of times. -/
noncomputable def samples (p : AccDec ℝ) (ts : List ℝ) : List ℝ × List ℝ × List ℝ := (ts.map p.a, ts.map p.v, ts.map p.s)

syntax "evaluate" : tactic
macro_rules
  | `(tactic| evaluate) => `(tactic|
      norm_num [part, outputs, inputs, samples, AccDec.zero, AccDec.setMax, AccDec.setvStart, AccDec.setvEnd, AccDec.calculate,
        AccDec.calculateFirst, AccDec.calculateAcc, AccDec.calculateDec, AccDec.finishSecond, AccDec.a, AccDec.v, AccDec.s,
        Arith.lit, Arith.lt, Arith.sqrt])

/-- `calculateMotionPartFirstOrder` 1: acceleration from standstill -/
example :
    let p := (part 0 1 1 (-1) 10).calculate .firstOrder
    inputs p = [0, 1, 1, -1, 10] ∧ outputs p = [0, 0, 1/2, 0, 1/2, 0, 1, 1] ∧
      samples p [0, 1/2, 1] = ([1, 1, 1], [0, 1/2, 1], [0, 1/8, 1/2]) := by evaluate

/-- `calculateMotionPartFirstOrder` 2: deceleration to standstill -/
example :
    let p := (part 1 0 1 (-1) 10).calculate .firstOrder
    inputs p = [1, 0, 1, -1, 10] ∧ outputs p = [0, 0, 1/2, 0, 1/2, 0, 1, 1] ∧
      samples p [0, 1/2, 1] = ([-1, -1, -1], [1, 1/2, 0], [0, 3/8, 1/2]) := by evaluate

/-- `calculateMotionPartFirstOrder` 3 -/
example :
    let p := (part 1 2 1 (-1) 10).calculate .firstOrder
    inputs p = [1, 2, 1, -1, 10] ∧ outputs p = [0, 0, 3/2, 0, 3/2, 0, 1, 1] ∧
      samples p [0, 1/2, 1] = ([1, 1, 1], [1, 3/2, 2], [0, 5/8, 3/2]) := by evaluate

/-- `calculateMotionPartFirstOrder` 4 -/
example :
    let p := (part 2 1 1 (-1) 10).calculate .firstOrder
    inputs p = [2, 1, 1, -1, 10] ∧ outputs p = [0, 0, 3/2, 0, 3/2, 0, 1, 1] ∧
      samples p [0, 1/2, 1] = ([-1, -1, -1], [2, 3/2, 1], [0, 7/8, 3/2]) := by evaluate

/-- `calculateMotionPartSecondOrder` 1: acceleration from standstill -/
example :
    let p := (part 0 2 1 (-1) 1).calculate .secondOrder
    inputs p = [0, 2, 1, -1, 1] ∧ outputs p = [1/2, 1/6, 1, 2 - 1/6, 3, 1, 1, 3] ∧
      samples p [0, 1/2, 1, 3/2, 2, 5/2, 3] =
        ([0, 1/2, 1, 1, 1, 1/2, 0], [0, 1/8, 1/2, 1, 3/2, 15/8, 2],
          [0, 1/8/6, 1/6, 1/6 + 3/8, 1/6 + 1, 2 + 1/8/6, 3]) := by evaluate

/-- `calculateMotionPartSecondOrder` 2: deceleration to standstill -/
example :
    let p := (part 2 0 1 (-1) 1).calculate .secondOrder
    inputs p = [2, 0, 1, -1, 1] ∧ outputs p = [-(1/2), 2 - 1/6, 1, 1/6, 3, 1, 1, 3] ∧
      samples p [0, 1/2, 1, 3/2, 2, 5/2, 3] =
        ([0, -(1/2), -1, -1, -1, -(1/2), 0], [2, 15/8, 3/2, 1, 1/2, 1/8, 0],
          [0, 1 - 1/8/6, 2 - 1/6, 21/8 - 1/6, 3 - 1/6, 3 - 1/8/6, 3]) := by evaluate

/-- `calculateMotionPartSecondOrder` 3 -/
example :
    let p := (part 1 3 1 (-1) 1).calculate .secondOrder
    inputs p = [1, 3, 1, -1, 1] ∧ outputs p = [1/2, 1 + 1/6, 2, 3 - 1/6, 6, 1, 1, 3] ∧
      samples p [0, 1/2, 1, 3/2, 2, 5/2, 3] =
        ([0, 1/2, 1, 1, 1, 1/2, 0], [1, 9/8, 3/2, 2, 5/2, 23/8, 3],
          [0, 1/2 + 1/8/6, 1 + 1/6, 3/2 + 1/6 + 3/8, 2 + 1/6 + 1, 9/2 + 1/8/6, 6]) := by evaluate

/-- `calculateMotionPartSecondOrder` 4 -/
example :
    let p := (part 3 1 1 (-1) 1).calculate .secondOrder
    inputs p = [3, 1, 1, -1, 1] ∧ outputs p = [-(1/2), 3 - 1/6, 2, 1 + 1/6, 6, 1, 1, 3] ∧
      samples p [0, 1/2, 1, 3/2, 2, 5/2, 3] =
        ([0, -(1/2), -1, -1, -1, -(1/2), 0], [3, 23/8, 5/2, 2, 3/2, 9/8, 1],
          [0, 3/2 - 1/8/6, 3 - 1/6, 33/8 - 1/6, 5 - 1/6, 11/2 - 1/8/6, 6]) := by evaluate

/-! ## `vTri`, `vOut` -/

theorem sqrt_of {x y : ℝ} (hy : 0 ≤ y) (h : x = y ^ 2) : (fin x).sqrt = fin y := by
  rw [Num.sqrt, if_neg (by rw [h]; exact not_lt.2 (sq_nonneg y)), h, Real.sqrt_sq hy]

theorem div_fin' {x y : ℝ} (h : y ≠ 0) : fin x / fin y = fin (x / y) := by
  show Num.div _ _ = _
  rw [Num.div, if_neg h]

/-- `vTri` -/
example :
    Profile.vTri (fin 1) (fin 1) (fin 1) (fin (-1)) (fin 3) .maximizeSpeed = fin 2 ∧
      Profile.vTri (fin 2) (fin 2) (fin 1) (fin (-1)) (fin 3) .minimizeSpeed = fin 1 ∧
      Profile.vTri (fin 0) (fin 0) (fin 1) (fin (-1)) (fin 1) .maximizeSpeed = fin 1 ∧
      Profile.vTri (fin 1) (fin 1) (fin 1) (fin (-1)) (fin 1) .minimizeSpeed = fin 0 := by
  refine ⟨?_, ?_, ?_, ?_⟩ <;> norm_num [Profile.vTri] <;> rw [div_fin' (by norm_num)] <;>
    exact sqrt_of (by norm_num) (by norm_num)

/-- `vOut` -/
example :
    vOut (fin 1) (fin 1) (fin (-1)) (fin (3/2)) .maximizeSpeed .forward = fin 2 ∧
      vOut (fin 1) (fin 1) (fin (-1)) (fin (3/2)) .minimizeSpeed .forward = fin 0 ∧
      vOut (fin 1) (fin 1) (fin (-1)) (fin (3/2)) .maximizeSpeed .reverse = fin 2 ∧
      vOut (fin 1) (fin 1) (fin (-1)) (fin (3/2)) .minimizeSpeed .reverse = fin 0 := by
  refine ⟨?_, ?_, ?_, ?_⟩ <;> norm_num [vOut] <;> exact sqrt_of (by norm_num) (by norm_num)

/-! ## `simplifiedMotion`, `motionTrajectory` -/

/-- test_motion_simplifiedmotion `testInitialize` -/
example :
    let m := SimplifiedMotion.fresh 3
    m.type = .none ∧ m.trajectory.length = fin 0 ∧
      ∀ i < 3, m.trajectory.startPosition i = fin 0 ∧ m.trajectory.delta i = fin 0 := ⟨rfl, rfl, fun _ _ => ⟨rfl, rfl⟩⟩

/-- test_motion_simplifiedmotion `testSetForHoming` -/
example :
    let m := (SimplifiedMotion.fresh 3).setLinear (fun _ => fin 0) 0 (fin 123.4) (fin 12.3)
    m.trajectory.length = fin 123.4 ∧ m.trajectory.startPosition 0 = fin 0 ∧ m.trajectory.delta 0 = fin 123.4 ∧
      m.vFeed = fin 12.3 := by
  refine ⟨?_, rfl, rfl, rfl⟩
  simp only [SimplifiedMotion.setLinear, abs_fin]
  rw [abs_of_pos (by norm_num)]

/-- `simplifiedMotion::setForTest(0)`, (1), (2) — simplifiedmotion.cpp:59-85: traverses over the distances `d` -/
noncomputable def traverse (length : ℝ) (d : Nat → ℝ) : SimplifiedMotion :=
  { SimplifiedMotion.fresh 3 with
    type := .traverse
    trajectory := { (SimplifiedMotion.fresh 3).trajectory with length := fin length, delta := fun i => fin (d i) } }

/-- `setTrajectory` -/
example :
    let t := Trajectory.ofReq (traverse 1 (fun i => if i = 0 then 1 else 0)).trajectory
    t.deltaRealTime 0 = fin 1 ∧ t.directionUnitVector 0 = fin 1 ∧ t.deltaRealTime 1 = fin 0 ∧ t.directionUnitVector 1 = fin 0 ∧
      t.deltaRealTime 2 = fin 0 ∧ t.directionUnitVector 2 = fin 0 := by
  simp [Trajectory.ofReq, traverse, SimplifiedMotion.fresh, div_fin']

/-- `setSpeedProfile` -/
example :
    let p := Profile.zero.setSpeed posInf
    p.left.aMax = fin 0 ∧ p.left.dMax = fin 0 ∧ p.left.jMax = fin 0 ∧ p.right.aMax = fin 0 ∧ p.left.vStart = fin 0 ∧
      p.right.vEnd = fin 0 ∧ (Profile.zero.setDuration (fin 1)).duration = fin 1 := by
  simp [Profile.setSpeed, Profile.setDuration, Profile.zero, AccDec.setMax, AccDec.setvStart, AccDec.setvEnd]

/-! ## `motion::limit`, `motion::optimize`, `motion::s` -/

/-- The machine of the test target with the values the test assigns — lib_target/native/general/machineproperties.h:45-52. -/
noncomputable def bench (jMax vMaxX : ℝ) : Machine where
  n := 3
  stepsPerMm _ := 50
  hysteresis := 0.05
  vMax i := if i = 0 then vMaxX else 1
  aMax _ := 1
  dMax _ := -1
  jMax := jMax
  minLengthSProfile := 0
  unspecified _ := 0

theorem one_div_zero : fin 1 / fin 0 = posInf := by
  show Num.div _ _ = _
  simp [Num.div, infOfSign]

theorem neg_div_zero : fin (-1) / fin 0 = negInf := by
  show Num.div _ _ = _
  norm_num [Num.div, infOfSign]

theorem fin_lt_posInf (x : ℝ) : (fin x).lt posInf = true := rfl

/-- Limits of a motion along X. -/
theorem limit_x {j v L : ℝ} (hv : 0 < v) (hL : 0 < L) (p : Profile) :
    p.limit (bench j v) (.ofReq (traverse L (fun i => if i = 0 then L else 0)).trajectory) =
      { p with vMax := fin v, aMax := fin 1, dMax := fin (-1), jMax := fin j } := by
  have h1 : fin L / fin L = fin 1 := by rw [div_fin' hL.ne', div_self hL.ne']
  have h0 : fin 0 / fin L = fin 0 := by rw [div_fin' hL.ne', zero_div]
  simp [Profile.limit, Profile.limitAxis, bench, traverse, SimplifiedMotion.fresh, Trajectory.ofReq, List.range, List.range.loop,
    h1, h0, one_div_zero, neg_div_zero, fin_lt_posInf, div_fin', abs_of_pos hv, Num.abs]

/-- `limit`: one axis -/
example (p : Profile) :
    let q := p.limit (bench 1000 1) (.ofReq (traverse 1 (fun i => if i = 0 then 1 else 0)).trajectory)
    q.aMax = fin 1 ∧ q.dMax = fin (-1) ∧ q.vMax = fin 1 := by
  simp [limit_x (j := 1000) one_pos one_pos p]

/-- `limit`: three axes -/
example (p : Profile) :
    let q := p.limit (bench 1000 1) (.ofReq (traverse (Real.sqrt 3) (fun _ => 1)).trajectory)
    q.vMax = fin (Real.sqrt 3) ∧ q.aMax = fin (Real.sqrt 3) ∧ q.dMax = fin (-Real.sqrt 3) := by
  have h3 : (0 : ℝ) < Real.sqrt 3 := Real.sqrt_pos.2 (by norm_num)
  have h : fin 1 / fin (Real.sqrt 3) = fin (Real.sqrt 3)⁻¹ := by rw [div_fin' h3.ne', one_div]
  have hp : fin 1 / fin (Real.sqrt 3)⁻¹ = fin (Real.sqrt 3) := by
    rw [div_fin' (by positivity), one_div, inv_inv]
  have hn : fin (-1) / fin (Real.sqrt 3)⁻¹ = fin (-Real.sqrt 3) := by
    rw [div_fin' (by positivity), neg_div, one_div, inv_inv]
  simp [Profile.limit, Profile.limitAxis, bench, traverse, SimplifiedMotion.fresh, Trajectory.ofReq, List.range,
    List.range.loop, h, hp, hn, abs_of_pos h3, fin_lt_posInf, Num.abs]

/-- `motion::set` for a traverse along X with the default overrides and strategy, on a fresh `motion`. -/
noncomputable def planned (j v L : ℝ) : Profile :=
  MotionItem.setProfile (bench j v) (.zero 3) .zero (traverse L (fun i => if i = 0 then L else 0)) ⟨fin 1, fin 1⟩ .maximizeSpeed

theorem posInf_mul_one : posInf * fin 1 = posInf := by
  show Num.mul _ _ = _
  simp [Num.mul, infOfSign]

theorem lt_posInf (x : ℝ) : (fin x).lt posInf = true := rfl

/-- The plan of such a motion, before the phases are computed. -/
theorem planned_eq {j v L : ℝ} (hv : 0 < v) (hL : 0 < L) :
    planned j v L = ({ Profile.zero with
      vMax := fin v, aMax := fin 1, dMax := fin (-1), jMax := fin j, vFeed := posInf
      left := (AccDec.zero.setMax (fin 1) (fin (-1)) (fin j)).setvStart (fin 0)
      right := (AccDec.zero.setMax (fin 1) (fin (-1)) (fin j)).setvEnd (fin 0) } : Profile).plan (fin L) (fin 1) 0
        .maximizeSpeed := by
  have := limit_x (j := j) hv hL Profile.zero
  simp only [planned, MotionItem.setProfile, traverse, MotionItem.setPath, MotionItem.optimize, MotionType.moves] at this ⊢
  rw [this]
  simp [Profile.setSpeed, Profile.zero, bench, Trajectory.ofReq, SimplifiedMotion.fresh]

/-- `optimize`: 1 mm at most 1 mm/s -/
example : (planned 1000 1 1).duration = fin 2 ∧ (planned 1000 1 1).mid.vMid = fin 1 := by
  have h1 : (fin 1).sqrt = fin 1 := sqrt_of (by norm_num) (by norm_num)
  rw [planned_eq one_pos one_pos]
  norm_num [Profile.plan, Profile.chooseSpeed, Profile.setPhases, Profile.finish, Profile.vTri, Profile.zero, AccDec.setMax,
    AccDec.setvStart, AccDec.setvEnd, AccDec.zero, AccDec.calculate, AccDec.calculateAcc, AccDec.calculateDec,
    AccDec.calculateFirst, AccDec.finishSecond, Cruise.set, Cruise.zero, posInf_mul_one, lt_posInf, div_fin', h1, Arith.lit,
    Arith.lt, Arith.sqrt]

/-- `optimize`: 10 mm at most 2 mm/s, with jerk limit 1; and `calculateMotion`: the distance at a number of times -/
example : (planned 1 2 10).duration = fin 8 ∧ (planned 1 2 10).mid.vMid = fin 2 ∧
    [0, 1/2, 1, 3/2, 2, 5/2, 3].map (fun t : ℝ => (planned 1 2 10).s (fin t)) =
      [fin 0, fin (1/8/6), fin (1/6), fin (1/6 + 3/8), fin (1/6 + 1), fin (2 + 1/8/6), fin 3] ∧
    [5, 11/2, 6, 13/2, 7, 15/2, 8].map (fun t : ℝ => (planned 1 2 10).s (fin t)) =
      [fin 7, fin (8 - 1/8/6), fin (9 - 1/6), fin (77/8 - 1/6), fin (10 - 1/6), fin (10 - 1/8/6), fin 10] := by
  have h1 : (fin 10).sqrt = fin (Real.sqrt 10) := sqrt_fin (by norm_num)
  have h2 : ¬ Real.sqrt 10 < 2 := by
    rw [not_lt]; exact Real.le_sqrt_of_sq_le (by norm_num)
  rw [planned_eq two_pos (by norm_num)]
  norm_num [Profile.plan, Profile.chooseSpeed, Profile.setPhases, Profile.finish, Profile.vTri, Profile.zero, AccDec.setMax,
    AccDec.setvStart, AccDec.setvEnd, AccDec.zero, AccDec.calculate, AccDec.calculateAcc, AccDec.calculateDec,
    AccDec.calculateFirst, AccDec.finishSecond, Cruise.set, Cruise.zero, posInf_mul_one, lt_posInf, div_fin', h1, h2, Arith.lit,
    Arith.lt, Arith.sqrt, Profile.s, AccDec.s, Cruise.s]

/-! ## `positionFromDistance` -/

/-- `calculateTrajectory`: 1 mm along X -/
example (p : Point) (s : ℝ) (hp : ∀ i, p.inMm i = fin 0) :
    let q := (Trajectory.ofReq (traverse 1 (fun i => if i = 0 then 1 else 0)).trajectory).positionFromDistance (bench 1 2) p (fin s)
    q.inMm 0 = fin s ∧ q.inMm 1 = fin 0 ∧ q.inMm 2 = fin 0 := by
  simp [Trajectory.positionFromDistance, Trajectory.ofReq, Trajectory.isMoving, traverse, SimplifiedMotion.fresh, bench, div_fin', hp]

/-- `simplifiedMotion::setForTest(20)` — simplifiedmotion.cpp:103-116: a quarter turn clockwise in the XY plane -/
noncomputable def quarterCW : SimplifiedMotion :=
  { SimplifiedMotion.fresh 3 with
    type := .feedHelicalCW
    vFeed := fin 1
    trajectory := { (SimplifiedMotion.fresh 3).trajectory with
      length := fin (Real.pi / 2), delta := fun i => if i = 2 then fin 0 else fin 1, arcAxis0 := 0, arcAxis1 := 1
      arcCenter0 := fin 1, arcCenter1 := fin 0, radius := fin 1, startAngle := fin Real.pi, deltaAngle := fin (-(Real.pi / 2)) } }

/-- `calculateTrajectory`: clockwise; the angle after `i` tenths of the length -/
example (p : Point) (i : ℝ) (hp : ∀ i, p.inMm i = fin 0) :
    let q := (Trajectory.ofReq quarterCW.trajectory).positionFromDistance (bench 1 2) p (fin (i * (Real.pi / 2) / 10))
    let angle := Real.pi - i * Real.pi * (1/20)
    q.inMm 0 = fin (1 + Real.cos angle) ∧ q.inMm 1 = fin (0 + Real.sin angle) ∧ q.inMm 2 = fin 0 := by
  have h : fin (-(Real.pi / 2)) / fin (Real.pi / 2) = fin (-1) := by
    rw [div_fin' (by positivity), neg_div, div_self (by positivity)]
  have h0 : fin 0 / fin (Real.pi / 2) = fin 0 := by rw [div_fin' (by positivity), zero_div]
  have e : Real.pi + -(i * (Real.pi / 2) / 10) = Real.pi - i * Real.pi * (1/20) := by ring
  dsimp only
  rw [← e]
  simp [Trajectory.positionFromDistance, Trajectory.ofReq, Trajectory.isMoving, quarterCW, SimplifiedMotion.fresh, bench, hp, h, h0]

/-- `simplifiedMotion::setForTest(30)` — simplifiedmotion.cpp:118-130: a quarter turn counter-clockwise, after (20) had set the radius -/
noncomputable def quarterCCW : SimplifiedMotion :=
  { quarterCW with
    type := .feedHelicalCCW
    trajectory := { quarterCW.trajectory with
      arcCenter0 := fin 0, arcCenter1 := fin 1, startAngle := fin (-(Real.pi / 2)), deltaAngle := fin (Real.pi / 2) } }

/-- `calculateTrajectory`: counter-clockwise -/
example (p : Point) (i : ℝ) (hp : ∀ i, p.inMm i = fin 0) :
    let q := (Trajectory.ofReq quarterCCW.trajectory).positionFromDistance (bench 1 2) p (fin (i * (Real.pi / 2) / 10))
    let angle := -(Real.pi / 2) + i * Real.pi * (1/20)
    q.inMm 0 = fin (0 + Real.cos angle) ∧ q.inMm 1 = fin (1 + Real.sin angle) ∧ q.inMm 2 = fin 0 := by
  have h : fin (Real.pi / 2) / fin (Real.pi / 2) = fin 1 := by
    rw [div_fin' (by positivity), div_self (by positivity)]
  have h0 : fin 0 / fin (Real.pi / 2) = fin 0 := by rw [div_fin' (by positivity), zero_div]
  have e : -(Real.pi / 2) + i * (Real.pi / 2) / 10 = -(Real.pi / 2) + i * Real.pi * (1/20) := by ring
  dsimp only
  rw [← e]
  simp [Trajectory.positionFromDistance, Trajectory.ofReq, Trajectory.isMoving, quarterCCW, quarterCW, SimplifiedMotion.fresh, bench,
    hp, h, h0]

end Moovr.Tests
