import Verif.Model.MotionCtrl
import Verif.Model.SpeedProfile
import Mathlib.Data.Rat.Floor
/-!
# The project's unit tests, run on the model: motion control

The assertions of `/repo/test/native/test_motion_control` and `test_motion_gcode`, evaluated on the model of the control logic by
Lean's kernel. They are tests of the model, not proofs about the code.

The tests run on a kit with rational numbers. Its speed profile is the one `motion::optimize` chooses for the moves of these tests
(from rest to rest, at most 1 mm/s and 1 mm/s², at least 1 mm, first order); the phases are those of `Model/SpeedProfile`. For
tests of the planner see `Kinematics`.

`test_motion_gcode` expects steps after 19, 10, 7, 7, 7, 7, 8 and 11 ticks. The model agrees for a `hysteresis` of 0.1. In the code it
is 0.05 (lib_target/native/general/machineproperties.h:30): the first step then comes after 18 ticks, and `test_001` fails.
-/
namespace Moovr.Tests
open MotionCtrl

instance : Arith ℚ := ⟨id, fun _ => 0, fun a b => decide (a < b)⟩

/-- A trajectory along X: start and signed distance. -/
abbrev Line := ℚ × ℚ

/-- The profile of the test moves: acceleration, cruise and deceleration. -/
structure Trapezoid where
  left : AccDec ℚ
  mid : Cruise ℚ
  right : AccDec ℚ

/-- The phases for a distance `L` at 1 mm/s and 1 mm/s². -/
def trapezoid (L : ℚ) : Trapezoid where
  left := (((AccDec.zero.setMax 1 (-1) 1000).setvStart 0).setvEnd 1).calculate .firstOrder
  mid := ⟨1, L - 1, L - 1⟩
  right := (((AccDec.zero.setMax 1 (-1) 1000).setvStart 1).setvEnd 0).calculate .firstOrder

/-- `motion::s` with `doneDuration = 0` — motionitem.cpp:71-86. -/
def Trapezoid.s (p : Trapezoid) (t : ℚ) : ℚ :=
  if t ≤ 0 then 0
  else if t ≤ p.left.duration then p.left.s t
  else if t - p.left.duration ≤ p.mid.duration then p.left.length + p.mid.s (t - p.left.duration)
  else p.left.length + p.mid.length + p.right.s (t - p.left.duration - p.mid.duration)

/-- `roundf` -/
def roundQ (x : ℚ) : ℤ := if 0 ≤ x then ⌊x + 1 / 2⌋ else -⌊-x + 1 / 2⌋

/-- Motions of the tests on a machine with 4 steps per mm and the given hysteresis. The stop time of a motion that is not being
stopped is infinite; here, large. -/
def kit (hysteresis : ℚ) : MotionKit where
  n := 3
  Time := ℚ
  Req := Line
  Traj := Line
  Prof := Option Trapezoid
  Ovr := Unit
  Dist := ℚ
  Pos := ℚ
  zero := 0
  one := 1
  sample i w o := i * w + o
  later a b := decide (b < a)
  diff a b := a - b
  traj₀ := (0, 0)
  prof₀ := none
  ovr₀ := ()
  setTraj _ _ r := r
  setProf _ _ r _ _ := some (trapezoid |r.2|)
  optimize _ _ _ p := p
  optimizeAt _ _ _ _ p := p
  endAtRest p := p
  startAtRest p := p
  duration := fun | some p => p.left.duration + p.mid.duration + p.right.duration | none => 0
  tStop := fun | some _ => 1000000 | none => 0
  s _ p t := match p with | some p => p.s t | none => 0
  isMoving x i := decide (i = 0 ∧ x.2 ≠ 0)
  position x i s := if i = 0 then x.1 + x.2 / |x.2| * s else 0
  needStepForward _ p k := decide (k < roundQ (p * 4 - hysteresis))
  needStepBackward _ p k := decide (roundQ (p * 4 + hysteresis) < k)

/-- The steps returned by `n` calls of `calcNextStepperMotorSignals`, and the controller after them. -/
def calls {K : MotionKit} : Nat → MotionCtrl K → Option (List Step × MotionCtrl K)
  | 0, c => some ([], c)
  | n + 1, c => match c.calcNext with
    | none => none
    | some r => (calls n r.1).map fun x => (r.2.1 :: x.1, x.2)

/-- What the tests look at: the steps, the sample index, the state and the events. -/
def seen {K : MotionKit} (r : Option (List Step × MotionCtrl K)) :
    Option (List (Nat × Nat) × Nat × MotionState × List Event) :=
  r.map fun x => (x.1.map fun s => (s.timeBefore, s.signals.toNat), x.2.time.sampleIndex, x.2.state, x.2.events)

/-! ## test_motion_control -/

/-- `initialize` -/
example (K : MotionKit) :
    let c := MotionCtrl.fresh K
    c.isRunning = false ∧ c.state = .stopped ∧ c.overrides = K.ovr₀ ∧ ∀ i < K.n, c.machinePosition i = 0 :=
  ⟨rfl, rfl, rfl, fun _ _ => rfl⟩

/-- A fresh controller with a limit on the ticks between outputs and a sample time. -/
def ctrl (h : ℚ) (maxTicks : Nat) (width : ℚ) : MotionCtrl (kit h) := (MotionCtrl.fresh (kit h)).configure maxTicks width

/-- `c.theStepSignals.stepForward(0)` -/
def stepX {K : MotionKit} (c : MotionCtrl K) : MotionCtrl K := { c with signals := c.signals.stepForward 3 0 }

/-- `nextStep_notRunning` -/
example :
    seen (calls 1 (ctrl (1/20) 375 1)) = some ([(375, 0)], 0, .stopped, []) ∧
    seen (calls 1 ((ctrl (1/20) 375 1).append (0, 1))) = some ([(375, 0)], 0, .stopped, []) ∧
    seen (calls 2 (stepX ((ctrl (1/20) 375 1).append (0, 1)))) = some ([(1, 1), (1, 0)], 0, .stopped, []) := by
  refine ⟨?_, ?_, ?_⟩ <;> decide +kernel

/-- `nextStep_emptyMotionBuffer`. (The stop is announced twice, and the level of the queue wraps around to `2^32 - 1`.) -/
example :
    (seen (calls 1 { ctrl (1/20) 375 1 with state := .running })).map (fun x => (x.1, x.2.1, x.2.2.1)) =
      some ([(375, 0)], 0, .stopped) := by decide +kernel

/-- `nextStep_sequenceMotionItems` (the test asserts the level only) -/
example :
    ((((ctrl (1/20) 4294967295 (1/8)).append (0, 1)).append (1, -1)).append (0, 1)).buffer.level = 3 := by decide +kernel

/-! ## test_motion_gcode -/

/-- The moves "G0 X2" and "G0 X0" — appended and started. -/
def moves (h : ℚ) (rs : List Line) : MotionCtrl (kit h) := (rs.foldl (fun c r => c.append r) (ctrl h 1000 (1/32))).start

/-- `test_001`, with a hysteresis of 0.1 -/
example : (seen (calls 17 (moves (1/10) [(0, 2)]))).map (fun x => (x.1.map (·.1), x.2.2)) =
    some ([19, 1, 10, 1, 7, 1, 7, 1, 7, 1, 7, 1, 8, 1, 11, 1, 1000], .stopped,
      [.motionStarted, .motionStopped, .motionCompleted, .allMotionsCompleted]) := by decide +kernel

/-- `test_001` with the hysteresis of the code: the first step comes after 18 ticks, not after the 19 the test expects. -/
example : (seen (calls 17 (moves (1/20) [(0, 2)]))).map (fun x => (x.1.map (·.1), x.2.2)) =
    some ([18, 1, 11, 1, 7, 1, 7, 1, 7, 1, 7, 1, 7, 1, 11, 1, 1000], .stopped,
      [.motionStarted, .motionStopped, .motionCompleted, .allMotionsCompleted]) := by decide +kernel

/-- `test_002`: after 16 calls only the start has been announced, after one more also the end of the first motion -/
example :
    (seen (calls 16 (moves (1/20) [(0, 2), (2, -2)]))).map (·.2.2.2) = some [.motionStarted] ∧
    (seen (calls 17 (moves (1/20) [(0, 2), (2, -2)]))).map (·.2.2.2) = some [.motionStarted, .motionCompleted] := by
  decide +kernel

end Moovr.Tests
