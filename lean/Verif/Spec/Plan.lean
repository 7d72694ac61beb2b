import Verif.Model.MotionItem
/-!
# Inputs of motion planning, as real numbers
-/
namespace Moovr
open Num

/-- A number that is not negative and not NaN. -/
def Num.NonNeg : Num → Prop
  | fin x => 0 ≤ x
  | posInf => True
  | _ => False

/-- A number above zero (possibly infinite). -/
def Num.Pos : Num → Prop
  | fin x => 0 < x
  | posInf => True
  | _ => False

/-- Inputs of the planner, as real numbers: remaining length, distance and time already done, start and end speed, limits. -/
structure PlanIn where
  L : ℝ
  doneL : ℝ
  doneT : ℝ
  vS : ℝ
  vE : ℝ
  a : ℝ
  d : ℝ
  j : ℝ

namespace PlanIn

/-- The members of a profile that the planner reads. -/
structure Of (i : PlanIn) (p : Profile) (length : Num) : Prop where
  length : length = fin (i.doneL + i.L)
  doneL : p.doneLength = fin i.doneL
  doneT : p.doneDuration = fin i.doneT
  vS : p.left.vStart = fin i.vS
  vE : p.right.vEnd = fin i.vE
  a : p.aMax = fin i.a
  d : p.dMax = fin i.d
  j : p.jMax = fin i.j

/-- The end speed can be reached from the start speed within the remaining length. -/
structure Feasible (i : PlanIn) : Prop where
  L : 0 ≤ i.L
  vS : 0 ≤ i.vS
  vE : 0 ≤ i.vE
  a : 0 < i.a
  d : i.d < 0
  j : 0 < i.j
  slow : i.vS ^ 2 ≤ i.vE ^ 2 - 2 * i.d * i.L
  fast : i.vE ^ 2 ≤ i.vS ^ 2 + 2 * i.a * i.L

/-- The speed `u` can be reached: starting at `vS`, accelerating with `a` to `u` and decelerating with `d` to `vE` fits into
the length. -/
def Reaches (i : PlanIn) (u : ℝ) : Prop :=
  i.vS ≤ u ∧ i.vE ≤ u ∧ (u ^ 2 - i.vS ^ 2) / (2 * i.a) + (i.vE ^ 2 - u ^ 2) / (2 * i.d) ≤ i.L

end PlanIn

/-- A machine with sensible limits. -/
structure Machine.Ok (M : Machine) : Prop where
  vMax : ∀ i, i < M.n → 0 < M.vMax i
  aMax : ∀ i, i < M.n → 0 < M.aMax i
  dMax : ∀ i, i < M.n → M.dMax i < 0
  jMax : 0 < M.jMax

/-- A request for a motion along a trajectory: positive length, finite data, at least one axis taking part. -/
structure Moves (n : Nat) (r : SimplifiedMotion) (L : ℝ) : Prop where
  type : r.type.moves = true
  length : r.trajectory.length = fin L
  pos : 0 < L
  delta : ∀ i, i < n → ∃ x, r.trajectory.delta i = fin x
  radius : ∃ x, r.trajectory.radius = fin x ∧ ∀ i, i < n → (i = r.trajectory.arcAxis0 ∨ i = r.trajectory.arcAxis1) → 0 < x
  some : ∃ i, i < n ∧ (i = r.trajectory.arcAxis0 ∨ i = r.trajectory.arcAxis1 ∨
    ∃ x, x ≠ 0 ∧ r.trajectory.delta i = fin x)

/-- The direction of a request in axis `i`; arc axes count fully (motiontrajectory.cpp:72). -/
noncomputable def SimplifiedMotion.direction (r : SimplifiedMotion) (i : Nat) : ℝ :=
  if i = r.trajectory.arcAxis0 ∨ i = r.trajectory.arcAxis1 then 1
  else match r.trajectory.delta i, r.trajectory.length with
    | fin x, fin L => x / L
    | _, _ => 0

end Moovr
