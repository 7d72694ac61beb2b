import Verif.Spec.Plan
import Mathlib.Order.Monotone.Defs
import Mathlib.Topology.Instances.Real.Lemmas
import Mathlib.Analysis.Calculus.Deriv.Basic
/-!
# Specification: executing a program of motions

Independent of queue, clock and planner: where each axis has to be at each time when motions are executed one after the other.
-/
namespace Moovr.ExecSpec
open Num

/-- The value of a finite number. -/
noncomputable def val : Num → ℝ
  | fin x => x
  | _ => 0

/-- Position (mm) of an axis at distance `s` along the requested path: a line, or a circle in the two arc axes. -/
noncomputable def place (r : SimplifiedMotion) (axis : Nat) (s : ℝ) : ℝ :=
  let t := r.trajectory
  if axis = t.arcAxis0 then
    val t.arcCenter0 + val t.radius * Real.cos (val t.startAngle + val t.deltaAngle / val t.length * s)
  else if axis = t.arcAxis1 then
    val t.arcCenter1 + val t.radius * Real.sin (val t.startAngle + val t.deltaAngle / val t.length * s)
  else val (t.startPosition axis) + val (t.delta axis) / val t.length * s

/-- A request that can be executed by a machine with `n` axes: a path of positive length, all its data finite, arcs not longer
than the path. -/
structure Executable (n : Nat) (r : SimplifiedMotion) : Prop where
  moves : Moves n r (val r.trajectory.length)
  start : ∀ i, i < n → ∃ x, r.trajectory.startPosition i = fin x
  arc : r.trajectory.arcAxis0 < n ∨ r.trajectory.arcAxis1 < n →
    r.trajectory.arcAxis0 ≠ r.trajectory.arcAxis1 ∧ (∃ x, r.trajectory.arcCenter0 = fin x) ∧
    (∃ x, r.trajectory.arcCenter1 = fin x) ∧ (∃ x, r.trajectory.startAngle = fin x) ∧
    (∃ x, r.trajectory.deltaAngle = fin x) ∧
    val r.trajectory.radius * |val r.trajectory.deltaAngle| ≤ val r.trajectory.length

/-- Path speed `v` and path acceleration (and deceleration) `a` are within the limits of all axes; on an arc, the centripetal
acceleration too. -/
structure Allowed (M : Machine) (r : SimplifiedMotion) (v a : ℝ) : Prop where
  v0 : 0 < v
  a0 : 0 < a
  speed : ∀ axis, axis < M.n → v * |r.direction axis| ≤ M.vMax axis
  acc : ∀ axis, axis < M.n → a * |r.direction axis| ≤ M.aMax axis
  dec : ∀ axis, axis < M.n → a * |r.direction axis| ≤ -M.dMax axis
  turn : ∀ axis, axis < M.n → (axis = r.trajectory.arcAxis0 ∨ axis = r.trajectory.arcAxis1) →
    v ^ 2 ≤ M.aMax axis * val r.trajectory.radius

/-- Largest acceleration of an axis: along the path and, on arcs, across it. -/
noncomputable def _root_.Moovr.Machine.accel (M : Machine) (axis : Nat) : ℝ := max (M.aMax axis) (-M.dMax axis) + M.aMax axis

/-- A motion with a time law: it has to be made with feed rate `f` (overrides included), takes the time `T`; `S t` is the
distance travelled at time `t` and `V t` the speed along the path. -/
structure Job where
  r : SimplifiedMotion
  f : Num
  T : ℝ
  S : ℝ → ℝ
  V : ℝ → ℝ

/-- Length of the path. -/
noncomputable def Job.L (j : Job) : ℝ := val j.r.trajectory.length

/-- A time law that respects all limits between the times `a` and `b`, for the request `r` and the feed rate `f`: forward, never
faster than the feed rate; no axis is ever faster, and none speeds up or slows down more quickly, than the machine allows; arcs are
not taken too fast. `S` is the distance travelled and `V` the speed. -/
structure Law (M : Machine) (r : SimplifiedMotion) (f : Num) (S V : ℝ → ℝ) (a b : ℝ) : Prop where
  forward : ∀ x y, a ≤ x → x ≤ y → y ≤ b → S x ≤ S y
  smooth : Continuous S
  steady : Continuous V
  speed : ∀ axis, axis < M.n → ∀ x y, a ≤ x → x ≤ y → y ≤ b →
    |place r axis (S y) - place r axis (S x)| ≤ M.vMax axis * (y - x)
  feed : ∀ z, f = fin z → ∀ x y, a ≤ x → x ≤ y → y ≤ b → S y - S x ≤ z * (y - x)
  rate : ∀ t, a < t → t < b → HasDerivAt S (V t) t
  speedUp : ∀ axis, axis < M.n → ∀ x y, a ≤ x → x ≤ y → y ≤ b → (V y - V x) * |r.direction axis| ≤ M.aMax axis * (y - x)
  slowDown : ∀ axis, axis < M.n → ∀ x y, a ≤ x → x ≤ y → y ≤ b → (V x - V y) * |r.direction axis| ≤ -M.dMax axis * (y - x)
  turn : ∀ axis, axis < M.n → (axis = r.trajectory.arcAxis0 ∨ axis = r.trajectory.arcAxis1) → ∀ t, a ≤ t → t ≤ b →
    V t ^ 2 ≤ M.aMax axis * val r.trajectory.radius

/-- The path is travelled from start to end and from rest to rest, respecting all limits. -/
structure Job.Sound (M : Machine) (j : Job) : Prop extends Law M j.r j.f j.S j.V 0 j.T where
  pos : 0 < j.T
  start : j.S 0 = 0
  finish : j.S j.T = j.L
  atRest : j.V 0 = 0 ∧ j.V j.T = 0

/-- Moreover it does not take longer than twice the time needed at any constant speed that is allowed. It speeds up until a time
`a`, keeps its speed until a time `b` and slows down from then on; speeding up and slowing down take not more than twice the time
that the limits make necessary: with the jerk of the machine, or with any acceleration that is allowed. If it is long enough, it
reaches every speed that is allowed. -/
structure Job.Ok (M : Machine) (j : Job) : Prop extends Job.Sound M j where
  brisk : ∀ v a, Allowed M j.r v a → (fin v).le j.f = true → v ^ 2 ≤ a * j.L → v * j.T ≤ 2 * j.L
  shape : ∃ a b, 0 ≤ a ∧ a ≤ b ∧ b ≤ j.T ∧ (∀ x y, 0 ≤ x → x ≤ y → y ≤ a → j.V x ≤ j.V y) ∧
    (∀ x, a ≤ x → x ≤ b → j.V x = j.V a) ∧ (∀ x y, b ≤ x → x ≤ y → y ≤ j.T → j.V y ≤ j.V x) ∧
    ∀ v acc, Allowed M j.r v acc →
      a ≤ 2 * max (√(j.V a / M.jMax)) (j.V a / acc) ∧ j.T - b ≤ 2 * max (√(j.V a / M.jMax)) (j.V a / acc)
  full : ∃ t, 0 ≤ t ∧ t ≤ j.T ∧ ∀ v a, Allowed M j.r v a → (fin v).le j.f = true → v ^ 2 ≤ a * j.L → v ≤ j.V t

/-- The motion cannot be over within one tick of width `δ`: some axis has to go farther than it can within a tick. -/
def Long (M : Machine) (δ : ℝ) (r : SimplifiedMotion) : Prop :=
  ∃ axis, axis < M.n ∧ 0 < M.vMax axis ∧ ∃ s, 0 ≤ s ∧ s ≤ val r.trajectory.length ∧
    M.vMax axis * δ ≤ |place r axis s - place r axis 0|

/-- The motion is over before the tick counter (32 bits) overflows: it can be made at a constant speed `v` in half that time. -/
def Brief (M : Machine) (δ : ℝ) (r : SimplifiedMotion) (f : Num) : Prop :=
  ∃ v a, Allowed M r v a ∧ (fin v).le f = true ∧ v ^ 2 ≤ a * val r.trajectory.length ∧
    2 * val r.trajectory.length / v + δ < 2 ^ 32 * δ

/-- The motion can be made within the time `τ`: at a constant speed it could be made in half that time. -/
def Within (M : Machine) (r : SimplifiedMotion) (f : Num) (τ : ℝ) : Prop :=
  ∃ v a, Allowed M r v a ∧ (fin v).le f = true ∧ v ^ 2 ≤ a * val r.trajectory.length ∧ 2 * val r.trajectory.length / v ≤ τ

/-- After time `t`: the motions not yet over, and the time spent in the first of them. -/
noncomputable def rest : List Job → ℝ → List Job × ℝ
  | [], t => ([], t)
  | j :: js, t => if t ≤ j.T then (j :: js, t) else rest js (t - j.T)

/-- Where the axes have to be after time `t`; `d` is where they were before the first motion. -/
noncomputable def placeAt (d : Nat → ℝ) : List Job → ℝ → Nat → ℝ
  | [], _ => d
  | j :: js, t => if t ≤ j.T then fun axis => place j.r axis (j.S t) else placeAt (fun axis => place j.r axis j.L) js (t - j.T)

/-- Each motion starts where the one before it ends; the first one at `d`. -/
def Connected (n : Nat) : (Nat → ℝ) → List SimplifiedMotion → Prop
  | _, [] => True
  | d, r :: rs => (∀ axis, axis < n → place r axis 0 = d axis) ∧
    Connected n (fun axis => place r axis (val r.trajectory.length)) rs

/-- Where the last motion ends. -/
noncomputable def endOf : (Nat → ℝ) → List SimplifiedMotion → Nat → ℝ
  | d, [] => d
  | _, r :: rs => endOf (fun axis => place r axis (val r.trajectory.length)) rs

/-- The position after the first `n` motions and the distance `s` of the next one. -/
noncomputable def along : (Nat → ℝ) → List SimplifiedMotion → Nat → ℝ → Nat → ℝ
  | d, [], _, _ => d
  | _, r :: _, 0, s => fun axis => place r axis s
  | _, r :: rs, n + 1, s => along (fun axis => place r axis (val r.trajectory.length)) rs n s

/-- Total time. -/
noncomputable def total (js : List Job) : ℝ := (js.map Job.T).sum

/-! ## Stopping -/

/-- At time `u` the acceleration is over: the speed has not increased for some time and would not increase any more. (Also true
before anything has happened.) -/
def Job.Settled (j : Job) (u : ℝ) : Prop :=
  u = 0 ∨ ∃ u', u' < u ∧ ∀ x y, u' ≤ x → x ≤ y → y ≤ j.T → j.V y ≤ j.V x

/-- How a motion is stopped: `S t` is the distance travelled at time `t` of the motion and `V t` the speed, until it stands still
at the time `E`. -/
structure Brake where
  E : ℝ
  S : ℝ → ℝ
  V : ℝ → ℝ

/-- A stop requested at time `u` goes on from where the motion is at that time, and from its speed; it respects all limits, comes
to rest before the end of the path and takes not more than twice the time that the limits make necessary: with the jerk of the
machine, or with any deceleration that is allowed. -/
structure Brake.Ok (M : Machine) (j : Job) (u : ℝ) (k : Brake) : Prop where
  after : u ≤ k.E
  law : Law M j.r j.f k.S k.V u k.E
  start : k.S u = j.S u ∧ k.V u = j.V u
  rest : k.V k.E = 0
  within : k.S k.E ≤ j.L
  distance : 2 * (k.S k.E - j.S u) = j.V u * (k.E - u)
  quick : ∀ v a, Allowed M j.r v a → k.E - u ≤ 2 * max (√(j.V u / M.jMax)) (j.V u / a)

/-- The motion `j` was stopped from time `u` on, as described by `k`, and started again at time `t` with feed rate `f`. The motion as
a whole is `j'`: as ordered until `u`, then stopping, then at rest; at last it goes on from there to the end of the path,
respecting all limits, and not taking longer than twice the time needed at any constant speed that is allowed. -/
structure Resumes (M : Machine) (j : Job) (k : Brake) (u t : ℝ) (f : Num) (j' : Job) : Prop where
  request : j'.r = j.r
  sound : j'.Sound M
  before : ∀ x, x ≤ u → j'.S x = j.S x ∧ j'.V x = j.V x
  braking : ∀ x, u ≤ x → x ≤ k.E → j'.S x = k.S x ∧ j'.V x = k.V x
  still : ∀ x, k.E ≤ x → x ≤ t → j'.S x = k.S k.E ∧ j'.V x = 0
  later : t < j'.T
  law : Law M j.r f j'.S j'.V t j'.T
  brisk : ∀ v a, Allowed M j.r v a → (fin v).le f = true → v ^ 2 ≤ a * (j.L - k.S k.E) →
    v * (j'.T - t) ≤ 2 * (j.L - k.S k.E)

end Moovr.ExecSpec
