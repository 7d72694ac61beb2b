import Mathlib.Analysis.Calculus.Deriv.Basic
/-!
# What a body can do within acceleration limits

A ride covers a length in some time, forward only, with a continuous speed that rises by at most `a` and falls by at most `-d` per
unit of time. Nothing is said about how the ride is made up; in particular it need not consist of phases.
-/
namespace Moovr
open Set

/-- A ride over the length `L` in the time `T`, from speed `vS` to speed `vE`, with accelerations between `d` and `a`: `x t` is the
distance covered at time `t`, `v t` the speed. -/
structure Ride (a d vS vE L T : ℝ) (x v : ℝ → ℝ) : Prop where
  time : 0 ≤ T
  x0 : x 0 = 0
  xT : x T = L
  v0 : v 0 = vS
  vT : v T = vE
  forward : ∀ t ∈ Icc 0 T, 0 ≤ v t
  speed : ∀ t ∈ Icc 0 T, HasDerivWithinAt x (v t) (Icc 0 T) t
  accel : ∀ s ∈ Icc 0 T, ∀ t ∈ Icc 0 T, s ≤ t → d * (t - s) ≤ v t - v s ∧ v t - v s ≤ a * (t - s)

/-- It is possible to get from speed `vS` to speed `vE` within exactly the length `L`. -/
def CanRide (a d L vS vE : ℝ) : Prop := ∃ T x v, Ride a d vS vE L T x v

end Moovr
