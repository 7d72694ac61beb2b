import Verif.Spec.Execute
/-!
# Planning a motion again while it is in progress
-/
namespace Moovr.ExecSpec
open Num

/-- The motion `j` is planned again at time `u` with feed rate `f`. The motion as a whole is `j'`: as ordered until `u`, then on from
there to the end of the path, respecting all limits. Its speed first goes over to another one, in not more than twice the time that
the limits make necessary, and is never larger afterwards. This speed, reached at time `e`, is within the feed rate, and not less
than any constant speed that is allowed. The rest does not take longer than twice the time needed at any such speed. -/
structure Replans (M : Machine) (j : Job) (u : ℝ) (f : Num) (j' : Job) : Prop where
  request : j'.r = j.r
  sound : j'.Sound M
  before : ∀ x, x ≤ u → j'.S x = j.S x ∧ j'.V x = j.V x
  later : u < j'.T
  adapts : ∃ e, u ≤ e ∧ e ≤ j'.T ∧ (∀ x, u ≤ x → x ≤ e → min (j.V u) (j'.V e) ≤ j'.V x ∧ j'.V x ≤ max (j.V u) (j'.V e)) ∧
    (∀ v a, Allowed M j.r v a → e - u ≤ 2 * max (√(|j'.V e - j.V u| / M.jMax)) (|j'.V e - j.V u| / a)) ∧
    (∀ x, e ≤ x → x ≤ j'.T → j'.V x ≤ j'.V e) ∧ (fin (j'.V e)).le f = true ∧ Law M j.r f j'.S j'.V e j'.T ∧
    ∀ v a, Allowed M j.r v a → (fin v).le f = true → v ^ 2 ≤ a * (j.L - j.S u) → v ≤ j'.V e
  brisk : ∀ v a, Allowed M j.r v a → (fin v).le f = true → v ^ 2 ≤ a * (j.L - j.S u) → v * (j'.T - u) ≤ 2 * (j.L - j.S u)

end Moovr.ExecSpec
