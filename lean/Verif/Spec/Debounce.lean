import Verif.Model.Event
/-!
# Specification of a debounced contact

Independent of the counter in the code: a change away from the settled level is reported as soon as in some
window of most recent samples the deviating samples outnumber the agreeing ones by 5.
-/
namespace Moovr.DebounceSpec

/-- Samples equal to `b` minus samples different from `b`. -/
def excess (b : Bool) (window : List Bool) : Int :=
  (window.count b : Int) - (window.count (!b) : Int)

/-- The samples (first one first) taken since the input settled on `level` justify reporting a change. -/
def Justified (level : Bool) (samples : List Bool) : Prop :=
  ∃ window, window <:+ samples ∧ 5 ≤ excess (!level) window

/-- Observable behaviour of an input that settled on `level` with `samples` taken since, fed `more` samples:
the list of reports (`none`: nothing reported, `some b`: change to `b` reported). -/
inductive Reports : (level : Bool) → (samples more : List Bool) → List (Option Bool) → Prop where
  | done {level samples} : Reports level samples [] []
  | quiet {level samples x more out} : ¬ Justified level (samples ++ [x]) →
      Reports level (samples ++ [x]) more out → Reports level samples (x :: more) (none :: out)
  | change {level samples x more out} : Justified level (samples ++ [x]) →
      Reports (!level) [] more out → Reports level samples (x :: more) (some (!level) :: out)

/-- `n` events alternating between `a` (first) and `b`. -/
def alternating (a b : Event) : Nat → List Event
  | 0 => []
  | n + 1 => a :: alternating b a n

/-- The level after `n` changes starting from `level`. -/
def toggled (level : Bool) : Nat → Bool
  | 0 => level
  | n + 1 => toggled (!level) n

end Moovr.DebounceSpec
