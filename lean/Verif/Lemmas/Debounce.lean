import Verif.Model.Debounce
import Verif.Spec.Debounce
/-! Helper lemmas for the debounced input. -/
namespace Moovr.DebouncedInput
open DebounceSpec

theorem excess_snoc (b x : Bool) (w : List Bool) :
    excess b (w ++ [x]) = excess b w + (if x = b then 1 else -1) := by
  unfold excess
  rw [List.count_append, List.count_append]
  cases x <;> cases b <;> simp <;> omega

theorem excess_nil (b : Bool) : excess b [] = 0 := by simp [excess]

/-- The distance of the counter from the settled end. -/
def dist (level : Bool) (d : DebouncedInput) : Nat :=
  if level then debounceMaxCount - d.debounceCounter else d.debounceCounter

/-- The state of an input that settled on `level` and has since taken `samples`: the counter's distance from
the settled end is the largest excess of deviating samples over all windows of most recent samples. -/
structure Settled (level : Bool) (samples : List Bool) (d : DebouncedInput) : Prop where
  cur : d.currentState = level
  prev : d.previousState = level
  cnt : d.debounceCounter ≤ debounceMaxCount
  attained : ∃ w, w <:+ samples ∧ excess (!level) w = (dist level d : Int)
  max : ∀ w, w <:+ samples → excess (!level) w ≤ (dist level d : Int)

theorem settled_initialize (d : DebouncedInput) (level : Bool) : Settled level [] (d.doInitialize level) := by
  cases level
  · refine ⟨rfl, rfl, Nat.zero_le _, ⟨[], List.suffix_rfl, by simp [excess, dist, doInitialize]⟩, ?_⟩
    intro w hw
    rw [List.suffix_nil] at hw; subst hw; simp [excess, dist, doInitialize]
  · refine ⟨rfl, rfl, Nat.le_refl _, ⟨[], List.suffix_rfl, by simp [excess, dist, doInitialize]⟩, ?_⟩
    intro w hw
    rw [List.suffix_nil] at hw; subst hw; simp [excess, dist, doInitialize]

theorem settled_new (a b : Event) : Settled false [] (mk' a b) := by
  refine ⟨rfl, rfl, Nat.zero_le _, ⟨[], List.suffix_rfl, by simp [excess, dist, mk']⟩, ?_⟩
  intro w hw
  rw [List.suffix_nil] at hw; subst hw; simp [excess, dist, mk']

theorem suffix_snoc {w l : List Bool} {x : Bool} :
    w <:+ l ++ [x] ↔ w = [] ∨ ∃ v, w = v ++ [x] ∧ v <:+ l := by
  constructor
  · rintro ⟨t, ht⟩
    rcases List.eq_nil_or_concat w with rfl | ⟨v, y, rfl⟩
    · exact .inl rfl
    · right
      simp only [List.concat_eq_append] at ht ⊢
      rw [← List.append_assoc] at ht
      have := List.append_inj' ht rfl
      obtain ⟨h1, h2⟩ := this
      cases h2
      exact ⟨v, rfl, ⟨t, h1⟩⟩
  · rintro (rfl | ⟨v, rfl, t, rfl⟩)
    · exact List.nil_suffix
    · exact ⟨t, by simp⟩

/-- The maximal window excess follows the reflected walk. -/
theorem settled_walk {level : Bool} {samples : List Bool} {d : DebouncedInput} {x : Bool}
    (h : Settled level samples d) :
    (∀ w, w <:+ samples ++ [x] →
      excess (!level) w ≤ (if x = !level then (dist level d : Int) + 1 else ((dist level d - 1 : Nat) : Int))) ∧
    (∃ w, w <:+ samples ++ [x] ∧
      excess (!level) w = (if x = !level then (dist level d : Int) + 1 else ((dist level d - 1 : Nat) : Int))) := by
  obtain ⟨w0, hw0, he0⟩ := h.attained
  constructor
  · intro w hw
    rcases suffix_snoc.1 hw with rfl | ⟨v, rfl, hv⟩
    · rw [excess_nil]; split <;> omega
    · have := h.max v hv
      rw [excess_snoc]
      split <;> omega
  · by_cases hx : x = !level
    · refine ⟨w0 ++ [x], suffix_snoc.2 (.inr ⟨w0, rfl, hw0⟩), ?_⟩
      rw [excess_snoc, he0]; simp [hx]
    · by_cases hd : dist level d = 0
      · refine ⟨[], List.nil_suffix, ?_⟩
        simp [hx, hd, excess_nil]
      · refine ⟨w0 ++ [x], suffix_snoc.2 (.inr ⟨w0, rfl, hw0⟩), ?_⟩
        rw [excess_snoc, he0]; simp only [hx, if_false]; omega

/-- The report for a change to `b`. -/
def report (d : DebouncedInput) : Option Bool → Event
  | none => .none
  | some true => d.onClose
  | some false => d.onOpen

/-- One sample: either the change is justified, the matching event is returned and the input is settled on the
new level, or it is not justified, `none` is returned and the input stays settled on the old level. -/
theorem step_cases {level : Bool} {samples : List Bool} {d : DebouncedInput} (h : Settled level samples d)
    (x : Bool) :
    (¬ Justified level (samples ++ [x]) ∧ (d.getEvent x).2 = .none ∧
      Settled level (samples ++ [x]) (d.getEvent x).1) ∨
    (Justified level (samples ++ [x]) ∧ (d.getEvent x).2 = d.report (some (!level)) ∧
      Settled (!level) [] (d.getEvent x).1) := by
  obtain ⟨hmax, hatt⟩ := settled_walk (x := x) h
  obtain ⟨hc, hp, hcnt, -, -⟩ := h
  by_cases hj : Justified level (samples ++ [x])
  · right
    refine ⟨hj, ?_⟩
    obtain ⟨w, hw, h5⟩ := hj
    have := hmax w hw
    have hx : x = !level := by
      by_cases hx : x = !level
      · exact hx
      · simp only [hx, if_false] at this
        have : dist level d ≤ 4 := by
          unfold dist; split
          · exact Nat.sub_le _ _
          · exact hcnt
        omega
    simp only [hx, if_true] at this
    have hd : dist level d = 4 := by
      have : dist level d ≤ 4 := by
        unfold dist; split
        · exact Nat.sub_le _ _
        · exact hcnt
      omega
    subst hx
    cases level
    · simp only [dist, Bool.false_eq_true, if_false] at hd
      refine ⟨?_, ?_⟩
      · simp [getEvent, hd, debounceMaxCount, hp, report]
      · refine ⟨by simp [getEvent, hd, debounceMaxCount, hp], by simp [getEvent, hd, debounceMaxCount, hp],
          by simp [getEvent, hd, debounceMaxCount, hp], ⟨[], List.suffix_rfl, ?_⟩, ?_⟩
        · simp [excess, dist, getEvent, hd, debounceMaxCount, hp]
        · intro w hw; rw [List.suffix_nil] at hw; subst hw
          simp [excess, dist]
    · simp only [dist, if_true] at hd
      have hd0 : d.debounceCounter = 0 := by unfold debounceMaxCount at hd; omega
      refine ⟨?_, ?_⟩
      · simp [getEvent, hd0, hp, report]
      · refine ⟨by simp [getEvent, hd0, hp], by simp [getEvent, hd0, hp],
          by simp [getEvent, hd0, hp], ⟨[], List.suffix_rfl, ?_⟩, ?_⟩
        · simp [excess, dist, getEvent, hd0, hp]
        · intro w hw; rw [List.suffix_nil] at hw; subst hw
          simp [excess, dist]
  · left
    refine ⟨hj, ?_⟩
    obtain ⟨w, hw, he⟩ := hatt
    have hlt : excess (!level) w < 5 := by
      rcases Int.lt_or_le (excess (!level) w) 5 with h | h
      · exact h
      · exact absurd ⟨w, hw, h⟩ hj
    have key : (if x = !level then (dist level d : Int) + 1 else ((dist level d - 1 : Nat) : Int))
        = (dist level (d.getEvent x).1 : Int) ∧ (d.getEvent x).2 = .none ∧
        (d.getEvent x).1.currentState = level ∧ (d.getEvent x).1.previousState = level ∧
        (d.getEvent x).1.debounceCounter ≤ debounceMaxCount := by
      rw [he] at hlt
      cases level <;> cases x <;> simp only [dist, debounceMaxCount, Bool.not_true, Bool.not_false,
        Bool.false_eq_true, Bool.true_eq_false, if_true, if_false] at hlt hcnt ⊢
      · -- settled low, sample low
        by_cases h0 : d.debounceCounter > 0
        · simp [getEvent, h0, hc, hp]; omega
        · have : d.debounceCounter = 0 := by omega
          simp [getEvent, this, hp]
      · have : d.debounceCounter < 4 := by omega
        simp [getEvent, this, hc, hp, debounceMaxCount]
        omega
      · have : d.debounceCounter > 0 := by omega
        simp [getEvent, this, hc, hp]
        omega
      · by_cases h4 : d.debounceCounter < 4
        · simp [getEvent, h4, hc, hp, debounceMaxCount]; omega
        · have : d.debounceCounter = 4 := by omega
          simp [getEvent, this, hp, debounceMaxCount]
    obtain ⟨k1, k2, k3, k4, k5⟩ := key
    refine ⟨k2, k3, k4, k5, ⟨w, hw, by rw [he, k1]⟩, ?_⟩
    intro v hv
    rw [← k1]; exact hmax v hv

theorem getEvent_events (d : DebouncedInput) (x : Bool) :
    (d.getEvent x).1.onOpen = d.onOpen ∧ (d.getEvent x).1.onClose = d.onClose := by
  unfold getEvent; (repeat' split) <;> exact ⟨rfl, rfl⟩

theorem report_getEvent (d : DebouncedInput) (x : Bool) (r) : (d.getEvent x).1.report r = d.report r := by
  obtain ⟨h1, h2⟩ := getEvent_events d x
  cases r with
  | none => rfl
  | some b => cases b <;> simp [report, h1, h2]

theorem feed_append (d : DebouncedInput) (xs ys : List Bool) :
    d.feed (xs ++ ys) = (((d.feed xs).1.feed ys).1, (d.feed xs).2 ++ ((d.feed xs).1.feed ys).2) := by
  induction xs generalizing d with
  | nil => rfl
  | cons x xs ih => simp [feed, ih]

theorem length_feed (d : DebouncedInput) (xs : List Bool) : (d.feed xs).2.length = xs.length := by
  induction xs generalizing d with
  | nil => rfl
  | cons x xs ih => simp [feed, ih]

/-- Every state reachable from a settled one is settled. -/
theorem settled_feed {level : Bool} {samples : List Bool} {d : DebouncedInput} (h : Settled level samples d)
    (xs : List Bool) : ∃ level' samples', Settled level' samples' (d.feed xs).1 := by
  induction xs generalizing d level samples with
  | nil => exact ⟨_, _, h⟩
  | cons x xs ih =>
    rcases step_cases h x with ⟨-, -, h'⟩ | ⟨-, -, h'⟩ <;> exact ih h'

end Moovr.DebouncedInput
