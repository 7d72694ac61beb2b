import Verif.Lemmas.Debounce
/-!
# Properties C04–C06: debounced inputs

`(d.doInitialize level).feed xs` is an input initialised with `level` and then sampled with `xs`.
-/
namespace Moovr.Props
open DebounceSpec DebouncedInput

/-- The reports, as events of input `d`: change to `true` is `onClose`, change to `false` is `onOpen`. -/
private def asEvents (d : DebouncedInput) (reports : List (Option Bool)) : List Event :=
  reports.map fun
    | none => .none
    | some true => d.onClose
    | some false => d.onOpen

private theorem feed_reports {level : Bool} {samples : List Bool} {d : DebouncedInput}
    (h : Settled level samples d) (xs : List Bool) :
    ∃ reports, Reports level samples xs reports ∧ (d.feed xs).2 = asEvents d reports := by
  induction xs generalizing d level samples with
  | nil => exact ⟨[], .done, rfl⟩
  | cons x xs ih =>
    have hev : ∀ rs, asEvents (d.getEvent x).1 rs = asEvents d rs := by
      intro rs; unfold asEvents
      obtain ⟨h1, h2⟩ := getEvent_events d x
      rw [h1, h2]
    rcases step_cases h x with ⟨hj, hn, h'⟩ | ⟨hj, hn, h'⟩
    · obtain ⟨rs, hr, he⟩ := ih h'
      refine ⟨none :: rs, .quiet hj hr, ?_⟩
      simp only [feed, he, hev, hn]; rfl
    · obtain ⟨rs, hr, he⟩ := ih h'
      refine ⟨some (!level) :: rs, .change hj hr, ?_⟩
      simp only [feed, he, hev, hn]
      cases level <;> rfl

/-- **C04.** From any initial level and for every sample sequence, the events returned are exactly those of the
specification: a change is reported at a sample iff, among the samples since the input last settled, some window
of most recent samples contains at least 5 more deviating than agreeing samples. -/
theorem debounce_reports_justified_changes (d : DebouncedInput) (level : Bool) (xs : List Bool) :
    ∃ reports, Reports level [] xs reports ∧
      ((d.doInitialize level).feed xs).2 = reports.map (fun
        | none => .none
        | some true => d.onClose
        | some false => d.onOpen) := by
  obtain ⟨rs, hr, he⟩ := feed_reports (settled_initialize d level) xs
  refine ⟨rs, hr, ?_⟩
  rw [he]; cases level <;> rfl

/-- **C04 (determinism of the specification).** The specification admits only one report list, so the theorem
above fixes the behaviour completely. -/
theorem debounce_spec_deterministic {level : Bool} {samples xs : List Bool} {r1 r2 : List (Option Bool)}
    (h1 : Reports level samples xs r1) (h2 : Reports level samples xs r2) : r1 = r2 := by
  induction h1 generalizing r2 with
  | done => cases h2; rfl
  | quiet hj _ ih =>
    cases h2 with
    | quiet _ h => rw [ih h]
    | change hj' _ => exact absurd hj' hj
  | change hj _ ih =>
    cases h2 with
    | quiet hj' _ => exact absurd hj hj'
    | change _ h => rw [ih h]

/-- **C04 (stable contact).** After any history, five identical consecutive samples bring the reported state to
that value. -/
theorem debounce_five_samples_settle (d : DebouncedInput) (level : Bool) (xs : List Bool) (b : Bool) :
    (((d.doInitialize level).feed (xs ++ [b, b, b, b, b])).1).getState = b := by
  obtain ⟨l', s', h⟩ := settled_feed (settled_initialize d level) xs
  rw [feed_append]
  simp only
  generalize ((d.doInitialize level).feed xs).1 = e at h ⊢
  obtain ⟨hc, hp, hcnt, -, -⟩ := h
  have hcases : e.debounceCounter = 0 ∨ e.debounceCounter = 1 ∨ e.debounceCounter = 2 ∨
      e.debounceCounter = 3 ∨ e.debounceCounter = 4 := by
    unfold debounceMaxCount at hcnt; omega
  cases b <;> cases l' <;> rcases hcases with h | h | h | h | h <;>
    simp [feed, getEvent, getState, h, debounceMaxCount, hp]

/-- **C04 (glitches).** If, among the samples taken since `initialize`, no window of samples contains 5 more
deviating than agreeing samples, nothing at all is reported and the state does not change. -/
theorem debounce_ignores_glitches (d : DebouncedInput) (level : Bool) (xs : List Bool)
    (h : ∀ window, window <:+: xs → window.count (!level) < window.count level + 5) :
    (∀ e ∈ ((d.doInitialize level).feed xs).2, e = .none) ∧
    ((d.doInitialize level).feed xs).1.getState = level := by
  suffices H : ∀ (xs samples : List Bool) (e : DebouncedInput), Settled level samples e →
      (∀ window, window <:+: samples ++ xs → window.count (!level) < window.count level + 5) →
      (∀ ev ∈ (e.feed xs).2, ev = .none) ∧ (e.feed xs).1.getState = level from
    H xs [] _ (settled_initialize d level) (by simpa using h)
  intro xs
  induction xs with
  | nil => intro samples e hs _; exact ⟨by simp [feed], hs.cur⟩
  | cons x xs ih =>
    intro samples e hs hw
    rcases step_cases hs x with ⟨-, hn, h'⟩ | ⟨⟨w, hsuf, h5⟩, -, -⟩
    · obtain ⟨i1, i2⟩ := ih (samples ++ [x]) (e.getEvent x).1 h' (by simpa using hw)
      refine ⟨?_, i2⟩
      intro ev hev
      simp only [feed, List.mem_cons] at hev
      rcases hev with rfl | hev
      · exact hn
      · exact i1 ev hev
    · exfalso
      have hinf : w <:+: samples ++ x :: xs := by
        obtain ⟨t, ht⟩ := hsuf
        refine ⟨t, xs, ?_⟩
        rw [ht]; simp
      have := hw w hinf
      unfold excess at h5
      simp only [Bool.not_not] at h5
      omega

/-- **C05.** For an input with two real events, the reported (non-`none`) events alternate, beginning with the
change away from the initial level, and the reported state is the initial level toggled once per event. -/
theorem debounce_events_alternate (d : DebouncedInput) (level : Bool) (xs : List Bool)
    (ho : d.onOpen ≠ .none) (hc : d.onClose ≠ .none) :
    ∃ n, ((d.doInitialize level).feed xs).2.filter (· ≠ .none)
        = alternating (if level then d.onOpen else d.onClose) (if level then d.onClose else d.onOpen) n ∧
      ((d.doInitialize level).feed xs).1.getState = toggled level n := by
  suffices H : ∀ (xs : List Bool) (level : Bool) (samples : List Bool) (e : DebouncedInput),
      Settled level samples e → e.onOpen = d.onOpen → e.onClose = d.onClose →
      ∃ n, (e.feed xs).2.filter (· ≠ .none)
        = alternating (if level then d.onOpen else d.onClose) (if level then d.onClose else d.onOpen) n ∧
      (e.feed xs).1.getState = toggled level n by
    refine H xs level [] _ (settled_initialize d level) ?_ ?_ <;> cases level <;> rfl
  intro xs
  induction xs with
  | nil => intro level samples e hs _ _; exact ⟨0, rfl, hs.cur⟩
  | cons x xs ih =>
    intro level samples e hs h1 h2
    obtain ⟨g1, g2⟩ := getEvent_events e x
    rcases step_cases hs x with ⟨-, hn, h'⟩ | ⟨-, hn, h'⟩
    · obtain ⟨n, i1, i2⟩ := ih level _ _ h' (by rw [g1, h1]) (by rw [g2, h2])
      refine ⟨n, ?_, i2⟩
      simp only [feed, hn]
      simpa using i1
    · obtain ⟨n, i1, i2⟩ := ih (!level) _ _ h' (by rw [g1, h1]) (by rw [g2, h2])
      refine ⟨n + 1, ?_, i2⟩
      simp only [feed, hn]
      cases level
      · simpa [report, h2, hc, alternating] using i1
      · simpa [report, h1, ho, alternating] using i1

/-- **C05.** `isOpen` and `isClosed` are complementary views of the reported state. -/
theorem debounce_open_closed (d : DebouncedInput) :
    d.isOpen = d.getState ∧ d.isClosed = !d.getState := by
  cases h : d.currentState <;> simp [isOpen, isClosed, getState, h]

/-- **C06.** Two events reported by one input are at least five samples apart. -/
theorem debounce_events_apart (d : DebouncedInput) (level : Bool) (xs : List Bool) (i j : Nat)
    (hij : i < j) (hj : j < ((d.doInitialize level).feed xs).2.length)
    (hi' : ((d.doInitialize level).feed xs).2[i] ≠ .none)
    (hj' : ((d.doInitialize level).feed xs).2[j] ≠ .none) : i + 5 ≤ j := by
  -- within five samples after settling nothing is reported before the fifth
  have early : ∀ (ys : List Bool) (l : Bool) (samples : List Bool) (e : DebouncedInput) (k : Nat)
      (hk : k < (e.feed ys).2.length), Settled l samples e → samples.length + k < 4 →
      (e.feed ys).2[k] = .none := by
    intro ys
    induction ys with
    | nil => intro l samples e k hk; simp [feed] at hk
    | cons y ys ih =>
      intro l samples e k hk hs hlen
      rcases step_cases hs y with ⟨-, hn, h'⟩ | ⟨⟨w, hw, h5⟩, -, -⟩
      · cases k with
        | zero => simpa [feed] using hn
        | succ k =>
          simp only [feed, List.getElem_cons_succ]
          exact ih l _ _ k _ h' (by simp only [List.length_append, List.length_singleton]; omega)
      · exfalso
        have := hw.length_le
        have hc : w.count (!l) ≤ w.length := List.count_le_length
        unfold excess at h5
        simp only [List.length_append, List.length_singleton] at this
        omega
  -- walk to the first event
  suffices H : ∀ (xs : List Bool) (l : Bool) (samples : List Bool) (e : DebouncedInput) (i j : Nat)
      (hij : i < j) (hj : j < (e.feed xs).2.length), Settled l samples e →
      (e.feed xs).2[i] ≠ .none → (e.feed xs).2[j] ≠ .none → i + 5 ≤ j from
    H xs level [] _ i j hij hj (settled_initialize d level) hi' hj'
  intro xs
  induction xs with
  | nil => intro l samples e i j hij hj; simp [feed] at hj
  | cons x xs ih =>
    intro l samples e i j hij hj hs h1 h2
    obtain ⟨j, rfl⟩ : ∃ j', j = j' + 1 := ⟨j - 1, by omega⟩
    simp only [feed, List.length_cons, Nat.add_lt_add_iff_right] at hj
    simp only [feed, List.getElem_cons_succ] at h2
    rcases step_cases hs x with ⟨-, hn, h'⟩ | ⟨-, -, h'⟩
    · cases i with
      | zero => exact absurd (by simpa [feed] using hn) h1
      | succ i =>
        simp only [feed, List.getElem_cons_succ] at h1
        have := ih l _ _ i j (by omega) hj h' h1 h2
        omega
    · cases i with
      | zero =>
        rcases Nat.lt_or_ge j 4 with hlt | hge
        · exact absurd (early xs _ _ _ j hj h' (by simpa using hlt)) h2
        · omega
      | succ i =>
        simp only [feed, List.getElem_cons_succ] at h1
        have := ih (!l) _ _ i j (by omega) hj h' h1 h2
        omega

/-! Concrete cases. -/

/-- A bouncing contact: the change is reported exactly at the first sample where a window has excess 5. -/
example : (((mk' .limitSwitchXMaxClosed .limitSwitchXMaxOpened).doInitialize false).feed
    [true, true, false, true, true, true, true, true, false]).2
    = [.none, .none, .none, .none, .none, .none, .limitSwitchXMaxOpened, .none, .none] := by decide

/-- The glitch hypothesis is satisfiable by a noisy sequence that deviates more than half of the time. -/
example : (∀ e ∈ (((mk' .limitSwitchXMaxClosed .limitSwitchXMaxOpened).doInitialize false).feed
    [true, true, true, true, false, false, true, true]).2, e = .none) := by
  refine (debounce_ignores_glitches _ false _ ?_).1
  have : ∀ i ≤ 8, ∀ j ≤ 8,
      (([true, true, true, true, false, false, true, true].drop i).take j).count (!false)
        < (([true, true, true, true, false, false, true, true].drop i).take j).count false + 5 := by decide
  rintro window ⟨s, t, h⟩
  have hlen : s.length + window.length + t.length = 8 := by
    have := congrArg List.length h
    simpa [Nat.add_assoc] using this
  have hw : window = ([true, true, true, true, false, false, true, true].drop s.length).take window.length := by
    rw [← h]; simp
  rw [hw]
  exact this _ (by omega) _ (by omega)

/-- Events do occur, five samples apart at the earliest. -/
example : (((mk' .limitSwitchXMaxClosed .limitSwitchXMaxOpened).doInitialize false).feed
    [true, true, true, true, true, false, false, false, false, false]).2
    = [.none, .none, .none, .none, .limitSwitchXMaxOpened, .none, .none, .none, .none,
       .limitSwitchXMaxClosed] := by decide

end Moovr.Props
