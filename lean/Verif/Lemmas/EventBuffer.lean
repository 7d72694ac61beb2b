import Verif.Model.EventBuffer
import Verif.Lemmas.Ring
/-! Helper lemmas for the event queue: the ring buffer refines the list queue. -/
namespace Moovr.EventBuffer
open EventQueueSpec

/-- The pending events stored in the ring, oldest first. -/
def stored (b : EventBuffer) : List Event := Ring.contents length b.cells b.head b.level

/-- Representation invariant. -/
structure Wf (b : EventBuffer) : Prop where
  head_lt : b.head < length
  level_le : b.level ≤ length
  levelMax_le : b.levelMax ≤ length
  real : ∀ e ∈ b.stored, e ≠ .none

theorem stored_length (b : EventBuffer) : b.stored.length = b.level := by simp [stored]

theorem wf_init : init.Wf := by
  refine ⟨by decide, by decide, by decide, ?_⟩
  simp [stored, init]

theorem level_eq_zero_iff (b : EventBuffer) : b.stored = [] ↔ b.level = 0 := by
  rw [← stored_length]; exact List.length_eq_zero_iff.symm

theorem stored_push {b : EventBuffer} {e : Event} (h : b.level < length) (he : e ≠ .none) :
    (b.pushEvent e).stored = b.stored ++ [e] := by
  have he' : Event.none ≠ e := fun h => he h.symm
  simp only [stored, pushEvent, he', ne_eq, not_false_eq_true, if_true, h]
  exact Ring.contents_push h

theorem stored_call {b : EventBuffer} (h : b.Wf) (c : Call) :
    (b.call c).1.stored = next b.stored c := by
  have hlen := b.stored_length
  cases c with
  | reinit => simp [call, doInitialize, stored, next]
  | push e =>
    simp only [call, next, Accepts, hlen]
    by_cases he : e = .none
    · simp [he, pushEvent]
    · have he' : Event.none ≠ e := fun h => he h.symm
      by_cases hl : b.level < length
      · have hl' : b.level < capacity := hl
        simp only [hl', he, ne_eq, not_false_eq_true, and_self, if_true]
        exact stored_push hl he
      · have hl' : ¬ b.level < capacity := hl
        simp only [hl', and_false, if_false]
        simp [pushEvent, he', hl, stored]
  | pop =>
    simp only [call, next, popEvent]
    by_cases hl : b.level > 0
    · simp only [hl, if_true, stored]
      exact Ring.contents_pop h.head_lt hl
    · have h0 : b.level = 0 := by omega
      have hs : b.stored = [] := (level_eq_zero_iff b).2 h0
      rw [hs]
      simp [stored, h0]
  | hasEvents => rfl
  | getLevelMax => rfl
  | getLastError => rfl

theorem wf_call {b : EventBuffer} (h : b.Wf) (c : Call) : (b.call c).1.Wf := by
  have hst := stored_call h c
  have hreal : ∀ e ∈ (b.call c).1.stored, e ≠ .none := by
    rw [hst]
    cases c with
    | reinit => simp [next]
    | push e =>
      simp only [next]
      split
      · rename_i hacc
        intro x hx
        rcases List.mem_append.1 hx with hx | hx
        · exact h.real x hx
        · rw [List.mem_singleton] at hx; rw [hx]; exact hacc.1
      · exact h.real
    | pop => exact fun e he => h.real e (List.mem_of_mem_tail he)
    | hasEvents => exact h.real
    | getLevelMax => exact h.real
    | getLastError => exact h.real
  have h1 := h.head_lt
  have h2 := h.level_le
  have h3 := h.levelMax_le
  have hpos : 0 < length := by decide
  cases c with
  | reinit => exact ⟨hpos, Nat.zero_le _, Nat.zero_le _, hreal⟩
  | push e =>
    refine ⟨?_, ?_, ?_, hreal⟩ <;>
    · simp only [call, pushEvent]
      split
      · split
        · try simp only
          try split
          all_goals omega
        · assumption
      · assumption
  | pop =>
    refine ⟨?_, ?_, ?_, hreal⟩ <;>
    · simp only [call, popEvent]
      split
      · first
          | exact Nat.mod_lt _ hpos
          | (simp only; omega)
      · assumption
  | hasEvents => exact ⟨h1, h2, h3, hreal⟩
  | getLevelMax => exact ⟨h1, h2, Nat.zero_le _, hreal⟩
  | getLastError => exact ⟨h1, h2, h3, hreal⟩

theorem after_snoc (calls : List Call) (c : Call) :
    after (calls ++ [c]) = ((after calls).call c).1 := by simp [after]

theorem pending_snoc (calls : List Call) (c : Call) :
    pending (calls ++ [c]) = next (pending calls) c := by simp [pending]

/-- Induction over histories, last call split off. -/
theorem history_induction {P : List Call → Prop} (nil : P [])
    (snoc : ∀ calls c, P calls → P (calls ++ [c])) : ∀ calls, P calls := by
  intro calls
  rw [← List.reverse_reverse calls]
  induction calls.reverse with
  | nil => exact nil
  | cons c cs ih => rw [List.reverse_cons]; exact snoc _ _ ih

theorem wf_after (calls : List Call) : (after calls).Wf := by
  induction calls using history_induction with
  | nil => exact wf_init
  | snoc calls c ih => rw [after_snoc]; exact wf_call ih c

theorem stored_after (calls : List Call) : (after calls).stored = pending calls := by
  induction calls using history_induction with
  | nil => simp [after, pending, stored, init]
  | snoc calls c ih => rw [after_snoc, pending_snoc, stored_call (wf_after calls), ih]

theorem level_after (calls : List Call) : (after calls).level = (pending calls).length := by
  rw [← stored_after, stored_length]

theorem lastError_after (calls : List Call) : (after calls).lastError = lastErrorRev calls.reverse := by
  induction calls using history_induction with
  | nil => rfl
  | snoc calls c ih =>
    have hl := level_after calls
    rw [after_snoc, List.reverse_append, List.reverse_singleton, List.singleton_append]
    cases c with
    | reinit => rfl
    | getLastError => rfl
    | hasEvents => simpa [call, lastErrorRev, incident] using ih
    | getLevelMax => simpa [call, lastErrorRev, incident, getLevelMax] using ih
    | push e =>
      simp only [call, lastErrorRev, incident, List.reverse_reverse, pushEvent, ← hl]
      by_cases he : e = .none
      · subst he; simpa using ih
      · have he' : Event.none ≠ e := fun h => he h.symm
        by_cases hl' : (after calls).level < length
        · have : ¬ capacity ≤ (after calls).level := by
            have : capacity = length := rfl
            omega
          simpa [he, he', hl', this] using ih
        · have : capacity ≤ (after calls).level := by
            have : capacity = length := rfl
            omega
          simp [he, he', hl', this]
    | pop =>
      simp only [call, lastErrorRev, incident, List.reverse_reverse, popEvent]
      have hiff : pending calls = [] ↔ (after calls).level = 0 := by
        rw [hl]; exact List.length_eq_zero_iff.symm
      by_cases hp : pending calls = []
      · have : ¬ (after calls).level > 0 := by have := hiff.1 hp; omega
        simp [hp, this]
      · have : (after calls).level > 0 := by
          rcases Nat.eq_zero_or_pos (after calls).level with h | h
          · exact absurd (hiff.2 h) hp
          · exact h
        simpa [hp, this] using ih

theorem levelMax_after (calls : List Call) : (after calls).levelMax = highWaterRev calls.reverse := by
  induction calls using history_induction with
  | nil => rfl
  | snoc calls c ih =>
    have hl := level_after calls
    rw [after_snoc, List.reverse_append, List.reverse_singleton, List.singleton_append]
    cases c with
    | reinit => rfl
    | getLevelMax => rfl
    | getLastError => simpa [call, highWaterRev, getLastError] using ih
    | hasEvents => simpa [call, highWaterRev] using ih
    | pop =>
      simp only [call, highWaterRev, popEvent]
      split <;> simpa using ih
    | push e =>
      simp only [call, highWaterRev, List.reverse_reverse, pushEvent, Accepts, ← hl, ← ih]
      by_cases he : e = .none
      · subst he; simp
      · have he' : Event.none ≠ e := fun h => he h.symm
        by_cases hl' : (after calls).level < length
        · have hc : (after calls).level < capacity := hl'
          simp only [he, he', hl', hc, ne_eq, not_false_eq_true, and_self, if_true, gt_iff_lt]
          split <;> omega
        · have hc : ¬ (after calls).level < capacity := hl'
          simp [he', hl', hc]

end Moovr.EventBuffer
