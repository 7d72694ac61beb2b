import Verif.Lemmas.EventBuffer
/-!
# Properties C01–C03: the event queue

All statements quantify over every finite history of calls on a freshly constructed `eventBuffer`.
-/
namespace Moovr.Props
open EventQueueSpec EventBuffer

/-- **C01–C03 (refinement).** After any history of calls, any further call returns exactly what the
specification prescribes: `popEvent` the oldest pending event (or `none`), `hasEvents` whether events are
pending, `getLevelMax` the high-water mark, `getLastError` the latest incident. -/
theorem event_queue_refines (calls : List Call) (c : Call) :
    ((after calls).call c).2 = expected calls c := by
  cases c with
  | reinit => rfl
  | push e => rfl
  | pop =>
    have hs := stored_after calls
    have hwf := wf_after calls
    simp only [call, expected, popEvent, ← hs]
    by_cases hl : (after calls).level > 0
    · obtain ⟨l, hl'⟩ : ∃ l, (after calls).level = l + 1 := ⟨(after calls).level - 1, by omega⟩
      simp [stored, hl', Ring.contents_succ hwf.head_lt]
    · have h0 : (after calls).level = 0 := by omega
      simp [h0, stored]
  | hasEvents =>
    have hl := level_after calls
    simp only [call, expected, hasEvents, hl]
    congr 1
    apply decide_eq_decide.2
    rw [gt_iff_lt, List.length_pos_iff]
  | getLevelMax => simp [call, expected, getLevelMax, levelMax_after]
  | getLastError => simp [call, expected, getLastError, lastError_after]

/-- **C01 (FIFO, exactly once).** Over any history (latest call first), the events accepted since the last
`initialize` are exactly the events handed out by `popEvent` followed by those still pending, in order. -/
theorem event_queue_fifo (hist : List Call) :
    acceptedRev hist = handedOutRev (logRev hist) ++ pending hist.reverse := by
  induction hist with
  | nil => rfl
  | cons c earlier ih =>
    rw [List.reverse_cons, pending_snoc, logRev, event_queue_refines]
    cases c with
    | reinit => simp [acceptedRev, handedOutRev, next]
    | push e =>
      simp only [acceptedRev, handedOutRev, next]
      split <;> simp [ih]
    | pop =>
      have hreal : ∀ e ∈ pending earlier.reverse, e ≠ .none := by
        rw [← stored_after]; exact (wf_after _).real
      simp only [acceptedRev, handedOutRev, expected, next, ih]
      cases hp : pending earlier.reverse with
      | nil => simp
      | cons e q =>
        have : e ≠ .none := hreal e (by simp [hp])
        simp [this]
    | hasEvents => simpa [next, acceptedRev, handedOutRev] using ih
    | getLevelMax => simpa [next, acceptedRev, handedOutRev] using ih
    | getLastError => simpa [next, acceptedRev, handedOutRev, expected] using ih

/-- **C01 (bounds).** Never more than 16 events are pending, and a pending event is never `none`; so
`popEvent` returns `none` iff nothing is pending. -/
theorem event_queue_bounded (calls : List Call) :
    (pending calls).length ≤ 16 ∧
    (((after calls).call .pop).2 = .event .none ↔ pending calls = []) := by
  have hwf := wf_after calls
  have hreal : ∀ e ∈ pending calls, e ≠ .none := by
    rw [← stored_after]; exact hwf.real
  refine ⟨?_, ?_⟩
  · rw [← level_after]; exact hwf.level_le
  · rw [event_queue_refines]
    simp only [expected]
    cases hp : pending calls with
    | nil => simp
    | cons e q =>
      have : e ≠ .none := hreal e (by simp [hp])
      simp [this]

/-- **C02.** `getLastError` reports `none` iff no incident happened since the flag was last read or reset;
otherwise it reports the kind of the latest incident (both follow from this equation); and it clears the flag. -/
theorem event_queue_error_reporting (calls : List Call) :
    ((after calls).call .getLastError).2 = .event (lastErrorRev calls.reverse) ∧
    ((after (calls ++ [.getLastError])).call .getLastError).2 = .event .none := by
  constructor
  · exact event_queue_refines calls .getLastError
  · rw [event_queue_refines]
    simp [expected, lastErrorRev]

/-- **C02.** A rejected push and a failed pop change nothing that any later call can observe, except the error
flag. -/
theorem event_queue_incident_harmless (calls : List Call) (c : Call) (e : Event)
    (h : incident (pending calls) c = some e) :
    ((after calls).call c).1 = { after calls with lastError := e } := by
  have hl := level_after calls
  cases c with
  | push x =>
    simp only [incident] at h
    split at h
    · rename_i hc
      have hx : Event.none ≠ x := fun h => hc.1 h.symm
      have : ¬ (after calls).level < length := by
        have : capacity = length := rfl
        omega
      simp only [Option.some.injEq] at h
      simp [call, pushEvent, hx, this, h]
    · cases h
  | pop =>
    simp only [incident] at h
    split at h
    · rename_i hc
      have : (after calls).level = 0 := by simp [hl, hc]
      simp only [Option.some.injEq] at h
      simp [call, popEvent, this, h]
    · cases h
  | reinit => cases h
  | hasEvents => cases h
  | getLevelMax => cases h
  | getLastError => cases h

/-- **C03.** `getLevelMax` returns the high-water mark of the specification, which is at most 16, and restarts
the measurement. -/
theorem event_queue_high_water (calls : List Call) :
    ((after calls).call .getLevelMax).2 = .nat (highWaterRev calls.reverse) ∧
    highWaterRev calls.reverse ≤ 16 ∧
    ((after (calls ++ [.getLevelMax])).call .getLevelMax).2 = .nat 0 := by
  refine ⟨event_queue_refines calls .getLevelMax, ?_, ?_⟩
  · rw [← levelMax_after]; exact (wf_after calls).levelMax_le
  · rw [event_queue_refines]; simp [expected, highWaterRev]

/-! Concrete cases: the hypotheses above are satisfiable and the specification functions are not trivial. -/

/-- 17 pushes overflow; wrap-around after pops. -/
example :
    let calls := List.replicate 17 (Call.push .motionStarted) ++ [.pop, .pop, .push .homingStarted]
    (pending calls).length = 15 ∧ lastErrorRev calls.reverse = .eventBufferOverflow ∧
    highWaterRev calls.reverse = 16 ∧
    (pending calls).getLast? = some .homingStarted := by decide

example : incident (pending []) Call.pop = some .eventBufferUnderflow := by decide

example : incident (pending (List.replicate 16 (Call.push .motionStarted))) (.push .motionStopped)
    = some .eventBufferOverflow := by decide

example : handedOutRev (logRev [.pop, .push .motionStopped, .push .none, .push .motionStarted])
      = [.motionStarted] ∧
    acceptedRev [.pop, .push .motionStopped, .push .none, .push .motionStarted]
      = [.motionStarted, .motionStopped] := by decide

end Moovr.Props
