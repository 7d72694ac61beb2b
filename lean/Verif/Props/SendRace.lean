import Verif.Lemmas.SendRace
import Verif.Props.HostInterface
/-!
# Property C116: transmitter interrupts during `sendMessage`
-/
namespace Moovr.Props
open HostSpec HostInterface
open SendRace (Move Masked Patient start run sendsRev)

/-- **C116 is violated by the code.** There is a schedule in which the transmitter interrupt fires between the load of the head and the
load of the level inside `sendMessage`: both messages fit, all calls have returned and nothing is left to send, yet a byte of the
first message (66) was never sent, and a byte was sent that is in no message. -/
theorem send_race_violated :
    ∃ sched, let s := run start sched
      s.pc = .idle ∧ s.host.txLevel = 0 ∧ s.sent = [[65, 66], [67]] ∧ s.wire = [65, 67, 0] := by
  refine ⟨List.replicate 16 (.main [65, 66]) ++ [.main [67], .main [], .main [], .main [], .irq, .main [], .main [], .main [], .main [],
    .main [], .main [], .irq, .irq], ?_⟩
  decide

/-- **C116 (partial).** Full property: as C09, for interrupts at any access. Proved: if the transmitter interrupt is masked during
`sendMessage` (as `src/threadsafety.md` demands), every execution that ends outside `sendMessage` is an atomic history of the same
messages, so C09 applies: accepted messages = bytes on the wire followed by bytes stored. Missing: unmasked interrupts, where it is
false (`send_race_violated`). -/
theorem send_race_partial (sched : List Move) (hm : Masked sched start) (hidle : (run start sched).pc = .idle) :
    ∃ hist : List Call, sendsRev hist = (run start sched).sent ∧ (run start sched).host = after hist.reverse ∧
      acceptedTxRev hist = (run start sched).wire ++ txPending hist.reverse := by
  obtain ⟨hist, h⟩ := SendRace.sim_run sched SendRace.sim_start hm
  obtain ⟨h1, h2⟩ := h.here hidle
  exact ⟨hist, h2.symm, h1, by rw [host_tx_lossless, h.wire]⟩

/-- **C116 without masking**: a program that calls `sendMessage` only after everything has been sent (with messages of at most 256
bytes) needs no masking. The bytes on the wire followed by those stored are exactly its messages. -/
theorem send_patient (sched : List Move) (hp : Patient sched start) (hidle : (run start sched).pc = .idle) :
    ∃ stored : List Byte, (run start sched).sent.flatten = (run start sched).wire ++ stored ∧
      stored.length = (run start sched).host.txLevel ∧ ((run start sched).host.tie = false → stored = []) := by
  obtain ⟨hist, h⟩ := SendRace.psim_run sched SendRace.psim_start hp
  obtain ⟨h1, h2⟩ := h.sim.here hidle
  refine ⟨txPending hist.reverse, ?_, ?_, fun ht => ?_⟩
  · rw [h2, ← h.all, host_tx_lossless, h.sim.wire]
  · rw [h1, ← txStored_after, txStored_length]
  · rw [← txStored_after, ← List.length_eq_zero_iff, txStored_length]
    refine Decidable.byContradiction fun hne => ?_
    have := (wf_after hist.reverse).tie (by omega)
    rw [← h1, ht] at this
    cases this

instance decidablePatient : (ms : List Move) → (s : SendRace.State) → Decidable (Patient ms s)
  | [], _ => isTrue trivial
  | .main msg :: l, s => @instDecidableAnd _ _ _ (decidablePatient l (SendRace.mainStep s msg))
  | .irq :: l, s => decidablePatient l (SendRace.interrupt s)

instance decidableMasked : (ms : List Move) → (s : SendRace.State) → Decidable (Masked ms s)
  | [], _ => isTrue trivial
  | .main msg :: l, s => decidableMasked l (SendRace.mainStep s msg)
  | .irq :: l, s => @instDecidableAnd _ _ _ (decidableMasked l (SendRace.interrupt s))

/-- Two messages, the second after the first has been sent: a patient program, and everything arrives. -/
example : let sched := List.replicate 16 (.main [65, 66]) ++ [.irq, .irq, .irq] ++ List.replicate 10 (.main [67]) ++ [.irq, .irq]
    Patient sched start ∧ (run start sched).pc = .idle ∧ (run start sched).wire = [65, 66, 67] := by
  refine ⟨?_, by decide, by decide⟩
  decide +kernel

/-- Sending the second message while the first is on its way, with the interrupt masked inside of `sendMessage`. -/
example : let sched := List.replicate 16 (.main [65, 66]) ++ [.irq] ++ List.replicate 10 (.main [67]) ++ [.irq, .irq]
    Masked sched start ∧ (run start sched).pc = .idle ∧ (run start sched).wire = [65, 66, 67] := by
  refine ⟨?_, by decide, by decide⟩
  decide +kernel

end Moovr.Props
