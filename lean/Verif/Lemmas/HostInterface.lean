import Verif.Model.HostInterface
import Verif.Lemmas.Ring
import Verif.Lemmas.ListInd
/-! Helper lemmas for the host interface. -/
namespace Moovr.HostInterface
open HostSpec

def rxStored (h : HostInterface) : List Byte := Ring.contents bufferLength h.rxBuffer h.rxHead h.rxLevel
def txStored (h : HostInterface) : List Byte := Ring.contents bufferLength h.txBuffer h.txHead h.txLevel

structure Wf (h : HostInterface) : Prop where
  rxHead_lt : h.rxHead < bufferLength
  rxLevel_le : h.rxLevel ≤ bufferLength
  rxLines_eq : h.rxLines = h.rxStored.count newline
  txHead_lt : h.txHead < bufferLength
  txLevel_le : h.txLevel ≤ bufferLength
  tie : h.txLevel > 0 → h.tie = true

theorem rxStored_length (h : HostInterface) : h.rxStored.length = h.rxLevel := by simp [rxStored]
theorem txStored_length (h : HostInterface) : h.txStored.length = h.txLevel := by simp [txStored]

theorem firstLine_append_afterLine (q : List Byte) : firstLine q ++ afterLine q = q := by
  induction q with
  | nil => rfl
  | cons b bs ih =>
    unfold firstLine afterLine
    split
    · rfl
    · simp [ih]

/-- The reading loop consumes exactly the first line. -/
theorem getMessageLoop_spec (n : Nat) (h : HostInterface) (dest : List Byte)
    (hn : n = h.rxLevel) (hhead : h.rxHead < bufferLength) (hle : h.rxLevel ≤ bufferLength)
    (hlines : h.rxLines = h.rxStored.count newline) :
    let r := getMessageLoop n h dest
    r.2 = dest ++ firstLine h.rxStored ∧ r.1.rxStored = afterLine h.rxStored ∧
    r.1.rxHead < bufferLength ∧ r.1.rxLevel ≤ bufferLength ∧
    r.1.rxLines = r.1.rxStored.count newline ∧
    r.1.txBuffer = h.txBuffer ∧ r.1.txHead = h.txHead ∧ r.1.txLevel = h.txLevel ∧ r.1.tie = h.tie := by
  induction n generalizing h dest with
  | zero =>
    have : h.rxStored = [] := by rw [← List.length_eq_zero_iff, rxStored_length]; omega
    simp [getMessageLoop, this, firstLine, afterLine, hhead, hle, hlines]
  | succ n ih =>
    have hpos : h.rxLevel > 0 := by omega
    have hst : h.rxStored = h.rxBuffer h.rxHead ::
        Ring.contents bufferLength h.rxBuffer ((h.rxHead + 1) % bufferLength) (h.rxLevel - 1) := by
      have : h.rxLevel = (h.rxLevel - 1) + 1 := by omega
      unfold rxStored
      rw [this, Ring.contents_succ hhead]; simp
    simp only [getMessageLoop, hpos, if_true]
    have hb : bufferLength = 256 := rfl
    have hmod : (h.rxHead + 1) % bufferLength < bufferLength := Nat.mod_lt _ (by decide)
    split
    · rename_i hnl
      have hc : h.rxStored.count newline =
          (Ring.contents bufferLength h.rxBuffer ((h.rxHead + 1) % bufferLength) (h.rxLevel - 1)).count newline
            + 1 := by
        rw [hst, ← hnl]; simp [newline]
      have hcl : h.rxStored.count newline ≤ h.rxLevel := by
        rw [← rxStored_length]; exact List.count_le_length
      refine ⟨?_, ?_, hmod, by simp only; omega, ?_, rfl, rfl, rfl, rfl⟩
      · rw [hst, firstLine]; simp [← hnl, newline]
      · rw [hst, afterLine]; simp [← hnl, newline, rxStored]
      · simp only [rxStored]
        rw [hlines, hc, u32sub_of_le (by omega) (by omega)]; omega
    · rename_i hnl
      have hnl' : ¬ h.rxBuffer h.rxHead = newline := fun e => hnl e.symm
      have := ih { h with rxHead := (h.rxHead + 1) % bufferLength, rxLevel := h.rxLevel - 1 }
        (dest ++ [h.rxBuffer h.rxHead]) (by simp only; omega) hmod (by simp only; omega)
        (by
          simp only [rxStored]
          rw [hlines, hst, List.count_cons]
          have : (h.rxBuffer h.rxHead == newline) = false := by simpa using hnl'
          simp [this])
      obtain ⟨i1, i2, i3, i4, i5, i6, i7, i8, i9⟩ := this
      refine ⟨?_, ?_, i3, i4, i5, i6, i7, i8, i9⟩
      · rw [i1, hst, firstLine]; simp [hnl', rxStored]
      · rw [i2, hst, afterLine]; simp [hnl', rxStored]

theorem copyTx_spec (msg : List Byte) (h : HostInterface) (hle : h.txLevel + msg.length ≤ bufferLength) :
    (h.copyTx msg).txStored = h.txStored ++ msg ∧ (h.copyTx msg).txLevel = h.txLevel + msg.length ∧
    (h.copyTx msg).txHead = h.txHead ∧ (h.copyTx msg).rxBuffer = h.rxBuffer ∧
    (h.copyTx msg).rxHead = h.rxHead ∧ (h.copyTx msg).rxLevel = h.rxLevel ∧
    (h.copyTx msg).rxLines = h.rxLines := by
  induction msg generalizing h with
  | nil => simp [copyTx]
  | cons b bs ih =>
    simp only [List.length_cons] at hle
    have := ih { h with
      txBuffer := fun i => if i = (h.txHead + h.txLevel) % bufferLength then b else h.txBuffer i
      txLevel := h.txLevel + 1 } (by simp only; omega)
    obtain ⟨i1, i2, i3, i4, i5, i6, i7⟩ := this
    simp only [copyTx]
    refine ⟨?_, by rw [i2]; simp only [List.length_cons]; omega, i3, i4, i5, i6, i7⟩
    rw [i1]
    simp only [txStored]
    rw [Ring.contents_push (by omega)]
    simp

theorem rxStored_call {h : HostInterface} (hw : h.Wf) (c : Call) :
    (h.call c).1.rxStored = rxNext h.rxStored c := by
  have hl := h.rxStored_length
  cases c with
  | reinit => simp [call, doInitialize, rxStored, rxNext]
  | recv b =>
    simp only [call, rxNext, hl, rxReady]
    by_cases hlt : h.rxLevel < bufferLength
    · have : h.rxLevel < capacity := hlt
      simp only [hlt, this, if_true]
      split <;> exact Ring.contents_push hlt
    · have : ¬ h.rxLevel < capacity := hlt
      simp [hlt, this]
  | getMessage =>
    exact (getMessageLoop_spec h.rxLevel h [] rfl hw.rxHead_lt hw.rxLevel_le hw.rxLines_eq).2.1
  | hasMessage => rfl
  | send msg =>
    simp only [call, rxNext, sendMessage]
    split
    · rename_i hc
      obtain ⟨-, -, -, i4, i5, i6, i7⟩ := copyTx_spec msg h (by have := hw.txLevel_le; omega)
      simp [rxStored, i4, i5, i6]
    · rfl
  | txReady =>
    simp only [call, rxNext, txReady]
    split <;> rfl

theorem txStored_call {h : HostInterface} (hw : h.Wf) (c : Call) :
    (h.call c).1.txStored = txNext h.txStored c := by
  have hl := h.txStored_length
  cases c with
  | reinit => simp [call, doInitialize, txStored, txNext]
  | recv b =>
    simp only [call, txNext, rxReady]
    split
    · split <;> rfl
    · rfl
  | getMessage =>
    obtain ⟨-, -, -, -, -, i6, i7, i8, -⟩ :=
      getMessageLoop_spec h.rxLevel h [] rfl hw.rxHead_lt hw.rxLevel_le hw.rxLines_eq
    simp only [call, getMessage, txStored, txNext, i6, i7, i8]
  | hasMessage => rfl
  | send msg =>
    simp only [call, txNext, sendMessage, hl]
    have hle := hw.txLevel_le
    have hb : capacity = bufferLength := rfl
    by_cases hc : msg.length ≤ bufferLength - h.txLevel
    · have hc' : h.txLevel + msg.length ≤ capacity := by omega
      simp only [hc, hc', if_true]
      exact (copyTx_spec msg h (by omega)).1
    · have hc' : ¬ h.txLevel + msg.length ≤ capacity := by omega
      simp [hc, hc', txStored]
  | txReady =>
    simp only [call, txNext, txReady]
    by_cases hp : h.txLevel > 0
    · simp only [hp, if_true, txStored]
      exact Ring.contents_pop hw.txHead_lt hp
    · have h0 : h.txLevel = 0 := by omega
      simp [txStored, h0]

theorem wf_init : init.Wf := by
  refine ⟨by decide, by decide, ?_, by decide, by decide, ?_⟩
  · simp [rxStored, init]
  · simp [init]

theorem wf_call {h : HostInterface} (hw : h.Wf) (c : Call) : (h.call c).1.Wf := by
  have hrx := rxStored_call hw c
  have hb : bufferLength = 256 := rfl
  obtain ⟨w1, w2, w3, w4, w5, w6⟩ := hw
  cases c with
  | reinit =>
    refine ⟨?_, ?_, ?_, ?_, ?_, ?_⟩ <;> simp [call, doInitialize, rxStored, bufferLength]
  | recv b =>
    have hcount : (h.call (.recv b)).1.rxLines = (h.call (.recv b)).1.rxStored.count newline := by
      rw [hrx]
      have hl := h.rxStored_length
      simp only [call, rxNext, rxReady, hl]
      have hcl : h.rxStored.count newline ≤ h.rxLevel := by
        rw [← rxStored_length]; exact List.count_le_length
      by_cases hlt : h.rxLevel < bufferLength
      · have : h.rxLevel < capacity := hlt
        simp only [hlt, this, if_true, List.count_append]
        split
        · rename_i hn
          simp only [← hn, newline]
          rw [u32add_of_lt (by omega)]
          simp [w3, newline]
        · rename_i hn
          have : b ≠ newline := fun e => hn e.symm
          have : (b == newline) = false := by simpa using this
          simp [w3, List.count_cons, this]
      · have : ¬ h.rxLevel < capacity := hlt
        simp [hlt, this, w3]
    refine ⟨?_, ?_, hcount, ?_, ?_, ?_⟩ <;>
    · simp only [call, rxReady]
      split
      · split <;> first | assumption | (simp only; omega)
      · assumption
  | getMessage =>
    obtain ⟨-, -, i3, i4, i5, -, i7, i8, i9⟩ :=
      getMessageLoop_spec h.rxLevel h [] rfl w1 w2 w3
    refine ⟨i3, i4, i5, ?_, ?_, ?_⟩ <;> simp only [call, getMessage, i7, i8, i9] <;> assumption
  | hasMessage => exact ⟨w1, w2, w3, w4, w5, w6⟩
  | send msg =>
    simp only [call, sendMessage]
    split
    · rename_i hc
      obtain ⟨-, i2, i3, i4, i5, i6, i7⟩ := copyTx_spec msg h (by omega)
      refine ⟨by simpa [i5], by simpa [i6], ?_, by simpa [i3], by simp only [i2]; omega, fun _ => rfl⟩
      simpa [rxStored, i4, i5, i6, i7] using w3
    · exact ⟨w1, w2, w3, w4, w5, fun _ => rfl⟩
  | txReady =>
    simp only [call, txReady]
    split
    · exact ⟨w1, w2, w3, Nat.mod_lt _ (by decide), by simp only; omega, fun _ => w6 (by assumption)⟩
    · rename_i h0
      exact ⟨w1, w2, w3, w4, w5, fun hp => absurd hp h0⟩

theorem after_snoc (calls : List Call) (c : Call) :
    after (calls ++ [c]) = ((after calls).call c).1 := by simp [after]

theorem rxPending_snoc (calls : List Call) (c : Call) :
    rxPending (calls ++ [c]) = rxNext (rxPending calls) c := by simp [rxPending]

theorem txPending_snoc (calls : List Call) (c : Call) :
    txPending (calls ++ [c]) = txNext (txPending calls) c := by simp [txPending]

theorem history_induction {P : List Call → Prop} (nil : P [])
    (snoc : ∀ calls c, P calls → P (calls ++ [c])) : ∀ calls, P calls := by
  intro calls
  rw [← List.reverse_reverse calls]
  induction calls.reverse with
  | nil => exact nil
  | cons c cs ih => rw [List.reverse_cons]; exact snoc _ _ ih

theorem wf_after (calls : List Call) : (after calls).Wf := by
  induction calls using history_induction with
  | nil => exact wf_init
  | snoc calls c ih => rw [after_snoc]; exact wf_call ih c

theorem rxStored_after (calls : List Call) : (after calls).rxStored = rxPending calls := by
  induction calls using history_induction with
  | nil => simp [after, rxPending, rxStored, init]
  | snoc calls c ih => rw [after_snoc, rxPending_snoc, rxStored_call (wf_after calls), ih]

theorem txStored_after (calls : List Call) : (after calls).txStored = txPending calls := by
  induction calls using history_induction with
  | nil => simp [after, txPending, txStored, init]
  | snoc calls c ih => rw [after_snoc, txPending_snoc, txStored_call (wf_after calls), ih]

end Moovr.HostInterface
