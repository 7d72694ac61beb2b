import Verif.Lemmas.HostInterface
import Verif.Lemmas.HostRace
/-!
# Properties C07–C11: the host link

`after calls` is the state of a fresh object after the history `calls`; the list-based specification is
`Verif.Spec.HostLink`.
-/
namespace Moovr.Props
open HostSpec HostInterface

/-- **C07–C09 (refinement).** After any history of receptions, transmissions and calls, every call returns what
the byte-list specification prescribes. -/
theorem host_refines (calls : List Call) (c : Call) :
    ((after calls).call c).2 = expected calls c := by
  have hw := wf_after calls
  have hrx := rxStored_after calls
  have htx := txStored_after calls
  cases c with
  | reinit => rfl
  | recv b => rfl
  | send m => rfl
  | getMessage =>
    have := (getMessageLoop_spec (after calls).rxLevel (after calls) [] rfl hw.rxHead_lt hw.rxLevel_le
      hw.rxLines_eq).1
    simp only [call, getMessage, this, expected, ← hrx]
    rfl
  | hasMessage =>
    simp only [call, expected, hasMessage, ← hrx, hw.rxLines_eq, gt_iff_lt, List.count_pos_iff]
  | txReady =>
    simp only [call, expected, txReady, ← htx]
    by_cases hp : (after calls).txLevel > 0
    · obtain ⟨n, hn⟩ : ∃ n, (after calls).txLevel = n + 1 := ⟨(after calls).txLevel - 1, by omega⟩
      simp [txStored, hn, Ring.contents_succ hw.txHead_lt]
    · have h0 : (after calls).txLevel = 0 := by omega
      simp [txStored, h0]

/-- **C07.** Over any history (latest call first): the received bytes that found room are exactly the bytes handed
out by `getMessage`, in order, followed by those still stored. -/
theorem host_rx_lossless (hist : List Call) :
    receivedRev hist = deliveredRev (logRev hist) ++ rxPending hist.reverse := by
  induction hist with
  | nil => rfl
  | cons c earlier ih =>
    rw [List.reverse_cons, rxPending_snoc, logRev, host_refines]
    cases c with
    | reinit => simp [receivedRev, deliveredRev, rxNext]
    | recv b =>
      simp only [receivedRev, deliveredRev, rxNext]
      split <;> simp [ih]
    | getMessage =>
      simp only [receivedRev, deliveredRev, expected, rxNext, ih, List.append_assoc,
        firstLine_append_afterLine]
    | hasMessage => simpa [receivedRev, deliveredRev, rxNext] using ih
    | send m => simpa [receivedRev, deliveredRev, rxNext] using ih
    | txReady => simpa [receivedRev, deliveredRev, rxNext] using ih

/-- **C07 (messages are lines).** A returned message contains a line feed at most at its very end, and if it has
none it drained the buffer. -/
theorem host_message_is_line (calls : List Call) :
    ∃ body, newline ∉ body ∧
      (((after calls).call .getMessage).2 = .bytes (body ++ [newline]) ∨
       (((after calls).call .getMessage).2 = .bytes body ∧ rxPending (calls ++ [.getMessage]) = [])) := by
  rw [host_refines, rxPending_snoc]
  simp only [expected, rxNext]
  generalize rxPending calls = q
  induction q with
  | nil => exact ⟨[], by simp, .inr ⟨rfl, rfl⟩⟩
  | cons b bs ih =>
    simp only [firstLine, afterLine]
    split
    · rename_i hb
      subst hb
      exact ⟨[], by simp, .inl rfl⟩
    · rename_i hb
      obtain ⟨body, hn, h⟩ := ih
      refine ⟨b :: body, ?_, ?_⟩
      · intro hm
        rcases List.mem_cons.1 hm with h' | h'
        · exact hb h'.symm
        · exact hn h'
      · rcases h with h | ⟨h, h'⟩
        · left; simp only [Ret.bytes.injEq] at h ⊢; rw [h]; rfl
        · right; simp only [Ret.bytes.injEq] at h ⊢; exact ⟨by rw [h], h'⟩

/-- **C07 (buffer size).** A returned message has at most 256 bytes, so a 257-byte destination (message plus
terminating zero) always suffices. -/
theorem host_message_length (calls : List Call) (bs : List Byte)
    (h : ((after calls).call .getMessage).2 = .bytes bs) : bs.length ≤ 256 := by
  rw [host_refines] at h
  simp only [expected, Ret.bytes.injEq] at h
  have h1 := congrArg List.length (firstLine_append_afterLine (rxPending calls))
  rw [List.length_append, h, ← rxStored_after, rxStored_length] at h1
  have := (wf_after calls).rxLevel_le
  have : bufferLength = 256 := rfl
  omega

/-- **C08.** `hasMessage()` is true iff the unread bytes contain a line feed, and then the next `getMessage()`
returns exactly the bytes up to and including the first one. -/
theorem host_hasMessage_iff (calls : List Call) :
    (((after calls).call .hasMessage).2 = .bool true ↔ newline ∈ rxPending calls) ∧
    (∀ line rest, rxPending calls = line ++ newline :: rest → newline ∉ line →
      ((after calls).call .getMessage).2 = .bytes (line ++ [newline]) ∧
      rxPending (calls ++ [.getMessage]) = rest) := by
  constructor
  · rw [host_refines]; simp [expected]
  · intro line rest hq hn
    rw [host_refines, rxPending_snoc]
    simp only [expected, rxNext, hq, Ret.bytes.injEq]
    clear hq
    induction line with
    | nil => simp [firstLine, afterLine]
    | cons b bs ih =>
      have hb : b ≠ newline := fun e => hn (by simp [e])
      have := ih (fun h => hn (by simp [h]))
      simp [firstLine, afterLine, hb, this.1, this.2]

/-- **C09.** Over any history (latest call first): the accepted messages, concatenated whole and in order, are
exactly the bytes put on the wire followed by those still buffered; a message is accepted iff its length is at
most the free space. -/
theorem host_tx_lossless (hist : List Call) :
    acceptedTxRev hist = wireRev (logRev hist) ++ txPending hist.reverse := by
  induction hist with
  | nil => rfl
  | cons c earlier ih =>
    rw [List.reverse_cons, txPending_snoc, logRev, host_refines]
    have hle : (txPending earlier.reverse).length ≤ capacity := by
      rw [← txStored_after, txStored_length]; exact (wf_after _).txLevel_le
    cases c with
    | reinit => simp [acceptedTxRev, wireRev, txNext]
    | recv b => simpa [acceptedTxRev, wireRev, txNext] using ih
    | getMessage => simpa [acceptedTxRev, wireRev, txNext] using ih
    | hasMessage => simpa [acceptedTxRev, wireRev, txNext] using ih
    | send m =>
      simp only [acceptedTxRev, wireRev, txNext]
      by_cases hc : m.length ≤ capacity - (txPending earlier.reverse).length
      · have : (txPending earlier.reverse).length + m.length ≤ capacity := by omega
        simp [hc, this, ih]
      · have : ¬ (txPending earlier.reverse).length + m.length ≤ capacity := by omega
        simp [hc, this, ih]
    | txReady =>
      simp only [acceptedTxRev, expected, txNext, ih]
      cases hp : txPending earlier.reverse with
      | nil => simp [wireRev]
      | cons b q => simp [wireRev]

/-- **C09 (no stall).** Whenever bytes are waiting, the transmitter interrupt is enabled, and `n` interrupts put
the first `n` waiting bytes on the wire. -/
theorem host_tx_progress (calls : List Call) :
    (txPending calls ≠ [] → (after calls).tie = true) ∧
    (∀ n ≤ (txPending calls).length,
      txPending (calls ++ List.replicate n .txReady) = (txPending calls).drop n) := by
  constructor
  · intro h
    apply (wf_after calls).tie
    rw [← txStored_length, txStored_after]
    exact List.length_pos_iff.2 h
  · intro n hn
    induction n with
    | zero => simp
    | succ n ih =>
      rw [List.replicate_succ', ← List.append_assoc, txPending_snoc, ih (by omega)]
      simp [txNext]

/-- **C10 is violated by the code.** After 256 bytes without line feed, a host that reads only on `hasMessage()`
is stuck for good: whatever is received afterwards (including line feeds), `hasMessage()` stays false. -/
theorem host_progress_violated :
    ∃ calls : List Call, ∀ more : List Byte,
      ((after (calls ++ more.map .recv)).call .hasMessage).2 = .bool false := by
  obtain ⟨N, hN⟩ : ∃ N, N = capacity := ⟨_, rfl⟩
  refine ⟨List.replicate N (.recv 65), fun more => ?_⟩
  have h0 : ∀ n ≤ N, rxPending (List.replicate n (.recv 65)) = List.replicate n 65 := by
    intro n hn
    induction n with
    | zero => rfl
    | succ n ih =>
      rw [List.replicate_succ', rxPending_snoc, ih (by omega)]
      simp only [rxNext, List.length_replicate]
      rw [if_pos (by omega), ← List.replicate_succ']
  have h1 : rxPending (List.replicate N (.recv 65) ++ more.map .recv) = List.replicate N 65 := by
    induction more using List.reverseRecOn' with
    | nil => simpa using h0 N (Nat.le_refl _)
    | snoc more b ih =>
      rw [List.map_append, ← List.append_assoc]
      simp only [List.map_cons, List.map_nil]
      rw [rxPending_snoc, ih]
      simp [rxNext, hN]
  rw [host_refines]
  simp only [expected, h1]
  simp [newline, List.mem_replicate]

/-- **C10 (partial).** Full property: from *every* reachable state, receiving a line feed eventually makes
`hasMessage()` true. Proved: it does so at once from every reachable state that has a complete line or room for
one more byte. Missing: the states with 256 stored bytes and no line feed, where the property is false
(`host_progress_violated`). -/
theorem host_progress_partial (calls : List Call)
    (h : newline ∈ rxPending calls ∨ (rxPending calls).length < 256) :
    ((after (calls ++ [.recv newline])).call .hasMessage).2 = .bool true := by
  rw [host_refines]
  simp only [expected, rxPending_snoc, rxNext, Ret.bool.injEq, decide_eq_true_eq]
  rcases h with h | h
  · split
    · simp
    · exact h
  · have : (rxPending calls).length < capacity := h
    simp [this]

/-- **C11 is violated by the code.** There is a schedule in which a reception interrupt fires between the load and
the store of `rxBufferLevel--` inside `getMessage`: the buffer is never full, every byte was stored, all calls have
returned and nothing is left to read, yet a received byte was never handed out. -/
theorem host_race_violated :
    ∃ sched, let s := HostRace.run sched HostRace.start
      s.pc = .idle ∧ s.host.rxLevel = 0 ∧ (HostRace.received sched).length < 256 ∧
      HostRace.received sched = [65, 66, 10] ∧ s.out.flatten = [65, 10] := by
  refine ⟨[.rx 65, .main, .main, .main, .main, .main, .rx 66, .main, .main, .main, .main, .rx 10] ++
    List.replicate 10 .main, ?_⟩
  decide

/-- **C11 (partial).** Full property: as C07, for interrupts at any micro step. Proved: if the reception interrupt
is masked during `getMessage` (as `src/threadsafety.md` demands), every execution that ends outside `getMessage`
is an atomic history with the same received bytes, so C07 applies: received bytes that found room = bytes handed out
followed by bytes stored. Missing: unmasked interrupts, where it is false (`host_race_violated`). -/
theorem host_race_partial (sched : List HostRace.Step) (s : HostRace.State)
    (hr : HostRace.runMasked sched HostRace.start = some s) (hidle : s.pc = .idle) :
    ∃ hist : List Call, HostRace.recvRev hist = HostRace.received sched ∧
      s.host = after hist.reverse ∧
      receivedRev hist = s.out.flatten ++ rxPending hist.reverse := by
  obtain ⟨hist, ⟨hro, hout, hs⟩, hrecv⟩ := HostRace.sim_run sched _ [] HostRace.sim_start s hr
  refine ⟨hist, by simpa [HostRace.recvRev] using hrecv, by simpa [hidle] using hs, ?_⟩
  rw [host_rx_lossless, hout]
  congr 1
  clear hs hout hrecv hr
  induction hist with
  | nil => rfl
  | cons c earlier ih =>
    have hro' : HostRace.RxOnly earlier := fun c hc => hro c (List.mem_cons_of_mem _ hc)
    rcases hro c (List.mem_cons_self ..) with rfl | ⟨b, rfl⟩
    · simp [logRev, call, deliveredRev, HostRace.messages, ih hro']
    · simp [logRev, call, deliveredRev, HostRace.messages, ih hro']

/-! Concrete cases. -/

/-- Two lines received; the first is delivered, the second stays. -/
example : ((after [.recv 71, .recv 10, .recv 77, .recv 10]).call .getMessage).2 = .bytes [71, 10] := by decide
example : ((after [.recv 71, .recv 10, .recv 77]).call .hasMessage).2 = .bool true := by decide
example : rxPending [Call.recv 71, .recv 10, .recv 77] = [71] ++ newline :: [77] ∧ newline ∉ [(71 : Byte)] := by
  decide
/-- A rejected message leaves no byte behind. -/
example : txPending [Call.send (List.replicate 200 65), .send (List.replicate 100 66), .send [67]]
    = List.replicate 200 65 ++ [67] := by decide +kernel
/-- A masked execution that receives and reads two messages. -/
example : ∃ s, HostRace.runMasked ([.rx 65, .rx 10] ++ List.replicate 20 .main) HostRace.start = some s ∧
    s.out.head? = some [65, 10] := by
  refine ⟨_, rfl, ?_⟩
  decide
example : newline ∈ rxPending [] ∨ (rxPending []).length < 256 := by decide

end Moovr.Props
