import Verif.Model.SendRace
import Verif.Lemmas.HostInterface
/-! Helper lemmas for interrupted `sendMessage`: without interrupts the accesses are the atomic call. -/
namespace Moovr.SendRace
open HostSpec HostInterface

def endStore (h : HostInterface) (reg : Nat) (rest : List Byte) : HostInterface :=
  { copyTx { h with txLevel := reg + 1 } rest.tail with tie := true }

def endPut (h : HostInterface) (i₀ : Nat) (rest : List Byte) : HostInterface :=
  endStore { h with txBuffer := fun i => if i = i₀ then rest.headD 0 else h.txBuffer i } h.txLevel rest

/-- What the main program will have achieved when it leaves `sendMessage`, if no interrupt fires. -/
def complete (s : State) : HostInterface :=
  match s.pc with
  | .idle => s.host
  | .room => s.host.sendMessage s.rest
  | .test => { copyTx s.host s.rest with tie := true }
  | .loadHead => endPut s.host ((s.host.txHead + s.host.txLevel) % bufferLength) s.rest
  | .loadLevel => endPut s.host ((s.reg + s.host.txLevel) % bufferLength) s.rest
  | .put => endPut s.host s.reg s.rest
  | .loadCount => endStore s.host s.host.txLevel s.rest
  | .storeCount => endStore s.host s.reg s.rest
  | .enable => { s.host with tie := true }

theorem complete_mainStep (s : State) (msg : List Byte) (h : s.pc ≠ .idle) (hl : s.pc = .room → s.host.txLevel ≤ bufferLength) :
    complete (mainStep s msg) = complete s ∧ (mainStep s msg).sent = s.sent ∧ (mainStep s msg).wire = s.wire ∧
      (mainStep s msg).pc ≠ .room ∧ (s.pc ≠ .enable → (mainStep s msg).pc ≠ .idle ∧ (mainStep s msg).host.tie = s.host.tie) := by
  obtain ⟨host, pc, rest, reg, sent, wire⟩ := s
  cases pc with
  | idle => exact absurd rfl h
  | room =>
    have hu : u32sub bufferLength host.txLevel = bufferLength - host.txLevel := by
      have := hl rfl
      have hb : bufferLength = 256 := rfl
      simp only at this
      unfold u32sub
      omega
    by_cases hc : rest.length ≤ bufferLength - host.txLevel <;> simp [mainStep, complete, sendMessage, hu, hc]
  | test =>
    simp only [mainStep, complete]
    rcases rest with _ | ⟨b, bs⟩
    · simp [copyTx]
    · simp [copyTx, endPut, endStore]
  | loadHead => simp [mainStep, complete]
  | loadLevel => simp [mainStep, complete]
  | put => simp [mainStep, complete, endPut]
  | loadCount => simp [mainStep, complete]
  | storeCount => simp [mainStep, complete, endStore]
  | enable => simp [mainStep, complete]

/-- The messages in a history, latest call first. -/
def sendsRev : List Call → List (List Byte)
  | [] => []
  | .send m :: earlier => sendsRev earlier ++ [m]
  | _ :: earlier => sendsRev earlier

/-- Correspondence of an execution with an atomic history (latest call first). -/
structure Sim (s : State) (hist : List Call) : Prop where
  only : ∀ c ∈ hist, c = .txReady ∨ ∃ m, c = .send m
  wire : s.wire = wireRev (logRev hist)
  here : s.pc = .idle → s.host = after hist.reverse ∧ s.sent = sendsRev hist
  inside : s.pc ≠ .idle → ∃ msg, complete s = (after hist.reverse).sendMessage msg ∧ s.sent = sendsRev hist ++ [msg]
  entry : s.pc = .room → s.host = after hist.reverse

theorem sim_start : Sim start [] :=
  ⟨by simp, rfl, fun _ => ⟨rfl, rfl⟩, fun h => absurd rfl h, fun h => by cases h⟩

theorem sim_main {s : State} {hist : List Call} (h : Sim s hist) (msg : List Byte) :
    (s.pc ≠ .enable ∧ Sim (mainStep s msg) hist) ∨
      (s.pc = .enable ∧ ∃ m, s.sent = sendsRev hist ++ [m] ∧ Sim (mainStep s msg) (.send m :: hist)) := by
  by_cases hi : s.pc = .idle
  · obtain ⟨h1, h2⟩ := h.here hi
    refine .inl ⟨by rw [hi]; simp, h.only, ?_, fun hc => ?_, fun _ => ⟨msg, ?_, ?_⟩, fun _ => ?_⟩
    · simp only [mainStep, hi]; exact h.wire
    · simp [mainStep, hi] at hc
    · simp [mainStep, hi, complete, h1]
    · simp [mainStep, hi, h2]
    · simp [mainStep, hi, h1]
  · obtain ⟨m, h1, h2⟩ := h.inside hi
    obtain ⟨c1, c2, c3, c4, c5⟩ := complete_mainStep s msg hi fun hr => by
      rw [h.entry hr]; exact (wf_after _).txLevel_le
    by_cases he : s.pc = .enable
    · have hpc : (mainStep s msg).pc = .idle := by simp [mainStep, he]
      have hc : complete (mainStep s msg) = (mainStep s msg).host := by simp [complete, hpc]
      refine .inr ⟨he, m, h2, ?_, ?_, fun _ => ⟨?_, ?_⟩, fun hn => absurd hpc hn, fun hn => absurd hn c4⟩
      · intro c hc
        rcases List.mem_cons.1 hc with rfl | hc
        · exact .inr ⟨m, rfl⟩
        · exact h.only c hc
      · rw [c3, h.wire]; rfl
      · rw [← hc, c1, h1, List.reverse_cons, after_snoc]; rfl
      · rw [c2, h2]; rfl
    · refine .inl ⟨he, h.only, by rw [c3, h.wire], fun hc => absurd hc (c5 he).1, fun _ => ⟨m, by rw [c1, h1], by rw [c2, h2]⟩,
        fun hn => absurd hn c4⟩

theorem sim_irq {s : State} {hist : List Call} (h : Sim s hist) (hm : s.pc = .idle ∨ s.host.tie = false) :
    (s.host.tie = false ∧ interrupt s = s) ∨
      (s.pc = .idle ∧ Sim (interrupt s) (.txReady :: hist)) := by
  by_cases ht : s.host.tie
  · have hi : s.pc = .idle := hm.resolve_right (by simp [ht])
    obtain ⟨h1, h2⟩ := h.here hi
    have e : interrupt s = { s with host := s.host.txReady.1, wire := s.wire ++ s.host.txReady.2.toList } := if_pos ht
    rw [e]
    refine .inr ⟨hi, ?_, ?_, fun _ => ⟨?_, ?_⟩, fun hn => ?_, fun hn => ?_⟩
    · intro c hc
      rcases List.mem_cons.1 hc with rfl | hc
      · exact .inl rfl
      · exact h.only c hc
    · simp only [h.wire, h1, logRev, call]
      rcases (after hist.reverse).txReady.2 with _ | b <;> simp [wireRev]
    · simp only [h1, List.reverse_cons, after_snoc, call]
    · simp only [h2, sendsRev]
    · exact absurd hi hn
    · rw [hi] at hn; cases hn
  · exact .inl ⟨by simpa using ht, by simp [interrupt, ht]⟩

theorem sim_run (ms : List Move) : ∀ {s : State} {hist : List Call}, Sim s hist → Masked ms s → ∃ hist', Sim (run s ms) hist' := by
  induction ms with
  | nil => exact fun h _ => ⟨_, h⟩
  | cons x ms ih =>
    intro s hist h hm
    cases x with
    | main msg =>
      rcases sim_main h msg with ⟨-, h1⟩ | ⟨-, m, -, h1⟩ <;> exact ih h1 hm
    | irq =>
      rcases sim_irq h hm.1 with ⟨-, e⟩ | ⟨-, h1⟩
      · have h2 := hm.2
        rw [e] at h2
        show ∃ hist', Sim (run (interrupt s) ms) hist'
        rw [e]
        exact ih h h2
      · exact ih h1 hm.2

/-- Correspondence for a patient program: every message is accepted. -/
structure PSim (s : State) (hist : List Call) : Prop where
  sim : Sim s hist
  all : acceptedTxRev hist = (sendsRev hist).flatten
  quiet : s.pc ≠ .idle → s.host.tie = false ∧ txPending hist.reverse = [] ∧ ∀ m, s.sent = sendsRev hist ++ [m] → m.length ≤ bufferLength

theorem psim_main {s : State} {hist : List Call} (h : PSim s hist) {msg : List Byte}
    (hp : s.pc = .idle → s.host.tie = false ∧ msg.length ≤ bufferLength) : ∃ hist', PSim (mainStep s msg) hist' := by
  rcases sim_main h.sim msg with ⟨h0, h1⟩ | ⟨h0, m, h1, h2⟩
  · refine ⟨hist, h1, h.all, fun hn => ?_⟩
    by_cases hi : s.pc = .idle
    · obtain ⟨p1, p2⟩ := hp hi
      obtain ⟨a1, a2⟩ := h.sim.here hi
      refine ⟨by simpa [mainStep, hi] using p1, ?_, fun m hm => ?_⟩
      · rw [← txStored_after, ← List.length_eq_zero_iff, txStored_length]
        refine Decidable.byContradiction fun hne => ?_
        have := (wf_after hist.reverse).tie (by omega)
        rw [← a1, p1] at this
        cases this
      · simp only [mainStep, hi, a2, List.append_cancel_left_eq, List.cons.injEq, and_true] at hm
        rw [← hm]; exact p2
    · obtain ⟨q1, q2, q3⟩ := h.quiet hi
      obtain ⟨-, c2, -, -, c5⟩ := complete_mainStep s msg hi fun hr => by
        rw [h.sim.entry hr]; exact (wf_after _).txLevel_le
      exact ⟨(c5 h0).2.trans q1, q2, by rw [c2]; exact q3⟩
  · obtain ⟨-, q2, q3⟩ := h.quiet (by rw [h0]; simp)
    have := q3 m h1
    refine ⟨_, h2, ?_, fun hn => absurd (by simp [mainStep, h0]) hn⟩
    simp only [acceptedTxRev, q2, sendsRev, List.flatten_append, h.all]
    rw [if_pos (show m.length ≤ capacity - ([] : List Byte).length from this)]
    simp

theorem psim_irq {s : State} {hist : List Call} (h : PSim s hist) : ∃ hist', PSim (interrupt s) hist' := by
  rcases sim_irq h.sim ((Decidable.em (s.pc = .idle)).elim .inl fun hi => .inr (h.quiet hi).1) with ⟨-, e⟩ | ⟨h0, h1⟩
  · rw [e]; exact ⟨_, h⟩
  · refine ⟨_, h1, h.all, fun hn => absurd ?_ hn⟩
    unfold interrupt
    split <;> exact h0

theorem psim_run (ms : List Move) : ∀ {s : State} {hist : List Call}, PSim s hist → Patient ms s → ∃ hist', PSim (run s ms) hist' := by
  induction ms with
  | nil => exact fun h _ => ⟨_, h⟩
  | cons x ms ih =>
    intro s hist h hm
    cases x with
    | main msg =>
      obtain ⟨_, h1⟩ := psim_main h hm.1
      exact ih h1 hm.2
    | irq =>
      obtain ⟨_, h1⟩ := psim_irq h
      exact ih h1 hm

theorem psim_start : PSim start [] := ⟨sim_start, rfl, fun h => absurd rfl h⟩

end Moovr.SendRace
