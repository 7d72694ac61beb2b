import Verif.Lemmas.HostRace
import Verif.Props.HostProgram
/-!
# Property C128: a host that waits for the answer to each line needs no masking of interrupts

`getMessage()` in single memory accesses (`Model/HostRace`), the reception interrupt not masked; but the host sends the next line only
after the message before has been returned.
-/
namespace Moovr.Props
open HostSpec HostInterface GCodeText

/-- A schedule, from the state `s` when the bytes `a` have arrived, in which the program calls `getMessage()` only if `hasMessage()` is
true, and the host sends only while as many messages have been returned as it has sent line feeds. -/
def LockStep : HostRace.State → List Byte → List HostRace.Step → Prop
  | _, _, [] => True
  | s, a, .main :: sched => (s.pc = .idle → s.host.hasMessage = true) ∧ LockStep (HostRace.mainStep s) a sched
  | s, a, .rx b :: sched => a.count newline = s.out.length ∧ LockStep (HostRace.interrupt s b) (a ++ [b]) sched

namespace LockStepProof
open HostRace

/-- The state `s` is reached by whole calls, or is on the way from one such state to the next. -/
structure Inv (s : State) (a : List Byte) (calls : List Call) : Prop where
  traffic : Traffic true [] calls a s.out
  idle : s.pc = .idle → s.host = after calls
  busy : s.pc ≠ .idle → complete s = (after calls).getMessage ∧ ((after calls).call .hasMessage).2 = .bool true

theorem count_lines {ms : List (List Byte)} (h : ∀ m ∈ ms, HostProgramProof.IsLine m) : ms.flatten.count newline = ms.length := by
  induction ms with
  | nil => rfl
  | cons m ms ih =>
    obtain ⟨body, hb, rfl⟩ := h m (by simp)
    rw [List.flatten_cons, List.count_append, ih fun m hm => h m (List.mem_cons_of_mem _ hm), List.count_append,
      List.count_eq_zero_of_not_mem hb]
    simp
    omega

/-- While the host may send, no line waits. -/
theorem Inv.none {s a calls} (h : Inv s a calls) (hc : a.count newline = s.out.length) : newline ∉ rxPending calls := by
  obtain ⟨h1, h2⟩ := HostProgramProof.traffic_inv rfl h.traffic
  rw [h1, List.count_append, count_lines h2] at hc
  exact List.count_eq_zero.1 (by omega)

theorem Inv.main {s a calls} (h : Inv s a calls) (hm : s.pc = .idle → s.host.hasMessage = true) :
    ∃ calls', Inv (mainStep s) a calls' := by
  by_cases hi : s.pc = .idle
  · have hs := h.idle hi
    refine ⟨calls, ?_, ?_, ?_⟩
    · simp only [mainStep, hi]; exact h.traffic
    · simp [mainStep, hi]
    · intro _
      refine ⟨by simp only [mainStep, hi, complete, getMessage, hs], ?_⟩
      have := hm hi
      rw [hs] at this
      simp [call, this]
  · obtain ⟨b1, b2⟩ := h.busy hi
    by_cases hf : s.pc = .finish
    · simp only [complete, hf] at b1
      have e1 : s.host = ((after calls).getMessage).1 := by rw [← b1]
      have e2 : s.dest = ((after calls).getMessage).2 := by rw [← b1]
      refine ⟨calls ++ [.getMessage], ?_, ?_, ?_⟩
      · simp only [mainStep, hf]
        exact h.traffic.read b2 (by simp only [call]; rw [e2])
      · intro _
        simp only [mainStep, hf, after_snoc, call, e1]
      · simp [mainStep, hf]
    · obtain ⟨h1, h2, h3⟩ := complete_mainStep s hi hf
      exact ⟨calls, by rw [h2]; exact h.traffic, fun h => absurd h h3, fun _ => ⟨h1.trans b1, b2⟩⟩

theorem Inv.rx {s a calls} (h : Inv s a calls) {lines : List (List Byte)} (hl : ∀ l ∈ lines, newline ∉ l ∧ l.length ≤ 255) (b : Byte)
    (ha : a ++ [b] <+: onWire lines) (hc : a.count newline = s.out.length) :
    Inv (interrupt s b) (a ++ [b]) (calls ++ [.recv b]) := by
  have hn := h.none hc
  have hi : s.pc = .idle := by
    by_contra hi
    exact hn ((host_hasMessage_iff calls).1.1 (h.busy hi).2)
  have hroom : a.length < s.out.flatten.length + 256 := by
    rcases link_never_stuck rfl h.traffic lines hl ((List.prefix_append _ _).trans ha) with hm | hr
    · exact absurd ((host_hasMessage_iff calls).1.1 hm) hn
    · exact hr
  refine ⟨h.traffic.recv b fun _ => hroom, ?_, ?_⟩
  · intro _
    simp only [interrupt, after_snoc, call, h.idle hi]
  · intro h'
    exact absurd hi h'

theorem Inv.run {lines : List (List Byte)} (hl : ∀ l ∈ lines, newline ∉ l ∧ l.length ≤ 255) : ∀ (sched : List Step) {s a calls},
    Inv s a calls → LockStep s a sched → a ++ received sched <+: onWire lines →
    ∃ calls', Inv (HostRace.run sched s) (a ++ received sched) calls' := by
  intro sched
  induction sched with
  | nil => intro s a calls h _ _; exact ⟨calls, by simpa [HostRace.run, received] using h⟩
  | cons st sched ih =>
    intro s a calls h hs ha
    cases st with
    | main =>
      obtain ⟨c', h'⟩ := h.main hs.1
      exact ih h' hs.2 ha
    | rx b =>
      have e : a ++ received (.rx b :: sched) = (a ++ [b]) ++ received sched := by simp [received]
      rw [e] at ha ⊢
      exact ih (h.rx hl b ((List.prefix_append _ _).trans ha) hs.1) hs.2 ha

theorem inv_start : Inv HostRace.start [] [] := ⟨.start, fun _ => rfl, fun h => absurd rfl h⟩

theorem run_append (l₁ l₂ : List Step) (s : State) : HostRace.run (l₁ ++ l₂) s = HostRace.run l₂ (HostRace.run l₁ s) := by
  induction l₁ generalizing s with
  | nil => rfl
  | cons st l ih => cases st <;> exact ih _

/-- Undisturbed, the program gets out of `getMessage()`. -/
def Returns (s : State) : Prop := ∃ n, (HostRace.run (List.replicate n .main) s).pc = .idle

theorem Returns.step {s : State} (h : Returns (mainStep s)) : Returns s := by
  obtain ⟨n, h⟩ := h
  exact ⟨n + 1, h⟩

theorem returns_finish {s : State} (h : s.pc = .finish) : Returns s := ⟨1, by simp [HostRace.run, mainStep, h]⟩

theorem returns_test (n : Nat) : ∀ {s : State}, s.pc = .test → s.host.rxLevel = n → Returns s := by
  induction n with
  | zero =>
    intro s h hn
    exact Returns.step (returns_finish (by simp [mainStep, h, hn]))
  | succ n ih =>
    intro s h hn
    obtain ⟨host, pc, byte, tmp, dest, out⟩ := s
    simp only at h hn
    subst h
    -- from the test to the copy of the byte
    refine Returns.step (Returns.step (Returns.step (Returns.step (Returns.step (Returns.step ?_)))))
    simp only [mainStep, hn, Nat.succ_pos, gt_iff_lt, if_true, Nat.add_sub_cancel]
    split
    · exact Returns.step (Returns.step (returns_finish (by simp [mainStep])))
    · exact ih rfl rfl

theorem returns (s : State) : Returns s := by
  have ht : ∀ {s : State}, s.pc = .test → Returns s := fun h => returns_test _ h rfl
  have hl : ∀ {s : State}, s.pc = .loadLines → Returns s := fun h =>
    Returns.step (Returns.step (returns_finish (by simp [mainStep, h])))
  have hc : ∀ {s : State}, s.pc = .copy → Returns s := fun {s} h => Returns.step (by
    by_cases hb : (10 : Byte) = s.byte
    · exact hl (by simp [mainStep, h, hb])
    · exact ht (by simp [mainStep, h, hb]))
  have hs : ∀ {s : State}, s.pc = .storeLevel → Returns s := fun h => Returns.step (hc (by simp [mainStep, h]))
  have ho : ∀ {s : State}, s.pc = .loadLevel → Returns s := fun h => Returns.step (hs (by simp [mainStep, h]))
  have hv : ∀ {s : State}, s.pc = .advanceHead → Returns s := fun h => Returns.step (ho (by simp [mainStep, h]))
  cases h : s.pc with
  | idle => exact ⟨0, h⟩
  | test => exact ht h
  | readByte => exact Returns.step (hv (by simp [mainStep, h]))
  | advanceHead => exact hv h
  | loadLevel => exact ho h
  | storeLevel => exact hs h
  | copy => exact hc h
  | loadLines => exact hl h
  | storeLines => exact Returns.step (returns_finish (by simp [mainStep, h]))
  | finish => exact returns_finish h

end LockStepProof

open LockStepProof

/-- **C128.** Reception interrupts may fire between any two memory accesses of the program. If the host sends the next line only after the
message before has been returned (lines of at most 255 bytes), then at any moment the messages returned are the first of its lines, in
order and complete, and each is interpreted as the line that was sent; the exchange never gets stuck: the host may send or the program
has something to do, and left to itself it gets out of `getMessage()`; and when everything has arrived and the program has nothing to do, all lines have been returned. -/
theorem lockstep_needs_no_masking (lines : List (List Byte)) (hl : ∀ l ∈ lines, newline ∉ l ∧ l.length ≤ 255) (sched : List HostRace.Step)
    (hs : LockStep HostRace.start [] sched) (ha : HostRace.received sched <+: onWire lines) :
    let s := HostRace.run sched HostRace.start
    (∃ k ≤ lines.length, s.out = (lines.take k).map (· ++ [newline]) ∧
      List.Forall₂ (fun l m => Block.ofString (textOf m) = Block.ofString (textOf l)) (lines.take k) s.out) ∧
    ((HostRace.received sched).count newline = s.out.length ∨ s.pc ≠ .idle ∨ s.host.hasMessage = true) ∧
    (∃ n, (HostRace.run (sched ++ List.replicate n .main) HostRace.start).pc = .idle) ∧
    (HostRace.received sched = onWire lines → s.pc = .idle → s.host.hasMessage = false → s.out = lines.map (· ++ [newline])) := by
  obtain ⟨calls, h⟩ := inv_start.run hl sched hs (by simpa using ha)
  simp only [List.nil_append] at h
  refine ⟨link_lines_partial rfl h.traffic lines (fun l h => (hl l h).1) ha, ?_, ?_, ?_⟩
  · by_cases hi : (HostRace.run sched HostRace.start).pc = .idle
    · obtain ⟨h1, h2⟩ := HostProgramProof.traffic_inv rfl h.traffic
      by_cases hin : newline ∈ rxPending calls
      · right; right
        have := (host_hasMessage_iff calls).1.2 hin
        simp only [call, Ret.bool.injEq] at this
        rw [h.idle hi, this]
      · left
        rw [h1, List.count_append, count_lines h2, List.count_eq_zero_of_not_mem hin, Nat.add_zero]
    · exact .inr (.inl hi)
  · obtain ⟨n, hn⟩ := returns (HostRace.run sched HostRace.start)
    exact ⟨n, by rw [run_append]; exact hn⟩
  · intro e hi hm
    have ht := h.traffic
    rw [e] at ht
    refine link_complete lines rfl ht (fun l h => (hl l h).1) ?_
    rw [h.idle hi] at hm
    simp [call, hm]

instance : ∀ (s : HostRace.State) (a : List Byte) (sched : List HostRace.Step), Decidable (LockStep s a sched)
  | _, _, [] => .isTrue trivial
  | s, a, .main :: sched =>
    have := instDecidableLockStep (HostRace.mainStep s) a sched
    inferInstanceAs (Decidable (_ ∧ _))
  | s, a, .rx b :: sched =>
    have := instDecidableLockStep (HostRace.interrupt s b) (a ++ [b]) sched
    inferInstanceAs (Decidable (_ ∧ _))

/-- Two lines, `X1` and `Y`; the second begins to arrive when the first message has just been returned. -/
example : ∃ sched, LockStep HostRace.start [] sched ∧ HostRace.received sched = onWire [[88, 49], [89]] ∧
    (HostRace.run sched HostRace.start).out = [[88, 49, 10], [89, 10]] ∧ (HostRace.run sched HostRace.start).pc = .idle := by
  refine ⟨[.rx 88, .rx 49, .rx 10] ++ List.replicate 22 .main ++ [.rx 89, .rx 10] ++ List.replicate 16 .main, ?_, ?_, ?_, ?_⟩ <;>
    decide +kernel

/-- The program calls `getMessage()` only if `hasMessage()` is true. -/
def Asks : HostRace.State → List HostRace.Step → Bool
  | _, [] => true
  | s, .main :: sched => (s.pc != .idle || s.host.hasMessage) && Asks (HostRace.mainStep s) sched
  | s, .rx b :: sched => Asks (HostRace.interrupt s b) sched

/-- **C128, the condition is needed.** The program asks before each call, but the host goes on sending while the first line is read: of the
lines `A` and `B` the second is read as an empty line. -/
theorem lockstep_violated : ∃ sched, Asks HostRace.start sched = true ∧ HostRace.received sched = onWire [[65], [66]] ∧
    let s := HostRace.run sched HostRace.start
    s.pc = .idle ∧ s.host.rxLevel = 0 ∧ s.out = [[65, 10], [10]] := by
  refine ⟨[.rx 65, .rx 10] ++ List.replicate 5 .main ++ [.rx 66] ++ List.replicate 11 .main ++ [.rx 10] ++ List.replicate 10 .main, ?_⟩
  refine ⟨?_, ?_, ?_, ?_, ?_⟩ <;> decide +kernel

end Moovr.Props
