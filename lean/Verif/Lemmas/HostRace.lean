import Verif.Model.HostRace
import Verif.Lemmas.HostInterface
/-! Helper lemmas for interrupted `getMessage`: without interrupts the micro steps are the atomic call. -/
namespace Moovr.HostRace
open HostSpec HostInterface

def endLines (h : HostInterface) (tmp : Nat) (dest : List Byte) : HostInterface × List Byte :=
  ({ h with rxLines := u32sub tmp 1 }, dest)

def endCopy (h : HostInterface) (byte : Byte) (dest : List Byte) : HostInterface × List Byte :=
  if (10 : Byte) = byte then endLines h h.rxLines (dest ++ [byte])
  else getMessageLoop h.rxLevel h (dest ++ [byte])

def endStore (h : HostInterface) (tmp : Nat) (byte : Byte) (dest : List Byte) : HostInterface × List Byte :=
  endCopy { h with rxLevel := tmp - 1 } byte dest

def endAdvance (h : HostInterface) (byte : Byte) (dest : List Byte) : HostInterface × List Byte :=
  endStore { h with rxHead := (h.rxHead + 1) % bufferLength } h.rxLevel byte dest

/-- What the main program will have achieved when it leaves `getMessage`, if no interrupt fires. -/
def complete (s : State) : HostInterface × List Byte :=
  match s.pc with
  | .idle => (s.host, s.dest)
  | .test => getMessageLoop s.host.rxLevel s.host s.dest
  | .readByte => endAdvance s.host (s.host.rxBuffer s.host.rxHead) s.dest
  | .advanceHead => endAdvance s.host s.byte s.dest
  | .loadLevel => endStore s.host s.host.rxLevel s.byte s.dest
  | .storeLevel => endStore s.host s.tmp s.byte s.dest
  | .copy => endCopy s.host s.byte s.dest
  | .loadLines => endLines s.host s.host.rxLines s.dest
  | .storeLines => endLines s.host s.tmp s.dest
  | .finish => (s.host, s.dest)

theorem complete_mainStep (s : State) (h : s.pc ≠ .idle) (h' : s.pc ≠ .finish) :
    complete (mainStep s) = complete s ∧ (mainStep s).out = s.out ∧ (mainStep s).pc ≠ .idle := by
  obtain ⟨host, pc, byte, tmp, dest, out⟩ := s
  cases pc with
  | idle => exact absurd rfl h
  | finish => exact absurd rfl h'
  | test =>
    simp only [mainStep, complete]
    by_cases hp : host.rxLevel > 0
    · obtain ⟨n, hn⟩ : ∃ n, host.rxLevel = n + 1 := ⟨host.rxLevel - 1, by omega⟩
      simp only [hp, if_true, endAdvance, endStore, endCopy, endLines]
      refine ⟨?_, by simp, by simp⟩
      rw [hn]
      simp [getMessageLoop, hn]
    · have h0 : host.rxLevel = 0 := by omega
      refine ⟨?_, ?_, ?_⟩ <;> simp [h0, getMessageLoop]
  | copy =>
    by_cases hb : (10 : Byte) = byte
    · simp [mainStep, complete, endCopy, hb]
    · simp [mainStep, complete, endCopy, hb]
  | readByte => exact ⟨rfl, rfl, by simp [mainStep]⟩
  | advanceHead => exact ⟨rfl, rfl, by simp [mainStep]⟩
  | loadLevel => exact ⟨rfl, rfl, by simp [mainStep]⟩
  | storeLevel => exact ⟨rfl, rfl, by simp [mainStep]⟩
  | loadLines => exact ⟨rfl, rfl, by simp [mainStep]⟩
  | storeLines => simp [mainStep, complete, endLines]

/-- The messages in a log, latest call first. -/
def messages : List (Call × Ret) → List (List Byte)
  | [] => []
  | (.getMessage, .bytes bs) :: earlier => messages earlier ++ [bs]
  | _ :: earlier => messages earlier

/-- Bytes received in a history, latest call first. -/
def recvRev : List Call → List Byte
  | [] => []
  | .recv b :: earlier => recvRev earlier ++ [b]
  | _ :: earlier => recvRev earlier

/-- A history that only receives and reads. -/
def RxOnly (hist : List Call) : Prop := ∀ c ∈ hist, c = .getMessage ∨ ∃ b, c = .recv b

/-- Correspondence of a masked execution with an atomic history (latest call first). -/
def Sim (s : State) (hist : List Call) : Prop :=
  RxOnly hist ∧ s.out = messages (logRev hist) ∧
  if s.pc = .idle then s.host = after hist.reverse
  else complete s = (after hist.reverse).getMessage

theorem sim_main {s : State} {hist : List Call} (h : Sim s hist) :
    ∃ hist', Sim (mainStep s) hist' ∧ recvRev hist' = recvRev hist := by
  obtain ⟨hro, hout, hs⟩ := h
  by_cases hi : s.pc = .idle
  · refine ⟨hist, ⟨hro, ?_, ?_⟩, rfl⟩
    · simp only [mainStep, hi]; exact hout
    · simp only [hi, if_true] at hs
      simp only [mainStep, hi, complete, getMessage, hs]
      simp
  · by_cases hf : s.pc = .finish
    · simp only [complete, hf] at hs
      refine ⟨.getMessage :: hist, ⟨?_, ?_, ?_⟩, rfl⟩
      · intro c hc
        rcases List.mem_cons.1 hc with rfl | hc
        · exact .inl rfl
        · exact hro c hc
      · have : s.dest = ((after hist.reverse).getMessage).2 := by rw [← hs]
        simp only [mainStep, hf, logRev, call, messages, hout, this]
      · have : s.host = ((after hist.reverse).getMessage).1 := by rw [← hs]
        simp only [mainStep, hf, if_true, List.reverse_cons, after_snoc, call, this]
    · obtain ⟨h1, h2, h3⟩ := complete_mainStep s hi hf
      refine ⟨hist, ⟨hro, by rw [h2, hout], ?_⟩, rfl⟩
      simp only [h3, if_false, h1]
      simpa only [hi, if_false] using hs

theorem sim_rx {s : State} {hist : List Call} (h : Sim s hist) (hi : s.pc = .idle) (b : Byte) :
    Sim (interrupt s b) (.recv b :: hist) := by
  obtain ⟨hro, hout, hs⟩ := h
  simp only [hi, if_true] at hs
  refine ⟨?_, ?_, ?_⟩
  · intro c hc
    rcases List.mem_cons.1 hc with rfl | hc
    · exact .inr ⟨b, rfl⟩
    · exact hro c hc
  · simp only [interrupt, logRev, call, messages, hout]
  · simp only [interrupt, hi, if_true, List.reverse_cons, after_snoc, call, hs]

theorem sim_run (sched : List Step) (s : State) (hist : List Call) (h : Sim s hist) (s' : State)
    (hr : runMasked sched s = some s') :
    ∃ hist', Sim s' hist' ∧ recvRev hist' = recvRev hist ++ received sched := by
  induction sched generalizing s hist with
  | nil =>
    simp only [runMasked, Option.some.injEq] at hr
    exact ⟨hist, hr ▸ h, by simp [received]⟩
  | cons st sched ih =>
    cases st with
    | main =>
      obtain ⟨h1, hs1, he1⟩ := sim_main h
      obtain ⟨h2, hs2, he2⟩ := ih _ h1 hs1 hr
      exact ⟨h2, hs2, by rw [he2, he1]; rfl⟩
    | rx b =>
      simp only [runMasked] at hr
      split at hr
      · rename_i hi
        obtain ⟨h2, hs2, he2⟩ := ih _ _ (sim_rx h hi b) hr
        exact ⟨h2, hs2, by rw [he2]; simp [recvRev, received]⟩
      · cases hr

theorem sim_start : Sim start [] := by
  refine ⟨?_, rfl, ?_⟩
  · intro c hc; simp at hc
  · simp [start, after]

end Moovr.HostRace
