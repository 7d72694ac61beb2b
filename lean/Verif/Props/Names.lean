import Verif.Model.Names
import Verif.Props.HomingMotion
/-!
# Names (C79) and the version text (C80)
-/
namespace Moovr.Props
open EventQueueSpec LoopSpec

/-- A naming of the values that satisfy `P`: different values have different names, none is called "unknown". -/
def NamesOn {α : Type} (P : α → Prop) (name : α → String) : Prop :=
  (∀ a b, P a → P b → name a = name b → a = b) ∧ ∀ a, P a → name a ≠ "unknown"

private theorem namesOn_of {α : Type} {P : α → Prop} {name : α → String} (all : List α) (hall : ∀ a, P a → a ∈ all)
    (hn : (all.map name).Nodup) (hu : "unknown" ∉ all.map name) : NamesOn P name := by
  refine ⟨fun a b ha hb h => ?_, fun a ha h => hu (h ▸ List.mem_map_of_mem (hall a ha))⟩
  exact List.inj_on_of_nodup_map hn (hall a ha) (hall b hb) h

/-- **C79.** The states of homing, the motion types, the motion states and the directions of rotation have names. -/
theorem names_states : NamesOn (fun _ => True) HomingState.name ∧ NamesOn (fun _ => True) MotionType.name ∧
    NamesOn (fun _ => True) MotionState.name ∧ NamesOn (fun _ => True) RotationDirection.name := by
  refine ⟨?_, ?_, ?_, ?_⟩
  · exact namesOn_of [.lost, .stopping, .closing, .closedWaitForStop, .opening, .openedWaitForStop, .offsettingWaitForStop, .found]
      (fun a _ => by cases a <;> decide) (by decide +kernel) (by decide +kernel)
  · exact namesOn_of [.traverse, .feedLinear, .feedHelicalCW, .feedHelicalCCW, .pauseAndResume, .pause, .none]
      (fun a _ => by cases a <;> decide) (by decide +kernel) (by decide +kernel)
  · exact namesOn_of [.running, .stopping, .stopped] (fun a _ => by cases a <;> decide) (by decide +kernel) (by decide +kernel)
  · exact namesOn_of [.clockwise, .counterClockwise] (fun a _ => by cases a <;> decide) (by decide +kernel) (by decide +kernel)

/-- **C79.** The orders of speed profiles, the main states, the states of probing, the directions of calculation and the errors of the
host interface have names. -/
theorem names_small : NamesOn (fun _ => True) Order.name ∧ NamesOn (fun _ => True) MainState.name ∧
    NamesOn (fun _ => True) ProbingState.name ∧ NamesOn (fun _ => True) CalculateDirection.name ∧
    NamesOn (fun _ => True) HostError.name := by
  refine ⟨?_, ?_, ?_, ?_, ?_⟩
  · exact namesOn_of [.firstOrder, .secondOrder] (fun a _ => by cases a <;> decide) (by decide +kernel) (by decide +kernel)
  · exact namesOn_of [.ready, .homing, .probing, .running, .error] (fun a _ => by cases a <;> decide) (by decide +kernel) (by decide +kernel)
  · exact namesOn_of [.lost, .search, .found] (fun a _ => by cases a <;> decide) (by decide +kernel) (by decide +kernel)
  · exact namesOn_of [.forward, .reverse] (fun a _ => by cases a <;> decide) (by decide +kernel) (by decide +kernel)
  · exact namesOn_of [.none, .underflow, .overflow] (fun a _ => by cases a <;> decide) (by decide +kernel) (by decide +kernel)

/-- All events but the two errors of the event queue. -/
def namedEvents : List Event :=
  [.none, .emergencyStopButtonPressed, .emergencyStopButtonReleased, .feedHoldResumeButtonPressed, .feedHoldResumeButtonReleased,
    .probeSwitchClosed, .probeSwitchOpened, .limitSwitchXMinClosed, .limitSwitchYMinClosed, .limitSwitchZMinClosed,
    .limitSwitchXMaxClosed, .limitSwitchYMaxClosed, .limitSwitchZMaxClosed, .limitSwitchXMinOpened, .limitSwitchYMinOpened,
    .limitSwitchZMinOpened, .limitSwitchXMaxOpened, .limitSwitchYMaxOpened, .limitSwitchZMaxOpened, .stepBufferUnderflow,
    .stepBufferOverflow, .motionAdded, .motionCompleted, .allMotionsCompleted, .motionStarted, .stopRequested, .motionStopped,
    .motionBufferOverflow, .homingStarted, .homingCompleted, .homingError, .probingStarted, .probingCompleted]

/-- **C79, partial.** All events but the two errors of the event queue have names. -/
theorem names_event_partial : NamesOn (fun e => e ≠ .eventBufferUnderflow ∧ e ≠ .eventBufferOverflow) Event.name :=
  namesOn_of namedEvents (fun a ha => by cases a <;> first | decide | simp at ha) (by decide +kernel) (by decide +kernel)

/-- **C79, partial.** The parse errors but the last two have names; so have the results without warning or error. -/
theorem names_gcode_partial : NamesOn (fun e => e ≠ .softLimits ∧ e ≠ .configFileError) GCode.ParseError.name ∧
    NamesOn (fun r => r ≠ .warningContextUpdateOnly ∧ r ≠ .warningContextUpdateAndMotion ∧ r ≠ .error) GCode.Result.name := by
  constructor
  · exact namesOn_of [.none, .tooManyWordsInBlock, .modalGroupCollision, .valueWordCollision, .invalidLineNumber, .invalidFeedrate,
      .missingFeedrate, .invalidSpindleSpeed, .missingPForG4, .invalidDwellTime, .missingLForG10, .missingPForG10, .invalidPForG10,
      .missingAxisWord, .missingOffsetWord, .invalidArcParameters, .unsupportedgCodeWord]
      (fun a ha => by cases a <;> first | decide | simp at ha) (by decide +kernel) (by decide +kernel)
  · exact namesOn_of [.emptyBlock, .okContextUpdateOnly, .okContextUpdateAndMotion]
      (fun a ha => by cases a <;> first | decide | simp at ha) (by decide +kernel) (by decide +kernel)

/-- **C79 fails**: both strategies have the same name; the errors of the event queue, two parse errors and three results are all "unknown". -/
theorem names_violated : ¬ NamesOn (fun _ => True) Strategy.name ∧ ¬ NamesOn (fun _ => True) Event.name ∧
    ¬ NamesOn (fun _ => True) GCode.ParseError.name ∧ ¬ NamesOn (fun _ => True) GCode.Result.name := by
  refine ⟨fun h => ?_, fun h => ?_, fun h => ?_, fun h => ?_⟩
  · exact absurd (h.1 .minimizeSpeed .maximizeSpeed trivial trivial rfl) (by decide)
  · exact h.2 .eventBufferOverflow trivial rfl
  · exact h.2 .softLimits trivial rfl
  · exact h.2 .error trivial rfl

private theorem run_told {K : MotionKit} (t : Target K) (p : Ports) (rounds : List Round) (b : Board K) (h : Board.run t p rounds = some b) :
    ∀ e ∈ told b.acts, e ≠ .none ∧ e ≠ .eventBufferUnderflow ∧ e ≠ .eventBufferOverflow := by
  intro e he
  obtain ⟨s1, s2, es, s3⟩ := Board.setup_inv t p
  obtain ⟨i1, -, -⟩ := Board.loops_inv t rounds s1 s2 ⟨_, s3, by simp⟩ h
  exact i1.real e (told_subset b (loop_fifo t p rounds b h) e he)

/-- **C79 (the log).** What the program prints identifies the events it has handled: if two runs — of any machines, on any
inputs — print the same texts, they have handled the same events in the same order; and no text is "unknown". -/
theorem log_identifies {K K' : MotionKit} (t : Target K) (t' : Target K') (p p' : Ports) (rounds rounds' : List Round)
    (b : Board K) (b' : Board K') (h : Board.run t p rounds = some b) (h' : Board.run t' p' rounds' = some b') :
    (eventLog (told b.acts) = eventLog (told b'.acts) → told b.acts = told b'.acts) ∧
    ∀ s ∈ eventLog (told b.acts), s ≠ "unknown" ∧ s ≠ "none" := by
  have h1 := run_told t p rounds b h
  have h2 := run_told t' p' rounds' b' h'
  constructor
  · generalize told b.acts = l at h1
    generalize told b'.acts = l' at h2
    induction l generalizing l' with
    | nil => cases l' <;> simp [eventLog]
    | cons e l ih =>
      cases l' with
      | nil => simp [eventLog]
      | cons e' l' =>
        intro he
        simp only [eventLog, List.map_cons, List.cons.injEq] at he
        rw [names_event_partial.1 e e' (h1 e (by simp)).2 (h2 e' (by simp)).2 he.1,
          ih (fun e he => h1 e (by simp [he])) l' (fun e he => h2 e (by simp [he])) he.2]
  · intro s hs
    obtain ⟨e, he, rfl⟩ := List.mem_map.1 hs
    refine ⟨names_event_partial.2 e (h1 e he).2, fun hn => (h1 e he).1 ?_⟩
    exact names_event_partial.1 e .none (h1 e he).2 (by simp) hn

/-- The log of the example of C63. -/
example : (Board.run loopTarget (zPorts true) ([false, false, false, false, false, false, false, true].map zRound)).map
    (fun b => eventLog (told b.acts)) =
    some ["homing started", "motion started", "limitSwitch ZMax closed", "stop requested", "motion stopped", "motion started"] := by
  decide +kernel

/-! ## The version -/

open Version (text decimal digit asInt)

private theorem digit_val : ∀ d < 10, (digit d).toNat = 48 + d := by decide +kernel

/-- The number written by some digits. -/
private def value (l : List Char) : Nat := l.foldl (fun n c => n * 10 + (c.toNat - 48)) 0

private theorem value_snoc (l : List Char) (c : Char) : value (l ++ [c]) = value l * 10 + (c.toNat - 48) := by simp [value]

private theorem value_decimal (n : Nat) : value (decimal n) = n := by
  induction n using Nat.strongRecOn with
  | ind n ih =>
    rw [decimal]
    split
    · rename_i h
      simp [value, digit_val n h]
    · rw [value_snoc, ih _ (by omega), digit_val _ (by omega)]
      omega

private theorem digits_decimal (n : Nat) : ∀ c ∈ decimal n, c ≠ '.' ∧ c ≠ '-' := by
  have key : ∀ d < 10, digit d ≠ '.' ∧ digit d ≠ '-' := by decide +kernel
  induction n using Nat.strongRecOn with
  | ind n ih =>
    rw [decimal]
    split
    · rename_i h
      intro c hc
      rw [List.mem_singleton.1 hc]
      exact key n h
    · intro c hc
      rcases List.mem_append.1 hc with hc | hc
      · exact ih _ (by omega) c hc
      · rw [List.mem_singleton.1 hc]
        exact key _ (by omega)

private theorem length_decimal (k : Nat) : ∀ n, n < 10 ^ (k + 1) → (decimal n).length ≤ k + 1 := by
  induction k with
  | zero =>
    intro n h
    rw [decimal, if_pos (by omega)]
    simp
  | succ k ih =>
    intro n h
    rw [decimal]
    split
    · simp
    · have := ih (n / 10) (by rw [pow_succ] at h; omega)
      simp only [List.length_append, List.length_singleton]
      omega

private theorem split_dot {a b x y : List Char} (ha : ∀ c ∈ a, c ≠ '.') (hb : ∀ c ∈ b, c ≠ '.') (h : a ++ '.' :: x = b ++ '.' :: y) :
    a = b ∧ x = y := by
  induction a generalizing b with
  | nil =>
    cases b with
    | nil => simpa using h
    | cons c b =>
      simp only [List.nil_append, List.cons_append, List.cons.injEq] at h
      exact absurd h.1.symm (hb c (by simp))
  | cons c a ih =>
    cases b with
    | nil =>
      simp only [List.nil_append, List.cons_append, List.cons.injEq] at h
      exact absurd h.1 (ha c (by simp))
    | cons d b =>
      simp only [List.cons_append, List.cons.injEq] at h
      obtain ⟨h1, h2⟩ := ih (fun c hc => ha c (by simp [hc])) (fun c hc => hb c (by simp [hc])) h.2
      exact ⟨by rw [h.1, h1], h2⟩

private theorem asInt_small {n : BitVec 32} (h : n.toNat < 1000) : asInt n = decimal n.toNat := by
  have : n.msb = false := by
    rw [BitVec.msb_eq_false_iff_two_mul_lt]
    omega
  rw [asInt, this]
  rfl

private theorem text_small {a b c : BitVec 32} (ha : a.toNat < 1000) (hb : b.toNat < 1000) (hc : c.toNat < 1000) :
    text a b c = 'V' :: ' ' :: (decimal a.toNat ++ '.' :: (decimal b.toNat ++ '.' :: decimal c.toNat)) := by
  have l1 := length_decimal 2 _ ha
  have l2 := length_decimal 2 _ hb
  have l3 := length_decimal 2 _ hc
  rw [text, List.take_of_length_le]
  · rw [asInt_small ha, asInt_small hb, asInt_small hc]
    simp
  · rw [asInt_small ha, asInt_small hb, asInt_small hc]
    simp [Version.maxVersionStringLength]
    omega

/-- **C80 (fits).** The text with its terminating NUL always fits into the 14 characters of `versionString`. -/
theorem version_fits (a b c : BitVec 32) : (text a b c).length + 1 ≤ 14 := by
  rw [text, List.length_take, Version.maxVersionStringLength]
  omega

/-- **C80, partial (complete).** For components up to 999 the text is "V a.b.c" in decimal, and the texts of different versions differ.
Missing: larger components (next theorem). -/
theorem version_text_partial (a b c : BitVec 32) (ha : a.toNat ≤ 999) (hb : b.toNat ≤ 999) (hc : c.toNat ≤ 999) :
    (∃ x y z : List Char, text a b c = "V ".toList ++ x ++ ".".toList ++ y ++ ".".toList ++ z ∧
      Nat.ofDigitChars 10 x 0 = a.toNat ∧ Nat.ofDigitChars 10 y 0 = b.toNat ∧ Nat.ofDigitChars 10 z 0 = c.toNat) ∧
    ∀ a' b' c' : BitVec 32, a'.toNat ≤ 999 → b'.toNat ≤ 999 → c'.toNat ≤ 999 → text a' b' c' = text a b c → (a', b', c') = (a, b, c) := by
  have hv : ∀ l : List Char, Nat.ofDigitChars 10 l 0 = value l := by
    intro l
    simp only [Nat.ofDigitChars, value]
    congr 1
    funext n c
    rw [show '0'.toNat = 48 from rfl]
    omega
  refine ⟨⟨decimal a.toNat, decimal b.toNat, decimal c.toNat, ?_, ?_, ?_, ?_⟩, ?_⟩
  · rw [text_small (by omega) (by omega) (by omega)]
    simp
  · rw [hv, value_decimal]
  · rw [hv, value_decimal]
  · rw [hv, value_decimal]
  · intro a' b' c' ha' hb' hc' h
    rw [text_small (by omega) (by omega) (by omega), text_small (by omega) (by omega) (by omega)] at h
    simp only [List.cons.injEq, true_and] at h
    obtain ⟨h1, h⟩ := split_dot (fun c hc => (digits_decimal _ c hc).1) (fun c hc => (digits_decimal _ c hc).1) h
    obtain ⟨h2, h3⟩ := split_dot (fun c hc => (digits_decimal _ c hc).1) (fun c hc => (digits_decimal _ c hc).1) h
    have e1 := congrArg value h1
    have e2 := congrArg value h2
    have e3 := congrArg value h3
    rw [value_decimal, value_decimal] at e1 e2 e3
    rw [BitVec.eq_of_toNat_eq e1, BitVec.eq_of_toNat_eq e2, BitVec.eq_of_toNat_eq e3]

/-- **C80 fails**: versions with larger components can have the same text. -/
theorem version_text_violated : ∃ a b c c' : BitVec 32, c ≠ c' ∧ text a b c = text a b c' :=
  ⟨1000, 1000, 10, 100, by decide, by decide +kernel⟩

example : String.ofList (text 0 1 27) = "V 0.1.27" ∧ String.ofList (text 100 200 999) = "V 100.200.999" ∧
    String.ofList (text 1000 1000 100) = "V 1000.1000.1" ∧ String.ofList (text 0xFFFFFFFF 0 0) = "V -1.0.0" := by decide +kernel

end Moovr.Props
