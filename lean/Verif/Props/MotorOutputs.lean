import Verif.Spec.MotorOutputs
/-!
# Motor outputs (C81, C82)

`MotorOutputs.run o calls`: the registers after the calls, starting from arbitrary registers `o`. The enable lines are active low.
-/
namespace Moovr.Props
open MotorOutputs (Call lineB lineC)
open MotorSpec

/-- The state of the port after `initialize`. -/
private structure Ready (o : MotorOutputs) (e1 e4 : Bool) (v : BitVec 32) : Prop where
  dirB : o.dirB = 0x000C0000#32
  dirC : o.dirC = 0x00000FFF#32
  mux18 : o.muxB 18 = true
  mux19 : o.muxB 19 = true
  muxC : ∀ i < 12, o.muxC i = true
  b18 : o.b.getLsbD 18 = !e1
  b19 : o.b.getLsbD 19 = !e4
  c : o.c = v

private theorem run_cons (o : MotorOutputs) (c : Call) (cs : List Call) : o.run (c :: cs) = (o.after c.writes).run cs := by
  simp [MotorOutputs.run, MotorOutputs.after, List.foldl_append]

private theorem run_append (o : MotorOutputs) (cs ds : List Call) : o.run (cs ++ ds) = (o.run cs).run ds := by
  simp [MotorOutputs.run, MotorOutputs.after, List.foldl_append]

private theorem after_configure (o : MotorOutputs) : o.after Call.configure.writes =
    ⟨o.b ||| (0x00000001#32 <<< 18) ||| (0x00000001#32 <<< 19), o.c, 0x000C0000#32, 0x00000FFF#32,
      fun i => if i = 19 then true else if i = 18 then true else o.muxB i,
      fun i => if i = 11 then true else if i = 10 then true else if i = 9 then true else if i = 8 then true else if i = 7 then true else
        if i = 6 then true else if i = 5 then true else if i = 4 then true else if i = 3 then true else if i = 2 then true else
        if i = 1 then true else if i = 0 then true else o.muxC i⟩ := by
  simp only [MotorOutputs.after, Call.writes, MotorOutputs.configure, MotorOutputs.enableMotors123, MotorOutputs.enableMotors456,
    Bool.false_eq_true, if_false, List.cons_append, List.nil_append, List.foldl_cons, List.foldl_nil, MotorOutputs.write1]

private theorem ready_configure (o : MotorOutputs) : Ready (o.after Call.configure.writes) false false o.c := by
  rw [after_configure]
  refine ⟨rfl, rfl, rfl, rfl, ?_, ?_, ?_, rfl⟩
  · intro i hi
    have : i = 0 ∨ i = 1 ∨ i = 2 ∨ i = 3 ∨ i = 4 ∨ i = 5 ∨ i = 6 ∨ i = 7 ∨ i = 8 ∨ i = 9 ∨ i = 10 ∨ i = 11 := by omega
    rcases this with rfl | rfl | rfl | rfl | rfl | rfl | rfl | rfl | rfl | rfl | rfl | rfl <;> rfl
  · simp [BitVec.getLsbD_or]
  · simp [BitVec.getLsbD_or]

private theorem ready_call {o : MotorOutputs} {e1 e4 : Bool} {v : BitVec 32} (h : Ready o e1 e4 v) (c : Call) :
    Ready (o.after c.writes) (enabled123 e1 [c]) (enabled456 e4 [c]) (written v [c]) := by
  cases c with
  | configure => have := ready_configure o; rw [h.c] at this; exact this
  | write w => exact ⟨h.dirB, h.dirC, h.mux18, h.mux19, h.muxC, h.b18, h.b19, rfl⟩
  | enableMotors123 x =>
    cases x
    · refine ⟨h.dirB, h.dirC, h.mux18, h.mux19, h.muxC, ?_, ?_, h.c⟩
      · show (o.b ||| (0x00000001#32 <<< 18)).getLsbD 18 = true
        simp [BitVec.getLsbD_or]
      · show (o.b ||| (0x00000001#32 <<< 18)).getLsbD 19 = _
        simpa [BitVec.getLsbD_or, enabled456] using h.b19
    · refine ⟨h.dirB, h.dirC, h.mux18, h.mux19, h.muxC, ?_, ?_, h.c⟩
      · show (o.b &&& ~~~(0x00000001#32 <<< 18)).getLsbD 18 = false
        simp [BitVec.getLsbD_and]
      · show (o.b &&& ~~~(0x00000001#32 <<< 18)).getLsbD 19 = _
        simpa [BitVec.getLsbD_and, enabled456] using h.b19
  | enableMotors456 x =>
    cases x
    · refine ⟨h.dirB, h.dirC, h.mux18, h.mux19, h.muxC, ?_, ?_, h.c⟩
      · show (o.b ||| (0x00000001#32 <<< 19)).getLsbD 18 = _
        simpa [BitVec.getLsbD_or, enabled123] using h.b18
      · show (o.b ||| (0x00000001#32 <<< 19)).getLsbD 19 = true
        simp [BitVec.getLsbD_or]
    · refine ⟨h.dirB, h.dirC, h.mux18, h.mux19, h.muxC, ?_, ?_, h.c⟩
      · show (o.b &&& ~~~(0x00000001#32 <<< 19)).getLsbD 18 = _
        simpa [BitVec.getLsbD_and, enabled123] using h.b18
      · show (o.b &&& ~~~(0x00000001#32 <<< 19)).getLsbD 19 = false
        simp [BitVec.getLsbD_and]

private theorem ready_run (cs : List Call) : ∀ {o : MotorOutputs} {e1 e4 : Bool} {v : BitVec 32}, Ready o e1 e4 v →
    Ready (o.run cs) (enabled123 e1 cs) (enabled456 e4 cs) (written v cs) := by
  induction cs with
  | nil => intro o e1 e4 v h; exact h
  | cons c cs ih =>
    intro o e1 e4 v h
    rw [run_cons]
    have := ih (ready_call h c)
    cases c <;> exact this

/-- **C81.** Once `initialize` has been called, whatever the registers were and whatever was called before and after: the motors
1–3 and 4–6 are enabled exactly if the last call that concerns them asked for it (line low); each of the twelve step and direction lines
has the level of its bit in the value written last; no other pin of the two ports is driven. -/
theorem motor_lines (o : MotorOutputs) (before calls : List Call) :
    let o' := o.run (before ++ .configure :: calls)
    lineB o' 18 = some (!enabled123 false calls) ∧ lineB o' 19 = some (!enabled456 false calls) ∧
    (∀ i, i < 12 → lineC o' i = some ((written (o.run before).c calls).getLsbD i)) ∧
    (∀ i, i ≠ 18 → i ≠ 19 → lineB o' i = none) ∧ (∀ i, 12 ≤ i → lineC o' i = none) := by
  simp only
  rw [run_append, run_cons]
  have h := ready_run calls (ready_configure (o.run before))
  generalize ((o.run before).after Call.configure.writes).run calls = o' at h ⊢
  refine ⟨?_, ?_, ?_, ?_, ?_⟩
  · rw [lineB, h.dirB, h.mux18, h.b18]; rfl
  · rw [lineB, h.dirB, h.mux19, h.b19]; rfl
  · intro i hi
    have h1 : (0x00000FFF#32).getLsbD i = true := by
      have : i = 0 ∨ i = 1 ∨ i = 2 ∨ i = 3 ∨ i = 4 ∨ i = 5 ∨ i = 6 ∨ i = 7 ∨ i = 8 ∨ i = 9 ∨ i = 10 ∨ i = 11 := by omega
      rcases this with rfl | rfl | rfl | rfl | rfl | rfl | rfl | rfl | rfl | rfl | rfl | rfl <;> rfl
    rw [lineC, h.dirC, h.muxC i hi, h1, h.c]
    rfl
  · intro i h1 h2
    have : (0x000C0000#32).getLsbD i = false := by
      by_cases hi : i < 32
      · have key : ∀ i < 32, i ≠ 18 → i ≠ 19 → (0x000C0000#32).getLsbD i = false := by decide +kernel
        exact key i hi h1 h2
      · exact BitVec.getLsbD_of_ge _ _ (by omega)
    simp [lineB, h.dirB, this]
  · intro i hi
    have : (0x00000FFF#32).getLsbD i = false := by
      by_cases hi' : i < 32
      · have key : ∀ i < 32, 12 ≤ i → (0x00000FFF#32).getLsbD i = false := by decide +kernel
        exact key i hi' hi
      · exact BitVec.getLsbD_of_ge _ _ (by omega)
    simp [lineC, h.dirC, this]

/-- The registers after a reset of the processor. -/
def resetOutputs : MotorOutputs := ⟨0, 0, 0, 0, fun _ => false, fun _ => false⟩

/-- The main program (`setup`, main.cpp:153-154, then steps): motors 1–3 enabled, 4–6 not, the pattern of the last step on the pins. -/
example : let o := resetOutputs.run [.configure, .enableMotors123 true, .write 0x01, .write 0x05]
    (lineB o 18, lineB o 19, lineC o 0, lineC o 1, lineC o 2, lineC o 12) =
      (some false, some true, some true, some false, some true, none) := by decide +kernel
example : lineB (resetOutputs.run [.configure, .enableMotors123 true, .configure]) 18 = some true := by decide +kernel

/-! ## Motors are enabled only on request -/

/-- A call that asks for motors to be enabled. -/
def asksEnable : Call → Bool
  | .enableMotors123 true => true
  | .enableMotors456 true => true
  | _ => false

/-- Pins 18 and 19 of port B do not pull their lines low. -/
def Disabled (o : MotorOutputs) : Prop := lineB o 18 ≠ some false ∧ lineB o 19 ≠ some false

private theorem high_writes {o : MotorOutputs} (h : o.b.getLsbD 18 = true ∧ o.b.getLsbD 19 = true) (ws : List RegWrite)
    (hw : ∀ v, .pcorB v ∉ ws) : (o.after ws).b.getLsbD 18 = true ∧ (o.after ws).b.getLsbD 19 = true := by
  induction ws generalizing o with
  | nil => exact h
  | cons w ws ih =>
    have hw' : ∀ v, .pcorB v ∉ ws := fun v hv => hw v (List.mem_cons_of_mem _ hv)
    show ((o.write1 w).after ws).b.getLsbD 18 = true ∧ ((o.write1 w).after ws).b.getLsbD 19 = true
    refine ih ?_ hw'
    cases w with
    | psorB v => simp [MotorOutputs.write1, BitVec.getLsbD_or, h.1, h.2]
    | pcorB v => exact absurd (List.mem_cons_self ..) (hw v)
    | _ => exact h

private theorem no_clear (c : Call) (hc : asksEnable c = false) : ∀ v, RegWrite.pcorB v ∉ c.writes := by
  intro v
  cases c with
  | configure => simp [Call.writes, MotorOutputs.configure, MotorOutputs.enableMotors123, MotorOutputs.enableMotors456]
  | write v => simp [Call.writes, MotorOutputs.write]
  | enableMotors123 x => cases x <;> simp [asksEnable, Call.writes, MotorOutputs.enableMotors123] at hc ⊢
  | enableMotors456 x => cases x <;> simp [asksEnable, Call.writes, MotorOutputs.enableMotors456] at hc ⊢

/-- **C82, partial.** At every moment — after any number of register writes — of any history of calls that does not ask for it, no motor is
enabled, provided the two bits of the output latch are set at first. Missing: after a reset they are not (next theorem). -/
theorem motors_disabled_partial (o : MotorOutputs) (hb : o.b.getLsbD 18 = true ∧ o.b.getLsbD 19 = true) (calls : List Call)
    (hc : ∀ c ∈ calls, asksEnable c = false) (ws : List RegWrite) (hp : ws <+: calls.flatMap Call.writes) : Disabled (o.after ws) := by
  have hw : ∀ v, RegWrite.pcorB v ∉ ws := by
    intro v hv
    obtain ⟨c, hm, h⟩ := List.mem_flatMap.1 (hp.subset hv)
    exact no_clear c (hc c hm) v h
  obtain ⟨h1, h2⟩ := high_writes hb ws hw
  constructor
  · unfold lineB
    split <;> simp [h1]
  · unfold lineB
    split <;> simp [h2]

/-- **C82, partial.** The same from any registers, once `initialize` has been called and has returned. -/
theorem motors_disabled_after_configure (o : MotorOutputs) (before calls : List Call)
    (hc : ∀ c ∈ calls, asksEnable c = false) (ws : List RegWrite) (hp : ws <+: calls.flatMap Call.writes) :
    Disabled ((o.run (before ++ [.configure])).after ws) := by
  refine motors_disabled_partial _ ?_ calls hc ws hp
  rw [run_append]
  have h := ready_configure (o.run before)
  exact ⟨h.b18, h.b19⟩

/-- **C82 fails**: `initialize` first turns the pins into outputs and then raises them. From the reset state of the processor the enable
lines are driven low, all motors enabled, for the time between. -/
theorem motors_disabled_violated : ∃ ws : List RegWrite, ws <+: [Call.configure].flatMap Call.writes ∧
    (∀ c ∈ [Call.configure], asksEnable c = false) ∧
    lineB (resetOutputs.after ws) 18 = some false ∧ lineB (resetOutputs.after ws) 19 = some false :=
  ⟨MotorOutputs.configure.take 16, ⟨MotorOutputs.configure.drop 16, rfl⟩, by simp [asksEnable], by decide +kernel, by decide +kernel⟩

/-- Hypotheses of the partial theorems hold, e.g. for a restart of `setup` with the latch set. -/
example : ∀ n ≤ 18, (lineB ((resetOutputs.run [.configure]).after (MotorOutputs.configure.take n)) 18) = some true := by decide +kernel

end Moovr.Props
