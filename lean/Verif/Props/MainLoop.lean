import Verif.Lemmas.MainLoop
import Verif.Props.Debounce
/-!
# The main loop (C63)

`Board.run t p rounds` is the machine after `setup` (with the ports reading `p`) and the iterations `rounds` of `loop`, for every
motion arithmetic `K`, every homing configuration and every schedule: in each iteration any number of calculations, sampling
timer expired or not, any reading of the ports.
-/
namespace Moovr.Props
open EventQueueSpec LoopSpec
variable {K : MotionKit} (t : Target K)

/-- The ports as they were sampled. -/
def sampledPorts (rounds : List Round) : List Ports := (rounds.filter (·.expired)).map (·.ports)

/-- The events that the homing controller was told, in order. -/
def told (acts : List HomingAct) : List Event :=
  acts.filterMap fun
    | .handled e => some e
    | _ => none

/-- The level an input has settled on after some reports. -/
def levelAfter (level : Bool) (reports : List (Option Bool)) : Bool := (reports.filterMap id).getLast?.getD level

private theorem reports_of (p₀ : Ports) (ps : List Ports) (i : Nat) (hi : i < 9) :
    ∃ reports, DebounceSpec.Reports (pin i p₀) [] (ps.map (pin i)) reports ∧
      (Board.fed p₀ ps i).2 = reports.map (fun o => (o.map (inputEvent i)).getD .none) := by
  obtain ⟨rs, h1, h2⟩ := debounce_reports_justified_changes (Board.myInputs₀ i) (pin i p₀) (ps.map (pin i))
  refine ⟨rs, h1, ?_⟩
  unfold Board.fed
  rw [h2]
  refine List.map_congr_left fun o _ => ?_
  have he := Board.myInputs₀_events i hi
  rcases o with _ | _ | _
  · rfl
  · simpa using he false
  · simpa using he true

private theorem all_reports (p₀ : Ports) (ps : List Ports) : ∃ reports : Nat → List (Option Bool), ∀ i < 9,
    DebounceSpec.Reports (pin i p₀) [] (ps.map (pin i)) (reports i) ∧
      (Board.fed p₀ ps i).2 = (reports i).map (fun o => (o.map (inputEvent i)).getD .none) := by
  refine ⟨fun i => if hi : i < 9 then (reports_of p₀ ps i hi).choose else [], fun i hi => ?_⟩
  simp only [hi, dite_true]
  exact (reports_of p₀ ps i hi).choose_spec

/-- **C63 (changes are queued in order).** The input events offered to the event queue are exactly the events for the debounced
changes of the nine inputs: round by round, within a sampling round in the order of the inputs. -/
theorem loop_changes (p : Ports) (rounds : List Round) (b : Board K) (h : Board.run t p rounds = some b) :
    Changes p (sampledPorts rounds) ((offered b.calls).filter isInput) := by
  obtain ⟨s1, s2, es, s3⟩ := Board.setup_inv t p
  obtain ⟨i1, -, -⟩ := Board.loops_inv t rounds s1 s2 ⟨_, s3, by simp⟩ h
  rw [List.nil_append] at i1
  obtain ⟨reports, hr⟩ := all_reports p (Board.sampled rounds)
  refine ⟨reports, fun i hi => (hr i hi).1, ?_⟩
  rw [i1.events]
  refine Board.flatMap_range_congr _ _ _ fun r _ => ?_
  unfold Board.fedEvents roundEvents
  refine Board.filterMap_congr_mem _ _ _ fun i hi => ?_
  have hi := List.mem_range.1 hi
  simp only
  rw [(hr i hi).2]
  simp only [List.getD_eq_getElem?_getD, List.getElem?_map]
  cases (reports i)[r]? with
  | none => simp
  | some o =>
    cases o with
    | none => simp
    | some high => simp [(Board.inputEvent_isInput i hi high).2]

/-- **C63 (handled once, in order).** The events accepted by the queue are exactly the events the homing controller was told,
followed by those still pending, in the same order. -/
theorem loop_fifo (p : Ports) (rounds : List Round) (b : Board K) (h : Board.run t p rounds = some b) :
    acceptedRev b.calls.reverse = told b.acts ++ pending b.calls := by
  obtain ⟨s1, s2, es, s3⟩ := Board.setup_inv t p
  exact (Board.loops_inv t rounds s1 s2 ⟨_, s3, by simp⟩ h).1.fifo.fifo

private theorem accepted_all (cs : List Call) (hn : Call.reinit ∉ cs) (pre : List Call) (hpre : offered pre = [])
    (hacc : acceptedRev pre.reverse = []) (ho : NoOverflow (pre ++ cs)) (hreal : ∀ e ∈ offered cs, e ≠ Event.none) :
    acceptedRev (pre ++ cs).reverse = offered (pre ++ cs) := by
  induction cs using EventBuffer.history_induction with
  | nil => simp [hpre, hacc]
  | snoc cs c ih =>
    have ih := ih (fun hx => hn (by simp [hx])) (fun before e after he => ho before e (after ++ [c]) (by
        rw [← List.append_assoc, he]; simp)) (fun e he => hreal e (by rw [offered_append]; simp [he]))
    rw [← List.append_assoc, List.reverse_append, List.reverse_singleton, List.singleton_append, offered_append]
    cases c with
    | reinit => exact absurd (by simp) hn
    | push e =>
      have h1 := ho (pre ++ cs) e [] (by simp)
      have h2 := hreal e (by rw [offered_append]; simp [offered])
      rw [acceptedRev, List.reverse_reverse, if_pos ⟨h2, h1⟩, ih]
      rfl
    | pop => simpa [acceptedRev, offered] using ih
    | hasEvents => simpa [acceptedRev, offered] using ih
    | getLevelMax => simpa [acceptedRev, offered] using ih
    | getLastError => simpa [acceptedRev, offered] using ih

/-- **C63 (nothing is lost).** Unless an event was offered to a full queue, the homing controller was told, or will be told next,
every debounced change, in order. -/
theorem loop_no_loss (p : Ports) (rounds : List Round) (b : Board K) (h : Board.run t p rounds = some b) (hf : NoOverflow b.calls) :
    offered b.calls = told b.acts ++ pending b.calls ∧
    Changes p (sampledPorts rounds) ((told b.acts).filter isInput ++ (pending b.calls).filter isInput) := by
  obtain ⟨s1, s2, es, s3⟩ := Board.setup_inv t p
  obtain ⟨i1, -, cs, c1, c2⟩ := Board.loops_inv t rounds s1 s2 ⟨_, s3, by simp⟩ h
  have hacc : acceptedRev b.calls.reverse = offered b.calls := by
    rw [c1]
    refine accepted_all cs c2 [.reinit] rfl rfl (by simpa [c1] using hf) fun e he => (i1.real e ?_).1
    rw [c1]
    simpa [offered] using he
  have he : offered b.calls = told b.acts ++ pending b.calls := by rw [← hacc]; exact loop_fifo t p rounds b h
  refine ⟨he, ?_⟩
  rw [← List.filter_append, ← he]
  exact loop_changes t p rounds b h

/-- **C63 (one per iteration).** An iteration offers some events to the queue, then tells the homing controller the oldest
pending event if there is one and no other event, and then offers the events this leads to. -/
theorem loop_one (p : Ports) (rounds : List Round) (r : Round) (b b' : Board K) (h : Board.run t p rounds = some b)
    (h' : Board.run t p (rounds ++ [r]) = some b') :
    ∃ (es fs : List Event) (cs : List Call), b'.calls = b.calls ++ es.map .push ++ cs ++ fs.map .push ∧ offered cs = [] ∧
      told b'.acts = told b.acts ++ (pending (b.calls ++ es.map .push)).take 1 ∧
      pending (b.calls ++ es.map .push ++ cs) = (pending (b.calls ++ es.map .push)).drop 1 := by
  obtain ⟨s1, s2, es, s3⟩ := Board.setup_inv t p
  obtain ⟨i1, i2, -⟩ := Board.loops_inv t rounds s1 s2 ⟨_, s3, by simp⟩ h
  have hl : b.loop t r = some b' := by
    have : ∀ (rs : List Round) (c : Board K), c.loops t rs = some b → c.loops t (rs ++ [r]) = some b' → b.loop t r = some b' := by
      intro rs
      induction rs with
      | nil =>
        intro c hc hc'
        simp only [Board.loops, Option.some.injEq] at hc
        subst hc
        simp only [List.nil_append, Board.loops] at hc'
        split at hc'
        · cases hc'
        · rename_i x hx; rw [hx, hc']
      | cons x rs ih =>
        intro c hc hc'
        simp only [List.cons_append, Board.loops] at hc hc'
        split at hc
        · cases hc
        · rename_i y hy
          rw [hy] at hc'
          exact ih y hc hc'
    exact this rounds _ h h'
  obtain ⟨-, -, es, fs, cs, e1, e2, e3, e4⟩ := Board.loop_inv t i1 i2 hl
  exact ⟨es, fs, cs, e1, by rcases e2 with rfl | rfl <;> rfl, e4, e3⟩

private theorem reports_prefix {level : Bool} {samples xs ys : List Bool} {rs : List (Option Bool)}
    (h : DebounceSpec.Reports level samples (xs ++ ys) rs) : DebounceSpec.Reports level samples xs (rs.take xs.length) := by
  induction xs generalizing level samples rs with
  | nil => simpa using DebounceSpec.Reports.done
  | cons x xs ih =>
    rw [List.cons_append] at h
    cases h with
    | quiet hj h => exact .quiet hj (ih h)
    | change hj h => exact .change hj (ih h)

private theorem levelAfter_cons (level : Bool) (o : Option Bool) (rs : List (Option Bool)) :
    levelAfter level (o :: rs) = levelAfter (o.getD level) rs := by
  cases o with
  | none => simp [levelAfter]
  | some b =>
    simp only [levelAfter, List.filterMap_cons, id_eq, Option.getD_some]
    cases hl : rs.filterMap id with
    | nil => rfl
    | cons y ys => simp [List.getLast?_cons]

private theorem feed_level {level : Bool} {samples xs : List Bool} {rs : List (Option Bool)} {d : DebouncedInput}
    (hs : DebouncedInput.Settled level samples d) (h : DebounceSpec.Reports level samples xs rs) :
    (d.feed xs).1.getState = levelAfter level rs := by
  induction h generalizing d with
  | done => exact hs.cur
  | quiet hj _ ih =>
    rename_i x _ _ _
    rcases DebouncedInput.step_cases hs x with ⟨-, -, h'⟩ | ⟨hj', -, -⟩
    · rw [levelAfter_cons]; exact ih h'
    · exact absurd hj' hj
  | change hj _ ih =>
    rename_i x _ _ _
    rcases DebouncedInput.step_cases hs x with ⟨hj', -, -⟩ | ⟨-, -, h'⟩
    · exact absurd hj hj'
    · rw [levelAfter_cons]; exact ih h'

/-- **C63 (the homing controller within the machine).** What the homing controller does is what it does after `start()` when it is
given these events one by one; whenever it reads a switch, it reads the level on which the input had settled after some of the
sampling rounds so far. So C58–C61 hold in the machine. -/
theorem loop_homing (p : Ports) (rounds : List Round) (b : Board K) (h : Board.run t p rounds = some b) :
    ∃ (hist : List (Homer.Call × HomingEnv)) (reports : Nat → List (Option Bool)),
      Homer.run t.cfg (.fresh t.cfg) hist = (b.homer, b.acts) ∧
      hist.map (·.1) = .start :: (told b.acts).map .event ∧
      (∀ i < 9, DebounceSpec.Reports (pin i p) [] ((sampledPorts rounds).map (pin i)) (reports i)) ∧
      ∀ x ∈ hist, ∃ k ≤ (sampledPorts rounds).length, ∀ i < 9, x.2.closed i = !levelAfter (pin i p) ((reports i).take k) := by
  obtain ⟨s1, s2, es, s3⟩ := Board.setup_inv t p
  obtain ⟨-, ⟨hist, h1, h2, h3⟩, -⟩ := Board.loops_inv t rounds s1 s2 ⟨_, s3, by simp⟩ h
  rw [List.nil_append] at h3
  obtain ⟨reports, hr⟩ := all_reports p (Board.sampled rounds)
  refine ⟨hist, reports, h1, h2, fun i hi => (hr i hi).1, fun x hx => ?_⟩
  obtain ⟨ps', ⟨rest, hp⟩, hc⟩ := h3 x hx
  refine ⟨ps'.length, by rw [show sampledPorts rounds = ps' ++ rest from hp.symm]; simp, fun i hi => ?_⟩
  rw [hc i hi, (debounce_open_closed _).2]
  congr 1
  have hrep := (hr i hi).1
  rw [← hp, List.map_append] at hrep
  have hpre := reports_prefix hrep
  rw [List.length_map] at hpre
  exact feed_level (DebouncedInput.settled_initialize (Board.myInputs₀ i) (pin i p)) hpre

/-! ## A concrete machine -/

/-- A motion arithmetic that counts ticks: a motion lasts as many ticks as requested, a stop takes effect after one tick. -/
def loopKit : MotionKit where
  n := 3
  Time := Nat
  Req := Nat
  Traj := Unit
  Prof := Nat × Nat
  Ovr := Unit
  Dist := Unit
  Pos := Unit
  zero := 0
  one := 1
  sample i w z := i * w + z
  later a b := decide (b < a)
  diff a b := a - b
  traj₀ := ()
  prof₀ := (0, 1000)
  ovr₀ := ()
  setTraj _ _ _ := ()
  setProf _ _ r _ _ := (r, 1000)
  optimize _ _ _ p := p
  optimizeAt _ s t _ p := if s = .minimizeSpeed then (1000, t + 1) else p
  endAtRest p := p
  startAtRest p := p
  duration p := p.1
  tStop p := p.2
  s _ _ _ := ()
  isMoving _ _ := false
  position _ _ _ := ()
  needStepForward _ _ _ := false
  needStepBackward _ _ _ := false

/-- The shipped machine with only Z to be homed; one tick for a millimetre. -/
def loopTarget : Target loopKit :=
  ⟨{ HomingConfig.cnc3axis with nmbrHomingAxis := 1 }, fun m => m.offset.num.natAbs, 1, (1 : Nat)⟩

/-- All inputs high but that of the switch ZMax, which is as given. -/
def zPorts (z : Bool) : Ports := ⟨0, if z then 0xFF#32 else 0xFE#32, 0x02000000#32⟩

/-- One calculation, then sampling, then an event. -/
def zRound (z : Bool) : Round := ⟨1, true, zPorts z⟩

/-- Homing in the whole machine, from the contacts to the last event. -/
example : (Board.run loopTarget (zPorts true) (List.replicate 12 (zRound false) ++ List.replicate 16 (zRound true))).map
      (fun b => (told b.acts, b.homer.state, pending b.calls, (offered b.calls).filter isInput)) =
    some ([.homingStarted, .motionStarted, .limitSwitchZMaxClosed, .stopRequested, .motionStopped, .motionStarted,
      .limitSwitchZMaxOpened, .stopRequested, .motionStopped, .motionStarted, .motionStopped, .motionCompleted, .allMotionsCompleted,
      .homingCompleted], .found, [], [.limitSwitchZMaxClosed, .limitSwitchZMaxOpened]) := by
  decide +kernel

/-- All inputs as given; no calculation. -/
def noisyRound (high : Bool) : Round :=
  ⟨0, true, ⟨0, if high then 0xFF#32 else 0#32, if high then 0x02000000#32 else 0⟩⟩

/-- `NoOverflow` is needed: if all inputs change every five samples and every iteration samples, two changes are lost. -/
example : (Board.run loopTarget (noisyRound true).ports
      (List.replicate 5 (noisyRound false) ++ List.replicate 5 (noisyRound true) ++ List.replicate 5 (noisyRound false))).map
      (fun b => (b.queue.lastError, ((offered b.calls).filter isInput).length, ((told b.acts ++ pending b.calls).filter isInput).length)) =
    some (.eventBufferOverflow, 27, 25) := by
  decide +kernel

/-! ## C73: the shipped configuration -/

/-- **C73.** In the shipped configuration the switch that the homing controller reads for an axis is the one whose events it
waits for: the input it reads is the input that reports the closing and opening events of the axis' homing switch. -/
theorem shipped_switches : ∀ a ∈ HomingSpec.axes .cnc3axis, ∃ c o,
    (a, HomingConfig.cnc3axis.homingDirection a, c, o) ∈ HomingSpec.switches ∧
    inputEvents[HomingSpec.switchOf .cnc3axis a]? = some (c, o) := by
  intro a ha
  have : HomingSpec.axes .cnc3axis = [2, 0, 1] := by decide +kernel
  rw [this] at ha
  simp only [List.mem_cons, List.not_mem_nil, or_false] at ha
  rcases ha with rfl | rfl | rfl
  · exact ⟨.limitSwitchZMaxClosed, .limitSwitchZMaxOpened, by decide +kernel⟩
  · exact ⟨.limitSwitchXMaxClosed, .limitSwitchXMaxOpened, by decide +kernel⟩
  · exact ⟨.limitSwitchYMaxClosed, .limitSwitchYMaxOpened, by decide +kernel⟩

/-- Every axis is homed. -/
theorem shipped_axes : HomingSpec.axes .cnc3axis = [2, 0, 1] := by decide +kernel

/-- The indices of the minimum switches (unused: no axis has one) do not fit: for X the input of ZMax is configured. -/
example : inputEvents[HomingConfig.cnc3axis.limitMinIndex 0]? = some (.limitSwitchZMaxClosed, .limitSwitchZMaxOpened) := by decide

end Moovr.Props
