import Verif.Lemmas.QueueRoom
import Verif.Props.HomingTimely
/-!
# Property C130: is the event queue of the main program large enough?

The queue holds 16 events, each iteration of the main loop takes out one, and nine inputs may change at the same sampling. What the
motion controller and the homing controller report comes on top.
-/
namespace Moovr.Props
open EventQueueSpec LoopSpec
variable {K : MotionKit} (t : Target K)

/-- Between any two iterations that sample the inputs there are at least `n` that do not. -/
def SampledRarely (n : Nat) (rounds : List Round) : Prop :=
  ∀ before r between r' after, rounds = before ++ r :: (between ++ r' :: after) → r.expired = true → r'.expired = true →
    n ≤ between.length

/-- **C130.** If the main loop runs at least 16 times per sampling of the inputs and the schedule is orderly (C77), no event is ever
offered to a full queue, whatever the inputs do. -/
theorem events_have_room (p : Ports) (rounds : List Round) {b : Board K} (h : Board.run t p rounds = some b)
    (ho : Board.Orderly t (Board.setup t p) rounds) (hr : SampledRarely 15 rounds) : NoOverflow b.calls :=
  Board.loops_roomy t rounds (Board.setup_phase t p).1 (Board.setup_roomy t p).1 (Board.setup_roomy t p).2 ho
    ⟨hr, fun _ _ _ _ _ => Nat.zero_le _⟩ h

/-- **C130, nothing is lost.** In such a run the homing controller has been told, or will be told next, every event that was reported
and every debounced change of an input, in order. -/
theorem events_not_lost (p : Ports) (rounds : List Round) {b : Board K} (h : Board.run t p rounds = some b)
    (ho : Board.Orderly t (Board.setup t p) rounds) (hr : SampledRarely 15 rounds) :
    offered b.calls = told b.acts ++ pending b.calls ∧
    Changes p (sampledPorts rounds) ((told b.acts).filter isInput ++ (pending b.calls).filter isInput) :=
  loop_no_loss t p rounds b h (events_have_room t p rounds h ho hr)

/-- **C130, single precision.** The same for the 3-axis machine with `float` arithmetic, if homing stops its moves only while they
cruise. When in such a run the machine stands still and no event is pending, homing is complete or waits for a limit switch. -/
theorem events_not_lost_single (fpu : Fpu) (p : Ports) (rounds : List Round) {b : Board (cnc3axis32.kit32 fpu)}
    (h : Board.run (shippedTarget32 fpu) p rounds = some b) (ht : Timely fpu p rounds) (hr : SampledRarely 15 rounds) :
    NoOverflow b.calls ∧ offered b.calls = told b.acts ++ pending b.calls ∧
    Changes p (sampledPorts rounds) ((told b.acts).filter isInput ++ (pending b.calls).filter isInput) ∧
    (b.ctrl.state = .stopped → pending b.calls = [] →
      b.homer.state = .lost ∨ b.homer.state = .found ∨ b.homer.state = .closing ∨ b.homer.state = .opening) := by
  have ho := homing_timely fpu p rounds ht
  have hn := events_have_room _ p rounds h ho hr
  obtain ⟨h1, h2⟩ := events_not_lost _ p rounds h ho hr
  exact ⟨hn, h1, h2, fun hs hq => homing_timely_waits fpu p rounds ht h hn hs hq⟩

/-- An iteration that samples the inputs after one calculation, and 15 that do not. -/
def rareRounds (z : Bool) : List Round := zRound z :: List.replicate 15 ⟨0, false, zPorts z⟩

/-- A whole homing run with 16 iterations per sampling. -/
def rareRun : List Round := (List.replicate 12 (rareRounds false) ++ List.replicate 16 (rareRounds true)).flatten

/-- A test for `SampledRarely`: `k` iterations without sampling are still required. -/
def rarelyB (n : Nat) : Nat → List Round → Bool
  | _, [] => true
  | k, r :: rs => if r.expired then decide (k = 0) && rarelyB n n rs else rarelyB n (k - 1) rs

private theorem rarelyB_first {n : Nat} : ∀ {rs : List Round} {k : Nat}, rarelyB n k rs = true → ∀ between r' after,
    rs = between ++ r' :: after → r'.expired = true → k ≤ between.length := by
  intro rs
  induction rs with
  | nil => intro k _ between r' after he; simp at he
  | cons r rs ih =>
    intro k h between r' after he hx
    unfold rarelyB at h
    cases between with
    | nil =>
      simp only [List.nil_append, List.cons.injEq] at he
      rw [he.1, if_pos hx, Bool.and_eq_true, decide_eq_true_eq] at h
      exact h.1 ▸ Nat.zero_le _
    | cons x between =>
      simp only [List.cons_append, List.cons.injEq] at he
      split at h
      · rw [Bool.and_eq_true, decide_eq_true_eq] at h
        omega
      · have := ih h between r' after he.2 hx
        rw [List.length_cons]
        omega

private theorem rarelyB_sound {n : Nat} : ∀ {rs : List Round} {k : Nat}, rarelyB n k rs = true → SampledRarely n rs := by
  intro rs
  induction rs with
  | nil => intro k _ before r between r' after he; simp at he
  | cons x rs ih =>
    intro k h before r between r' after he hr hr'
    unfold rarelyB at h
    cases before with
    | nil =>
      simp only [List.nil_append, List.cons.injEq] at he
      rw [he.1, if_pos hr, Bool.and_eq_true] at h
      exact rarelyB_first h.2 between r' after he.2 hr'
    | cons y before =>
      simp only [List.cons_append, List.cons.injEq] at he
      split at h
      · rw [Bool.and_eq_true] at h
        exact ih h.2 before r between r' after he.2 hr hr'
      · exact ih h before r between r' after he.2 hr hr'

/-- The hypotheses of C130 hold for a run in which homing is completed. -/
example : Board.Orderly loopTarget (Board.setup loopTarget (zPorts true)) rareRun ∧ SampledRarely 15 rareRun ∧
    (Board.run loopTarget (zPorts true) rareRun).map (fun b => (b.homer.state, (told b.acts).filter isInput)) =
      some (.found, [.limitSwitchZMaxClosed, .limitSwitchZMaxOpened]) := by
  refine ⟨orderlyB_sound _ _ _ (by decide +kernel), rarelyB_sound (k := 0) (by decide +kernel), by decide +kernel⟩

/-- C130 needs frequent iterations: if each iteration samples the inputs, and all inputs change after every five samples, then events
are lost, although the schedule is orderly. -/
theorem events_have_room_violated : ¬ ∀ (K : MotionKit) (t : Target K) (p : Ports) (rounds : List Round) (b : Board K),
    Board.run t p rounds = some b → Board.Orderly t (Board.setup t p) rounds →
    offered b.calls = told b.acts ++ pending b.calls := by
  intro hall
  have h1 : (Board.run loopTarget (noisyRound true).ports
      (List.replicate 5 (noisyRound false) ++ List.replicate 5 (noisyRound true) ++ List.replicate 5 (noisyRound false))).any
      (fun b => decide (offered b.calls ≠ told b.acts ++ pending b.calls)) = true := by decide +kernel
  obtain ⟨b, hb, h2⟩ := (Option.any_eq_true _ _).1 h1
  rw [decide_eq_true_eq] at h2
  exact h2 (hall _ _ _ _ _ hb (orderlyB_sound _ _ _ (by decide +kernel)))

end Moovr.Props
