import Verif.Model.Event
/-!
# Specification of the step buffer

Independent of the ring-buffer model: the list of all accepted entries and the number of entries handed out.
-/
namespace Moovr

/-- `struct step` — lib/outputs_stepper_motor/step.h:11-14. `timeBefore` is a `uint32_t`; it is a natural number
here (theorems that need it below 2^32 say so). -/
structure Step where
  timeBefore : Nat
  signals : BitVec 32
  deriving DecidableEq, Repr

namespace StepQueueSpec

/-- The public calls of `stepBuffer` other than `initialize` (lib/outputs_stepper_motor/stepbuffer.h:18-24). -/
inductive Call where
  | write (s : Step)
  | read
  | needsFilling
  | getTimeInTicks
  | getLevel
  | getLastError
  deriving DecidableEq, Repr

/-- What a call returns. -/
inductive Ret where
  | unit
  | step (s : Step)
  | bool (b : Bool)
  | nat (n : Nat)
  | event (e : Event)
  deriving DecidableEq, Repr

/-- Capacity of the buffer. -/
def capacity : Nat := 256

/-- All entries accepted so far (oldest first), and how many of them have been handed out. -/
structure Trace where
  written : List Step
  reads : Nat
  deriving DecidableEq, Repr

/-- Number of entries waiting. -/
def Trace.waiting (t : Trace) : Nat := t.written.length - t.reads

/-- Effect of a call. -/
def next (t : Trace) : Call → Trace
  | .write s => if t.waiting < capacity then { t with written := t.written ++ [s] } else t
  | .read => if 0 < t.waiting then { t with reads := t.reads + 1 } else t
  | _ => t

/-- The trace after a history of calls (first call first) on a buffer primed with the entries `prime`. -/
def trace (prime : List Step) (calls : List Call) : Trace := calls.foldl next ⟨prime, 0⟩

/-- The incident, if any, caused by a call. -/
def incident (t : Trace) : Call → Option Event
  | .write _ => if t.waiting < capacity then none else some .stepBufferOverflow
  | .read => if 0 < t.waiting then none else some .stepBufferUnderflow
  | _ => none

/-- The error that `getLastError` must report after a history given *latest call first*; `e₀` is the flag at the
start. -/
def lastErrorRev (prime : List Step) (e₀ : Event) : List Call → Event
  | [] => e₀
  | .getLastError :: _ => .none
  | c :: earlier => (incident (trace prime earlier.reverse) c).getD (lastErrorRev prime e₀ earlier)

/-- Sum of the times of a list of entries. -/
def sumTime (l : List Step) : Nat := (l.map Step.timeBefore).sum

/-- The entries handed out by successful reads, given the trace before the history and a log *latest call first*
(an unsuccessful read hands out nothing). -/
def handedOutRev (prime : List Step) : List (Call × Ret) → List Step
  | [] => []
  | (.read, .step s) :: earlier =>
    if 0 < (trace prime (earlier.reverse.map Prod.fst)).waiting
    then handedOutRev prime earlier ++ [s] else handedOutRev prime earlier
  | _ :: earlier => handedOutRev prime earlier

/-- Every read in the history (given *latest call first*) found at least three entries waiting. -/
def FedRev (prime : List Step) : List Call → Prop
  | [] => True
  | .read :: earlier => 3 ≤ (trace prime earlier.reverse).waiting ∧ FedRev prime earlier
  | _ :: earlier => FedRev prime earlier

/-- `FedRev` is decidable. -/
instance decidableFedRev (prime : List Step) : (hist : List Call) → Decidable (FedRev prime hist)
  | [] => isTrue trivial
  | .read :: earlier => @instDecidableAnd _ _ _ (decidableFedRev prime earlier)
  | .write _ :: earlier => decidableFedRev prime earlier
  | .needsFilling :: earlier => decidableFedRev prime earlier
  | .getTimeInTicks :: earlier => decidableFedRev prime earlier
  | .getLevel :: earlier => decidableFedRev prime earlier
  | .getLastError :: earlier => decidableFedRev prime earlier

/-- The `n` entries with which `initialize` primes a buffer with the given minima: no signals, the minimum time
spread evenly (rounded down). -/
def priming (n minTime minLevel : Nat) : List Step := List.replicate n ⟨minTime / minLevel, 0⟩

end StepQueueSpec
end Moovr
