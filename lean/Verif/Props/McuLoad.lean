import Verif.Spec.McuLoad
import Mathlib.Data.Rat.Defs
import Mathlib.Algebra.Order.Ring.Rat
import Mathlib.Order.WithBot
import Mathlib.Tactic.NormNum
/-!
# The load meter (C106)
-/
namespace Moovr.Props
open McuLoad LoadSpec
variable {α : Type} [LinearOrder α]

/-- Passes since the last expiry. -/
private def rest : Nat → List Bool → Nat
  | n, [] => n
  | _, true :: l => rest 0 l
  | n, false :: l => rest (n + 1) l

private theorem intervals_append (n : Nat) (l l' : List Bool) : intervals n (l ++ l') = intervals n l ++ intervals (rest n l) l' := by
  induction l generalizing n with
  | nil => rfl
  | cons a l ih => cases a <;> simp [intervals, rest, ih]

private theorem rest_append (n : Nat) (l l' : List Bool) : rest n (l ++ l') = rest (rest n l) l' := by
  induction l generalizing n with
  | nil => rfl
  | cons a l ih => cases a <;> simp [rest, ih]

private theorem runs_append (h h' : List Call) : runs (h ++ h') = runs h ++ runs h' := List.filterMap_append

private theorem upToRead_snoc (h : List Call) (c : Call) :
    upToRead (h ++ [c]) = if c = .getMaxLoad then h ++ [c] else upToRead h := by
  by_cases hc : c = .getMaxLoad <;> simp [upToRead, List.dropWhile_cons, hc]

private theorem upToRead_le (h : List Call) : (intervals 0 (runs (upToRead h))).length ≤ (intervals 0 (runs h)).length := by
  have : upToRead h <+: h := by
    rw [upToRead]
    have := (List.dropWhile_suffix (l := h.reverse) (· ≠ Call.getMaxLoad))
    simpa using List.reverse_prefix.2 this
  obtain ⟨t, ht⟩ := this
  conv_rhs => rw [← ht, runs_append, intervals_append]
  simp

/-- State of the meter after the calls `h`. -/
private structure Meter (share : Nat → α) (zero : α) (h : List Call) (m : McuLoad α) : Prop where
  counter : m.loopCounter = rest 0 (runs h) % 2 ^ 32
  load : m.load = ((intervals 0 (runs h)).getLast?.map fun n => share (n % 2 ^ 32)).getD zero
  high : (m.maxLoad = zero ∨ ∃ n ∈ recent h, m.maxLoad = share (n % 2 ^ 32)) ∧ zero ≤ m.maxLoad ∧
    ∀ n ∈ recent h, share (n % 2 ^ 32) ≤ m.maxLoad

private theorem Meter.call {share : Nat → α} {zero : α} {h : List Call} {m : McuLoad α} (i : Meter share zero h m) (c : Call) :
    Meter share zero (h ++ [c]) (m.call share zero c).1 := by
  cases c with
  | getLoad =>
    refine ⟨?_, ?_, ?_⟩ <;> simp only [runs_append, recent, upToRead_snoc] <;> simp only [runs] <;> simp
    · exact i.counter
    · exact i.load
    · exact i.high
  | getMaxLoad =>
    refine ⟨?_, ?_, ?_⟩ <;> simp only [runs_append, recent, upToRead_snoc] <;> simp only [runs] <;> simp
    · exact i.counter
    · exact i.load
    · simp [McuLoad.call, getMaxLoad]
  | run e =>
    have hr : runs (h ++ [.run e]) = runs h ++ [e] := by rw [runs_append]; rfl
    have hu : upToRead (h ++ [.run e]) = upToRead h := by rw [upToRead_snoc]; simp
    cases e with
    | false =>
      have hi : intervals 0 (runs (h ++ [.run false])) = intervals 0 (runs h) := by
        rw [hr, intervals_append]; simp [intervals]
      refine ⟨?_, ?_, ?_⟩
      · rw [hr, rest_append]
        simp only [McuLoad.call, run, rest, i.counter, u32add]
        simp
      · rw [hi]; exact i.load
      · rw [recent, hi, hu]; exact i.high
    | true =>
      have hi : intervals 0 (runs (h ++ [.run true])) = intervals 0 (runs h) ++ [rest 0 (runs h)] := by
        rw [hr, intervals_append]; simp [intervals]
      have hc : recent (h ++ [.run true]) = recent h ++ [rest 0 (runs h)] := by
        rw [recent, hi, hu, List.drop_append_of_le_length (upToRead_le h)]; rfl
      refine ⟨?_, ?_, ?_⟩
      · rw [hr, rest_append]; rfl
      · rw [hi]; simp [McuLoad.call, run, i.counter]
      · obtain ⟨h1, h2, h3⟩ := i.high
        rw [hc]
        simp only [McuLoad.call, run, if_true, i.counter, List.mem_append, List.mem_singleton]
        split
        · rename_i hlt
          refine ⟨.inr ⟨_, .inr rfl, rfl⟩, h2.trans hlt.le, ?_⟩
          rintro n (hn | rfl)
          · exact (h3 n hn).trans hlt.le
          · exact le_rfl
        · rename_i hlt
          refine ⟨h1.imp id fun ⟨n, hn, e⟩ => ⟨n, .inl hn, e⟩, h2, ?_⟩
          rintro n (hn | rfl)
          · exact h3 n hn
          · exact not_lt.1 hlt

private theorem meter_fresh (share : Nat → α) (zero : α) : Meter share zero [] (fresh zero) :=
  ⟨rfl, rfl, .inl rfl, le_rfl, by simp [recent, runs, intervals]⟩

private theorem calls_get {share : Nat → α} {zero : α} {g : List Call} {m : McuLoad α} (i : Meter share zero g m) (h : List Call) (k : Nat)
    (hk : k < h.length) : (calls share zero m h)[k]? = some ((calls share zero m h)[k]?.join) ∧
      ∃ m', Meter share zero (g ++ h.take k) m' ∧ (calls share zero m h)[k]?.join = (m'.call share zero h[k]).2 := by
  induction h generalizing g m k with
  | nil => simp at hk
  | cons c h ih =>
    cases k with
    | zero => exact ⟨by simp [calls], m, by simpa using i, by simp [calls]⟩
    | succ k =>
      obtain ⟨h1, m', h2, h3⟩ := ih (i.call c) k (by simpa using hk)
      exact ⟨by simpa [calls] using h1, m', by simpa using h2, by simpa [calls] using h3⟩

/-- **C106.** For every sequence of calls: the load is the share of one pass in the last completed interval of the timer, and the highest load
is that of the intervals completed since it was last read — if no interval has 2^32 passes or more.
Missing: longer intervals (next theorem). -/
theorem load_measured_partial (share : Nat → α) (zero : α) (h : List Call) (hshort : ∀ n ∈ intervals 0 (runs h), n < 2 ^ 32) (k : Nat)
    (hk : k < h.length) :
    ∃ r, (calls share zero (fresh zero) h)[k]? = some r ∧ Answers share zero (h.take k) h[k] r := by
  obtain ⟨h1, m, h2, h3⟩ := calls_get (meter_fresh share zero) h k hk
  rw [List.nil_append] at h2
  refine ⟨_, h1, ?_⟩
  have hsh : ∀ n ∈ intervals 0 (runs (h.take k)), n % 2 ^ 32 = n := by
    intro n hn
    refine Nat.mod_eq_of_lt (hshort n ?_)
    rw [← List.take_append_drop k h, runs_append, intervals_append]
    exact List.mem_append_left _ hn
  have hre : ∀ n ∈ recent (h.take k), n % 2 ^ 32 = n := fun n hn => hsh n (List.mem_of_mem_drop hn)
  rw [h3]
  generalize hc : h[k] = c
  cases c with
  | run e => rfl
  | getLoad =>
    simp only [Answers, McuLoad.call, getLoad, h2.load]
    cases hl : (intervals 0 (runs (h.take k))).getLast? with
    | none => rfl
    | some n => simp only [Option.map_some, Option.getD_some, hsh n (List.mem_of_getLast? hl)]
  | getMaxLoad =>
    obtain ⟨a, b, c⟩ := h2.high
    refine ⟨m.maxLoad, rfl, a.imp id fun ⟨n, hn, e⟩ => ⟨n, hn, by rw [e, hre n hn]⟩, b, fun n hn => ?_⟩
    have := c n hn
    rwa [hre n hn] at this

/-- The quotient of the code, without rounding. -/
def loadQuotient (n : Nat) : WithTop ℚ := if n = 0 then ⊤ else ((10000 / n : ℚ) : WithTop ℚ)

private theorem intervals_idle (m n : Nat) : intervals m (List.replicate n false ++ [true]) = [m + n] := by
  induction n generalizing m with
  | zero => rfl
  | succ n ih => simp only [List.replicate_succ, List.cons_append, intervals, ih]; congr 1; omega

/-- **C106 violated**: after 2^32 passes in one interval — the least load there is — the load is reported as infinite, because the counter
has wrapped. -/
theorem load_measured_violated : ∃ h : List Call, ∃ k, ∃ hk : k < h.length,
    (calls loadQuotient (0 : ℚ) (fresh ((0 : ℚ) : WithTop ℚ)) h)[k]? = some (some ⊤) ∧
      ¬ Answers loadQuotient (0 : ℚ) (h.take k) h[k] (some ⊤) := by
  have key : ∀ n : Nat, n ≠ 0 → n % 2 ^ 32 = 0 → ∃ h : List Call, ∃ k, ∃ hk : k < h.length,
      (calls loadQuotient (0 : ℚ) (fresh ((0 : ℚ) : WithTop ℚ)) h)[k]? = some (some ⊤) ∧
      ¬ Answers loadQuotient (0 : ℚ) (h.take k) h[k] (some ⊤) := by
    intro n h0 hn
    let g : List Call := List.replicate n (.run false) ++ [.run true]
    have hg : g.length = n + 1 := by simp [g]
    have hk : n + 1 < (g ++ [Call.getLoad]).length := by simp [hg]
    have ht : (g ++ [Call.getLoad]).take (n + 1) = g := by rw [← hg, List.take_left]
    have he : (g ++ [Call.getLoad])[n + 1] = .getLoad := by simp [← hg]
    have hi : intervals 0 (runs g) = [n] := by
      have : runs g = List.replicate n false ++ [true] := by
        rw [runs_append]; congr 1
        simp only [runs]
        clear hk ht he hg
        clear_value g
        clear h0 hn
        induction n with
        | zero => rfl
        | succ n ih => simp [List.replicate_succ, ih]
      rw [this, intervals_idle, Nat.zero_add]
    obtain ⟨h1, m, h2, h3⟩ := calls_get (meter_fresh loadQuotient ((0 : ℚ) : WithTop ℚ)) (g ++ [Call.getLoad]) (n + 1) hk
    rw [List.nil_append, ht] at h2
    rw [he] at h3
    refine ⟨g ++ [.getLoad], n + 1, hk, ?_, ?_⟩
    · rw [h1, h3]
      simp only [McuLoad.call, getLoad, h2.load, hi, List.getLast?_singleton, Option.map_some, Option.getD_some, hn]
      rfl
    · rw [he, ht]
      simp only [Answers, hi, List.getLast?_singleton, Option.map_some, Option.getD_some, loadQuotient, h0, if_false, Option.some.injEq]
      exact WithTop.top_ne_coe
  exact key (2 ^ 32) (by norm_num) (by norm_num)

/-- Three passes, then one, then none: the loads, and the high-water marks before and after. -/
example : calls (fun n => n) 0 (fresh 0) ([.run false, .run false, .run false, .run true, .getLoad, .run false, .run true, .getLoad,
      .getMaxLoad, .run true, .getLoad, .getMaxLoad])
    = [none, none, none, none, some 3, none, none, some 1, some 3, none, some 0, some 0] := by decide

end Moovr.Props
