import Verif.Model.Plotter
import Verif.Props.Debounce
import Verif.Props.Inputs
/-!
# The program of the plotter (C105)
-/
namespace Moovr.Props
open DebounceSpec Plotter

/-- The pin of the plotter's input `i` — switches.cpp:16-18 and :48. -/
def plotterPin (i : Nat) (p : Ports) : Bool := if i = 8 then p.e.getLsbD 25 else p.d.getLsbD i

/-- What the plotter says when input `i` has settled on a new level: the contacts close to ground, so the low level is "closed". -/
def plotterSays (i : Nat) (level : Bool) : String :=
  match i, level with
  | 0, false => "limitSwitch XMin closed" | 0, true => "limitSwitch XMin opened"
  | 1, false => "limitSwitch XMax closed" | 1, true => "limitSwitch XMax opened"
  | 2, false => "limitSwitch YMin closed" | 2, true => "limitSwitch YMin opened"
  | 3, false => "limitSwitch YMax closed" | 3, true => "limitSwitch YMax opened"
  | 4, false => "limitSwitch ZMin closed" | 4, true => "limitSwitch ZMin opened"
  | 5, false => "limitSwitch ZMax closed" | 5, true => "limitSwitch ZMax opened"
  | 6, false => "emergencyStop button pressed" | 6, true => "emergencyStop button released"
  | 7, false => "feed Hold/Resume button pressed" | 7, true => "feed Hold/Resume button released"
  | _, false => "probeSwitch closed" | _, true => "probeSwitch opened"

private def line (e : Event) : List String := if Event.none ≠ e then [e.name] else []

private theorem fold_inputs (n : Nat) (b : Plotter) :
    ((List.range n).foldl sampleInput b).inputs = b.inputs ∧
    (∀ j, ((List.range n).foldl sampleInput b).myInputs j
      = if j < n then ((b.myInputs j).getEvent (b.inputs.get j)).1 else b.myInputs j) ∧
    ((List.range n).foldl sampleInput b).printed
      = b.printed ++ (List.range n).flatMap fun i => line ((b.myInputs i).getEvent (b.inputs.get i)).2 := by
  induction n with
  | zero => simp
  | succ n ih =>
    obtain ⟨h1, h2, h3⟩ := ih
    rw [List.range_succ, List.foldl_append]
    simp only [List.foldl_cons, List.foldl_nil, sampleInput, h1, h2 n, if_neg (Nat.lt_irrefl n), h3]
    refine ⟨trivial, fun j => ?_, ?_⟩
    · by_cases hj : j = n
      · subst hj; simp
      · simp only [if_neg hj, h2]
        by_cases hl : j < n
        · simp [hl, Nat.lt_succ_of_lt hl]
        · simp [hl, show ¬ j < n + 1 by omega]
    · by_cases he : Event.none ≠ ((b.myInputs n).getEvent (b.inputs.get n)).2
      · simp [line, he]
      · simp [line, he]

private theorem get_pin (s : Inputs) (p : Ports) (i : Nat) (hi : i < 9) : (s.sample p).get i = plotterPin i p := by
  have h := inputs_wired s p
  simp only [wiring, List.forall_mem_cons] at h
  obtain ⟨h0, h1, h2, h3, h4, h5, h6, h7, h8, -⟩ := h
  rcases (by omega : i = 0 ∨ i = 1 ∨ i = 2 ∨ i = 3 ∨ i = 4 ∨ i = 5 ∨ i = 6 ∨ i = 7 ∨ i = 8) with
    rfl | rfl | rfl | rfl | rfl | rfl | rfl | rfl | rfl <;> simp only [plotterPin] <;> assumption

private theorem rounds_print (rounds : List (Option Ports)) (b : Plotter) :
    (rounds.foldl loop b).printed = b.printed ++ (List.range (rounds.filterMap id).length).flatMap fun t =>
      (List.range 9).flatMap fun i =>
        (((b.myInputs i).feed ((rounds.filterMap id).map (plotterPin i))).2[t]?.map line).getD [] := by
  induction rounds generalizing b with
  | nil => simp
  | cons r rs ih =>
    cases r with
    | none => simpa [loop] using ih b
    | some p =>
      rw [List.foldl_cons, ih]
      obtain ⟨-, h2, h3⟩ := fold_inputs 9 { b with inputs := b.inputs.sample p }
      simp only [loop, nmbrInputs, h3, List.append_assoc]
      congr 1
      simp only [List.filterMap_cons_some (f := id) (b := p) rfl, List.length_cons,
        List.range_succ_eq_map (n := (rs.filterMap id).length), List.flatMap_cons,
        List.flatMap_map, List.map_cons, DebouncedInput.feed, List.getElem?_cons_zero, List.getElem?_cons_succ, Option.map_some,
        Option.getD_some]
      congr 1
      · refine List.flatMap_congr fun i hi => ?_
        rw [get_pin _ _ _ (List.mem_range.1 hi)]
      · refine List.flatMap_congr fun t _ => List.flatMap_congr fun i hi => ?_
        rw [h2 i, if_pos (List.mem_range.1 hi), get_pin _ _ _ (List.mem_range.1 hi)]

/-- **C105.** Whatever the ports read and whenever the timer expires, the plotter prints, after the greeting, exactly the justified
changes of its nine inputs, by their names, in the order of the samples and, within a sample, in the order of the inputs. -/
theorem plotter_prints (p : Ports) (rounds : List (Option Ports)) :
    ∃ reports : Nat → List (Option Bool),
      (∀ i < 9, Reports (plotterPin i p) [] ((rounds.filterMap id).map (plotterPin i)) (reports i)) ∧
      (run p rounds).printed = "Moovr T0.1 - cnc3axis" ::
        (List.range (rounds.filterMap id).length).flatMap fun t =>
          (List.range 9).filterMap fun i => ((reports i)[t]?.join).map (plotterSays i) := by
  choose reports h1 h2 using fun i : Nat =>
    debounce_reports_justified_changes (myInputs₀ i) (plotterPin i p) ((rounds.filterMap id).map (plotterPin i))
  refine ⟨reports, fun i _ => h1 i, ?_⟩
  rw [run, rounds_print]
  simp only [setup, List.singleton_append]
  congr 1
  refine List.flatMap_congr fun t _ => ?_
  rw [List.filterMap_eq_flatMap_toList (l := List.range 9)]
  refine List.flatMap_congr fun i hi => ?_
  have hi' : i < 9 := List.mem_range.1 hi
  rw [if_pos (show i < nmbrInputs from hi'), get_pin _ _ _ hi', h2 i, List.getElem?_map]
  rcases (reports i)[t]? with _ | (_ | _ | _)
  · rfl
  · rfl
  all_goals
    rcases (by omega : i = 0 ∨ i = 1 ∨ i = 2 ∨ i = 3 ∨ i = 4 ∨ i = 5 ∨ i = 6 ∨ i = 7 ∨ i = 8) with
      rfl | rfl | rfl | rfl | rfl | rfl | rfl | rfl | rfl <;> rfl

/-- **C105**: while no timer expires nothing is printed and nothing changes. -/
theorem plotter_waits (p : Ports) (rounds : List (Option Ports)) (n : Nat) :
    run p (rounds ++ List.replicate n none) = run p rounds := by
  rw [run, List.foldl_append]
  induction n with
  | zero => rfl
  | succ n ih => simpa [List.replicate_succ, loop] using ih

private def high : Ports := ⟨0x00030000#32, 0xFF#32, 0x03000000#32⟩

/-- The X minimum switch closes, bounces once, and is reported once; the probe follows. -/
example : (run high ((some high :: none :: List.replicate 3 (some { high with d := 0xFE#32 })) ++ [some high]
      ++ List.replicate 6 (some { high with d := 0xFE#32, e := 0#32 }))).printed
    = ["Moovr T0.1 - cnc3axis", "limitSwitch XMin closed", "probeSwitch closed"] := by decide +kernel

end Moovr.Props
