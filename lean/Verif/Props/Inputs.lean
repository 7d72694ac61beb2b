import Verif.Lemmas.Inputs
/-!
# Inputs (C62)
-/
namespace Moovr.Props

/-- The wiring of the board: input, port, pin — switches.cpp:16-18, with inputs 8 and 9 swapped as on the board (:48). -/
def wiring : List (Nat × (Ports → BitVec 32) × Nat) :=
  [(0, Ports.d, 0), (1, Ports.d, 1), (2, Ports.d, 2), (3, Ports.d, 3), (4, Ports.d, 4), (5, Ports.d, 5), (6, Ports.d, 6), (7, Ports.d, 7),
   (8, Ports.e, 25), (9, Ports.e, 24), (10, Ports.a, 16), (11, Ports.a, 17)]

/-- C62: after sampling, every wired input reads its own pin, for all readings of the ports, whatever was sampled before. -/
theorem inputs_wired (s : Inputs) (p : Ports) : ∀ w ∈ wiring, (s.sample p).get w.1 = (w.2.1 p).getLsbD w.2.2 := by
  intro w hw
  have hlt : w.1 < 12 := by
    simp only [wiring, List.mem_cons, List.not_mem_nil, or_false] at hw
    rcases hw with rfl | rfl | rfl | rfl | rfl | rfl | rfl | rfl | rfl | rfl | rfl | rfl <;> decide
  have hg : (s.sample p).get w.1 = (s.sample p).theInputs.getLsbD w.1 := by
    rw [Inputs.get, if_neg (by simpa [Inputs.nmbrInputs] using hlt), Inputs.testBit _ _ (by omega)]
  rw [hg]
  simp only [wiring, List.mem_cons, List.not_mem_nil, or_false] at hw
  simp only [Inputs.sample, Inputs.inputMask, BitVec.getLsbD_xor, BitVec.getLsbD_or, BitVec.getLsbD_and, BitVec.getLsbD_ushiftRight]
  rcases hw with rfl | rfl | rfl | rfl | rfl | rfl | rfl | rfl | rfl | rfl | rfl | rfl <;> simp

/-- C62: other indices read false. -/
theorem inputs_beyond (s : Inputs) (i : Nat) (hi : ∀ w ∈ wiring, w.1 ≠ i) : s.get i = false := by
  have : 12 ≤ i := by
    refine Nat.le_of_not_lt fun h => ?_
    have hm : i ∈ List.range 12 := List.mem_range.2 (by omega)
    have : ∀ j ∈ List.range 12, j ∈ wiring.map (·.1) := by decide
    obtain ⟨w, hw, e⟩ := List.mem_map.1 (this i hm)
    exact hi w hw e
  simp [Inputs.get, Inputs.nmbrInputs, this]

/-- Input 8 is pin 25 of port E, alone. -/
example : ((Inputs.fresh.sample ⟨0, 0, 0x02000000#32⟩).get 8, (Inputs.fresh.sample ⟨0, 0, 0x02000000#32⟩).get 9,
    (Inputs.fresh.sample ⟨0x00010000#32, 0x81#32, 0⟩).get 0, (Inputs.fresh.sample ⟨0x00010000#32, 0x81#32, 0⟩).get 10) =
    (true, false, true, true) := by decide

end Moovr.Props
