import Verif.Model.GCode
/-!
# Meaning of the words of a block

Which words a block contains, and which setting a word names, after NIST RS274NGC. Codes are in tenths (`591` is 59.1).
-/
namespace Moovr.GCode

/-- A word with a letter and code; a word with a letter. -/
def Code (l : Char) (k : Nat) (w : Word) : Prop := w.letter = l.toNat ∧ w.intNumber = k
def WithLetter (l : Char) (w : Word) : Prop := w.letter = l.toNat

instance (l : Char) (k : Nat) : DecidablePred (Code l k) := fun w => by unfold Code; infer_instance
instance (l : Char) : DecidablePred (WithLetter l) := fun w => by unfold WithLetter; infer_instance

/-- A word among the words: with a code; with a letter and value; with a letter. -/
def HasCode (ws : List Word) (l : Char) (k : Nat) : Prop := ∃ w ∈ ws, Code l k w
def HasVal (ws : List Word) (l : Char) (x : ℚ) : Prop := ∃ w ∈ ws, WithLetter l w ∧ w.number = x
def HasLetter (ws : List Word) (l : Char) : Prop := ∃ w ∈ ws, WithLetter l w

instance (ws : List Word) (l : Char) (k : Nat) : Decidable (HasCode ws l k) := by unfold HasCode; infer_instance
instance (ws : List Word) (l : Char) (x : ℚ) : Decidable (HasVal ws l x) := by unfold HasVal; infer_instance
instance (ws : List Word) (l : Char) : Decidable (HasLetter ws l) := by unfold HasLetter; infer_instance

/-- A modal group: its codes with the setting they name. -/
abbrev GroupTable (α : Type) := List (Char × Nat × α)

def motionGroup : GroupTable MotionMode := [('G', 0, .G0), ('G', 10, .G1), ('G', 20, .G2), ('G', 30, .G3)]
def planeGroup : GroupTable PlaneMode := [('G', 170, .G17), ('G', 180, .G18), ('G', 190, .G19)]
def distanceGroup : GroupTable DistanceMode := [('G', 900, .G90), ('G', 910, .G91)]
def feedGroup : GroupTable FeedMode := [('G', 930, .G93), ('G', 940, .G94)]
def unitGroup : GroupTable UnitMode := [('G', 200, .G20), ('G', 210, .G21)]
def coordGroup : GroupTable CoordSet :=
  [('G', 540, .G54), ('G', 550, .G55), ('G', 560, .G56), ('G', 570, .G57), ('G', 580, .G58), ('G', 590, .G59),
   ('G', 591, .G59_1), ('G', 592, .G59_2), ('G', 593, .G59_3)]
def spindleGroup : GroupTable SpindleMode := [('M', 30, .M3), ('M', 40, .M4), ('M', 50, .M5)]
def overrideGroup : GroupTable OverrideMode := [('M', 480, .M48), ('M', 490, .M49)]
/-- The two coolants can be on at the same time; M9 switches both off. -/
def floodGroup : GroupTable FloodMode := [('M', 70, .M7), ('M', 90, .M9)]
def mistGroup : GroupTable MistMode := [('M', 80, .M8), ('M', 90, .M9)]

/-- A word of a group. -/
def InGroup {α : Type} (t : GroupTable α) (w : Word) : Prop := ∃ e ∈ t, Code e.1 e.2.1 w

/-- Two words of a group. -/
def Twice (P : Word → Prop) (ws : List Word) : Prop := ∃ u v, [u, v].Sublist ws ∧ P u ∧ P v

theorem twice_cons (P : Word → Prop) (a : Word) (ws : List Word) :
    Twice P (a :: ws) ↔ (P a ∧ ∃ v ∈ ws, P v) ∨ Twice P ws := by
  constructor
  · rintro ⟨u, v, hs, hu, hv⟩
    cases hs with
    | cons _ h => exact .inr ⟨u, v, h, hu, hv⟩
    | cons_cons _ h => exact .inl ⟨hu, v, List.singleton_sublist.1 h, hv⟩
  · rintro (⟨ha, v, hm, hv⟩ | ⟨u, v, hs, hu, hv⟩)
    · exact ⟨a, v, (List.singleton_sublist.2 hm).cons_cons a, ha, hv⟩
    · exact ⟨u, v, hs.cons a, hu, hv⟩

instance decTwice (P : Word → Prop) [DecidablePred P] : ∀ ws, Decidable (Twice P ws)
  | [] => .isFalse fun ⟨_, _, hs, _⟩ => by simp at hs
  | a :: ws => by
    have := decTwice P ws
    exact decidable_of_iff _ (twice_cons P a ws).symm

instance {α : Type} (t : GroupTable α) : DecidablePred (InGroup t) := fun w => by unfold InGroup; infer_instance

/-- A setting of a group after a block: the one named by the block, otherwise the previous one. -/
structure SetBy {α : Type} (t : GroupTable α) (ws : List Word) (old new : α) : Prop where
  named : ∀ e ∈ t, HasCode ws e.1 e.2.1 → new = e.2.2
  kept : (∀ e ∈ t, ¬ HasCode ws e.1 e.2.1) → new = old

/-- The block was read from a line. -/
def Read (p : Parser) : Prop := ∃ text, Block.ofString text = .ok p.block

/-- The block was read from a line, and possibly some of its words were consumed by earlier calls of `parseBlock`. -/
def Rest (p : Parser) : Prop := ∃ text b, Block.ofString text = .ok b ∧ p.block = { b with words := p.block.words } ∧
  ∃ r : List Word, b.words.Perm (r ++ p.block.words)

/-- A block with G4 and P ≥ 0. -/
def IsDwell (ws : List Word) : Prop := HasCode ws 'G' 40 ∧ ∃ x, 0 ≤ x ∧ HasVal ws 'P' x

/-- No error for colliding words. -/
def NoCollision (e : ParseError) : Prop := e ≠ .modalGroupCollision ∧ e ≠ .valueWordCollision

end Moovr.GCode
