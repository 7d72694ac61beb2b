import Verif.Lemmas.GCode
/-!
# The state in which a block is executed
-/
namespace Moovr.GCode
open Parser

/-! ## Blocks with given words -/

/-- The letter for which a word is counted. -/
def letterOf (w : Word) : Option Letter :=
  if w.letter = 'G'.toNat ∨ w.letter = 'M'.toNat then none else Letter.ofChar w.letter

/-- Adding a word to a block, as when reading a line. -/
def addWord (b : Block) (w : Word) : Block := { b.countWord w with words := b.words ++ [w] }

/-- The block with the given words. -/
def ofWords (ws : List Word) : Block := ws.foldl addWord .empty

theorem foldl_words (ws : List Word) : ∀ b : Block, (ws.foldl addWord b).words = b.words ++ ws := by
  induction ws with
  | nil => simp
  | cons w ws ih => intro b; rw [List.foldl_cons, ih]; simp [addWord]

theorem foldl_group (g : ModalGroup) (ws : List Word) : ∀ b : Block, (ws.foldl addWord b).modalGroupCount g =
    b.modalGroupCount g + (ws.map fun w => (Block.groupsOf w).count g).sum := by
  induction ws with
  | nil => simp
  | cons w ws ih => intro b; rw [List.foldl_cons, ih]; simp [addWord, Block.countWord]; omega

theorem foldl_letter (l : Letter) (ws : List Word) : ∀ b : Block, (ws.foldl addWord b).valueWordCount l =
    b.valueWordCount l + ws.countP fun w => letterOf w = some l := by
  induction ws with
  | nil => simp
  | cons w ws ih =>
    intro b; rw [List.foldl_cons, ih, List.countP_cons]
    have e : (addWord b w).valueWordCount l = b.valueWordCount l + if letterOf w = some l then 1 else 0 := rfl
    rw [e]
    simp only [decide_eq_true_eq]
    omega

theorem foldl_axis (ws : List Word) : ∀ b : Block, (ws.foldl addWord b).nmbrAxis =
    b.nmbrAxis + ws.countP fun w => letterOf w = some .X ∨ letterOf w = some .Y ∨ letterOf w = some .Z := by
  induction ws with
  | nil => simp
  | cons w ws ih =>
    intro b; rw [List.foldl_cons, ih, List.countP_cons]
    have e : (addWord b w).nmbrAxis = b.nmbrAxis + if letterOf w = some .X ∨ letterOf w = some .Y ∨ letterOf w = some .Z then 1 else 0 := rfl
    rw [e]
    simp only [decide_eq_true_eq]
    omega

theorem foldl_offset (ws : List Word) : ∀ b : Block, (ws.foldl addWord b).nmbrOffsets =
    b.nmbrOffsets + ws.countP fun w => letterOf w = some .I ∨ letterOf w = some .J ∨ letterOf w = some .K := by
  induction ws with
  | nil => simp
  | cons w ws ih =>
    intro b; rw [List.foldl_cons, ih, List.countP_cons]
    have e : (addWord b w).nmbrOffsets = b.nmbrOffsets + if letterOf w = some .I ∨ letterOf w = some .J ∨ letterOf w = some .K then 1 else 0 := rfl
    rw [e]
    simp only [decide_eq_true_eq]
    omega

theorem foldl_radius (ws : List Word) : ∀ b : Block, (ws.foldl addWord b).nmbrRadius =
    b.nmbrRadius + ws.countP fun w => letterOf w = some .R := by
  induction ws with
  | nil => simp
  | cons w ws ih =>
    intro b; rw [List.foldl_cons, ih, List.countP_cons]
    have e : (addWord b w).nmbrRadius = b.nmbrRadius + if letterOf w = some .R then 1 else 0 := rfl
    rw [e]
    simp only [decide_eq_true_eq]
    omega

theorem ofWords_words (ws : List Word) : (ofWords ws).words = ws := by simp [ofWords, foldl_words, Block.empty]

/-- The character of a letter. -/
def charOf : Letter → Char
  | .X => 'X' | .Y => 'Y' | .Z => 'Z' | .I => 'I' | .J => 'J' | .K => 'K' | .L => 'L' | .F => 'F' | .N => 'N' | .P => 'P'
  | .R => 'R' | .S => 'S' | .T => 'T'

theorem letterOf_iff {w : Word} {l : Letter} (h : l ≠ .T) : letterOf w = some l ↔ WithLetter (charOf l) w := by
  unfold letterOf WithLetter
  generalize w.letter = c
  constructor
  · intro hc
    by_cases hg : c = 'G'.toNat ∨ c = 'M'.toNat
    · rw [if_pos hg] at hc; cases hc
    rw [if_neg hg] at hc
    unfold Letter.ofChar at hc
    by_cases hF : c = 'F'.toNat
    · rw [if_pos hF] at hc; cases hc; exact hF
    rw [if_neg hF] at hc
    by_cases hL : c = 'L'.toNat
    · rw [if_pos hL] at hc; cases hc; exact hL
    rw [if_neg hL] at hc
    by_cases hN : c = 'N'.toNat
    · rw [if_pos hN] at hc; cases hc; exact hN
    rw [if_neg hN] at hc
    by_cases hP : c = 'P'.toNat
    · rw [if_pos hP] at hc; cases hc; exact hP
    rw [if_neg hP] at hc
    by_cases hR : c = 'R'.toNat
    · rw [if_pos hR] at hc; cases hc; exact hR
    rw [if_neg hR] at hc
    by_cases hS : c = 'S'.toNat
    · rw [if_pos hS] at hc; cases hc; exact hS
    rw [if_neg hS] at hc
    by_cases hX : c = 'X'.toNat
    · rw [if_pos hX] at hc; cases hc; exact hX
    rw [if_neg hX] at hc
    by_cases hY : c = 'Y'.toNat
    · rw [if_pos hY] at hc; cases hc; exact hY
    rw [if_neg hY] at hc
    by_cases hZ : c = 'Z'.toNat
    · rw [if_pos hZ] at hc; cases hc; exact hZ
    rw [if_neg hZ] at hc
    by_cases hI : c = 'I'.toNat
    · rw [if_pos hI] at hc; cases hc; exact hI
    rw [if_neg hI] at hc
    by_cases hJ : c = 'J'.toNat
    · rw [if_pos hJ] at hc; cases hc; exact hJ
    rw [if_neg hJ] at hc
    by_cases hK : c = 'K'.toNat
    · rw [if_pos hK] at hc; cases hc; exact hK
    rw [if_neg hK] at hc
    cases hc
  · rintro rfl
    cases l <;> first | exact absurd rfl h | decide

/-- `hasAxis`, `hasOffset`, `hasRadius` say which letters the line had. -/
structure Counted (b : Block) (ws : List Word) : Prop where
  axis : b.hasAxis = true ↔ HasLetter ws 'X' ∨ HasLetter ws 'Y' ∨ HasLetter ws 'Z'
  offset : b.hasOffset = true ↔ HasLetter ws 'I' ∨ HasLetter ws 'J' ∨ HasLetter ws 'K'
  radius : b.hasRadius = true ↔ HasLetter ws 'R'

theorem counted_ofWords (ws : List Word) : Counted (ofWords ws) ws := by
  refine ⟨?_, ?_, ?_⟩
  · unfold Block.hasAxis ofWords
    rw [decide_eq_true_eq, foldl_axis]
    simp only [Block.empty, Nat.zero_add, decide_eq_true_eq, List.countP_pos_iff, letterOf_iff (show Letter.X ≠ .T by simp),
      letterOf_iff (show Letter.Y ≠ .T by simp), letterOf_iff (show Letter.Z ≠ .T by simp), HasLetter, charOf]
    constructor
    · rintro ⟨w, h, h1 | h1 | h1⟩
      exacts [.inl ⟨w, h, h1⟩, .inr (.inl ⟨w, h, h1⟩), .inr (.inr ⟨w, h, h1⟩)]
    · rintro (⟨w, h, h1⟩ | ⟨w, h, h1⟩ | ⟨w, h, h1⟩)
      exacts [⟨w, h, .inl h1⟩, ⟨w, h, .inr (.inl h1)⟩, ⟨w, h, .inr (.inr h1)⟩]
  · unfold Block.hasOffset ofWords
    rw [decide_eq_true_eq, foldl_offset]
    simp only [Block.empty, Nat.zero_add, decide_eq_true_eq, List.countP_pos_iff, letterOf_iff (show Letter.I ≠ .T by simp),
      letterOf_iff (show Letter.J ≠ .T by simp), letterOf_iff (show Letter.K ≠ .T by simp), HasLetter, charOf]
    constructor
    · rintro ⟨w, h, h1 | h1 | h1⟩
      exacts [.inl ⟨w, h, h1⟩, .inr (.inl ⟨w, h, h1⟩), .inr (.inr ⟨w, h, h1⟩)]
    · rintro (⟨w, h, h1⟩ | ⟨w, h, h1⟩ | ⟨w, h, h1⟩)
      exacts [⟨w, h, .inl h1⟩, ⟨w, h, .inr (.inl h1)⟩, ⟨w, h, .inr (.inr h1)⟩]
  · unfold Block.hasRadius ofWords
    rw [decide_eq_true_eq, foldl_radius]
    simp only [Block.empty, Nat.zero_add, decide_eq_true_eq, List.countP_pos_iff, letterOf_iff (show Letter.R ≠ .T by simp),
      HasLetter, charOf]

/-- A line yields the block of its words. -/
theorem readWords_ofWords : ∀ (n : Nat) (line : List Nat) (ws : List Word) (b : Block),
    Block.readWords n line (ofWords ws) = .ok b → ∃ ws', b = ofWords ws' := by
  intro n
  induction n with
  | zero => intro line ws b h; simp only [Block.readWords, Except.ok.injEq] at h; exact ⟨ws, h.symm⟩
  | succ n ih =>
    intro line ws b h
    cases line with
    | nil => simp only [Block.readWords, Except.ok.injEq] at h; exact ⟨ws, h.symm⟩
    | cons c line =>
      unfold Block.readWords at h
      split_ifs at h
      · rcases hr : Block.readNumber [] line with e | ⟨t, r⟩
        · rw [hr] at h; simp at h
        · rw [hr] at h
          simp only at h
          rcases hi : Block.intNumberOf c (strtod t) with e | k
          · rw [hi] at h; simp at h
          · rw [hi] at h
            simp only at h
            refine ih r (ws ++ [⟨c, strtod t, k⟩]) b ?_
            rw [← h]
            unfold ofWords
            rw [List.foldl_append]
            rfl
      · exact ih _ _ _ h
      · exact ⟨ws, (Except.ok.inj h).symm⟩

theorem ofString_ofWords {text : List Nat} {b : Block} (h : Block.ofString text = .ok b) : ∃ ws, b = ofWords ws := by
  unfold Block.ofString at h
  rcases hs : Block.strip false [] text with e | line
  · rw [hs] at h; simp at h
  · rw [hs] at h
    exact readWords_ofWords _ _ [] b h

/-! ## No collisions -/

theorem eq_of_countP_le_one {α : Type} {q : α → Bool} : ∀ {l : List α}, l.countP q ≤ 1 → ∀ {a b : α}, a ∈ l → b ∈ l →
    q a = true → q b = true → a = b := by
  intro l
  induction l with
  | nil => intro _ a b ha; simp at ha
  | cons x l ih =>
    intro h a b ha hb qa qb
    rw [List.countP_cons] at h
    have hz : q x = true → ∀ y ∈ l, q y = true → False := by
      intro hx y hy qy
      have : 0 < l.countP q := List.countP_pos_iff.2 ⟨y, hy, qy⟩
      rw [if_pos hx] at h; omega
    rcases List.mem_cons.1 ha with ea | ha' <;> rcases List.mem_cons.1 hb with eb | hb'
    · rw [ea, eb]
    · exact (hz (ea ▸ qa) b hb' qb).elim
    · exact (hz (eb ▸ qb) a ha' qa).elim
    · exact ih (by omega) ha' hb' qa qb

theorem eq_of_sum_le_one {α : Type} {f : α → Nat} : ∀ {l : List α}, (l.map f).sum ≤ 1 → ∀ {a b : α}, a ∈ l → b ∈ l →
    0 < f a → 0 < f b → a = b := by
  intro l
  induction l with
  | nil => intro _ a b ha; simp at ha
  | cons x l ih =>
    intro h a b ha hb fa fb
    rw [List.map_cons, List.sum_cons] at h
    have hz : 0 < f x → ∀ y ∈ l, 0 < f y → False := by
      intro hx y hy fy
      have : f y ≤ (l.map f).sum := List.single_le_sum (by simp) _ (List.mem_map_of_mem hy)
      omega
    rcases List.mem_cons.1 ha with ea | ha' <;> rcases List.mem_cons.1 hb with eb | hb'
    · rw [ea, eb]
    · exact (hz (ea ▸ fa) b hb' fb).elim
    · exact (hz (eb ▸ fb) a ha' fa).elim
    · exact ih (by omega) ha' hb' fa fb

/-- No two words of a counted group. -/
theorem group_unique {ws : List Word} (h : (ofWords ws).hasModalGroupViolation = false) {g : ModalGroup} {w w' : Word}
    (hw : w ∈ ws) (hw' : w' ∈ ws) (hg : g ∈ Block.groupsOf w) (hg' : g ∈ Block.groupsOf w') : w = w' := by
  unfold Block.hasModalGroupViolation ofWords at h
  rw [List.any_eq_false] at h
  have := h g (by cases g <;> simp [ModalGroup.all])
  rw [foldl_group] at this
  simp only [Block.empty, Nat.zero_add, decide_eq_true_eq, not_lt] at this
  exact eq_of_sum_le_one this hw hw' (List.count_pos_iff.2 hg) (List.count_pos_iff.2 hg')

/-- No two words with the same letter. -/
theorem letter_unique {ws : List Word} (h : (ofWords ws).hasLetterWordViolation = false) {l : Letter} (hl : l ≠ .T)
    {w w' : Word} (hw : w ∈ ws) (hw' : w' ∈ ws) (h1 : WithLetter (charOf l) w) (h2 : WithLetter (charOf l) w') : w = w' := by
  unfold Block.hasLetterWordViolation ofWords at h
  rw [List.any_eq_false] at h
  have := h l (by cases l <;> simp [Letter.all])
  rw [foldl_letter] at this
  simp only [Block.empty, Nat.zero_add, decide_eq_true_eq, not_lt] at this
  exact eq_of_countP_le_one this hw hw' (by simpa using (letterOf_iff hl).2 h1) (by simpa using (letterOf_iff hl).2 h2)

theorem val_unique {ws : List Word} (h : (ofWords ws).hasLetterWordViolation = false) {l : Letter} (hl : l ≠ .T)
    {x y : ℚ} (hx : HasVal ws (charOf l) x) (hy : HasVal ws (charOf l) y) : x = y := by
  obtain ⟨w, hw, h1, rfl⟩ := hx
  obtain ⟨w', hw', h2, rfl⟩ := hy
  rw [letter_unique h hl hw hw' h1 h2]

/-! ## The settings -/

/-- The first of the alternatives that is among the words. -/
def pick {α : Type} (ws : List Word) (l : Char) : List (Nat × α) → α → α
  | [], a => a
  | (k, v) :: t, a => if HasCode ws l k then v else pick ws l t a

theorem pick_none {α : Type} {ws : List Word} {l : Char} {t : List (Nat × α)} {a : α}
    (h : ∀ k v, (k, v) ∈ t → ¬ HasCode ws l k) : pick ws l t a = a := by
  induction t with
  | nil => rfl
  | cons x t ih =>
    obtain ⟨k, v⟩ := x
    unfold pick
    rw [if_neg (h k v (by simp)), ih fun k v hk => h k v (by simp [hk])]

theorem pick_one {α : Type} {ws : List Word} {l : Char} {t : List (Nat × α)} {a : α} {k : Nat} {v : α} (hk : (k, v) ∈ t)
    (hc : HasCode ws l k) (hu : ∀ k' v', (k', v') ∈ t → HasCode ws l k' → v' = v) : pick ws l t a = v := by
  induction t with
  | nil => simp at hk
  | cons x t ih =>
    obtain ⟨k', v'⟩ := x
    unfold pick
    split_ifs with h
    · exact hu k' v' (by simp) h
    · refine ih ?_ fun k v hk => hu k v (by simp [hk])
      rcases List.mem_cons.1 hk with e | hk
      · injection e with e1 e2; subst e1; exact absurd hc h
      · exact hk

theorem pick_congr {α : Type} {ws ws' : List Word} {l : Char} {t : List (Nat × α)} {a : α}
    (h : ∀ k v, (k, v) ∈ t → (HasCode ws l k ↔ HasCode ws' l k)) : pick ws l t a = pick ws' l t a := by
  induction t with
  | nil => rfl
  | cons x t ih =>
    obtain ⟨k, v⟩ := x
    unfold pick
    rw [ih fun k v hk => h k v (by simp [hk])]
    simp only [h k v (by simp)]

def feedModes : List (Nat × FeedMode) := [(930, .G93), (940, .G94)]
def spindleModes : List (Nat × SpindleMode) := [(30, .M3), (40, .M4), (50, .M5)]
def floodModes : List (Nat × FloodMode) := [(90, .M9), (70, .M7)]
def mistModes : List (Nat × MistMode) := [(90, .M9), (80, .M8)]
def overrideModes : List (Nat × OverrideMode) := [(480, .M48), (490, .M49)]
def planeModes : List (Nat × PlaneMode) := [(170, .G17), (180, .G18), (190, .G19)]
def unitModes : List (Nat × UnitMode) := [(200, .G20), (210, .G21)]
def distanceModes : List (Nat × DistanceMode) := [(900, .G90), (910, .G91)]
def coordModes : List (Nat × CoordSet) :=
  [(540, .G54), (550, .G55), (560, .G56), (570, .G57), (580, .G58), (590, .G59), (591, .G59_1), (592, .G59_2), (593, .G59_3)]

/-- Words removed by the settings before and after the dwell. -/
def Kind1 (w : Word) : Prop :=
  (w.letter = 'M'.toNat ∧ w.intNumber ∈ [30, 40, 50, 70, 80, 90, 480, 490]) ∨
  ∃ l ∈ [Letter.X, .Y, .Z, .I, .J, .K, .R, .N, .F, .S], WithLetter (charOf l) w
def Kind2 (w : Word) : Prop :=
  w.letter = 'G'.toNat ∧ w.intNumber ∈
    [170, 180, 190, 200, 210, 540, 550, 560, 570, 580, 590, 591, 592, 593, 900, 910]

/-- The letter values read from the words. -/
def Reads (ws : List Word) (old new : Letter → ℚ) (l : Letter) : Prop :=
  (HasLetter ws (charOf l) → HasVal ws (charOf l) (new l)) ∧ (¬ HasLetter ws (charOf l) → new l = old l)

/-- The state after the settings before the dwell. -/
structure Ready1 (ws : List Word) (s s' : State) : Prop where
  modal : s'.modal = { s.modal with
    feedRate := pick ws 'G' feedModes s.modal.feedRate
    spindle := pick ws 'M' spindleModes s.modal.spindle
    coolantFlood := pick ws 'M' floodModes s.modal.coolantFlood
    coolantMist := pick ws 'M' mistModes s.modal.coolantMist
    manualOverride := pick ws 'M' overrideModes s.modal.manualOverride }
  letters : ∀ l ∈ [Letter.X, .Y, .Z, .I, .J, .K, .R], Reads ws s.letterValue s'.letterValue l
  feed : (∃ x, 0 < x ∧ HasVal ws 'F' x ∧ s'.letterValue .F = x) ∨
    ((HasLetter ws 'F' → ∃ x, x ≤ 0 ∧ HasVal ws 'F' x) ∧
      ((HasCode ws 'G' 930 ∨ HasCode ws 'G' 940) → s'.letterValue .F = 0) ∧
      (¬ (HasCode ws 'G' 930 ∨ HasCode ws 'G' 940) → s'.letterValue .F = s.letterValue .F))
  speed : (∃ x, 0 ≤ x ∧ HasVal ws 'S' x ∧ s'.letterValue .S = x) ∨
    ((HasLetter ws 'S' → ∃ x, x < 0 ∧ HasVal ws 'S' x) ∧ s'.letterValue .S = s.letterValue .S)
  other : ∀ l ∈ [Letter.P, .L, .T], s'.letterValue l = s.letterValue l

theorem reads_mono {ws ws' : List Word} {old mid new new' : Letter → ℚ} {l : Letter} (h : Reads ws' mid new l)
    (hv : ∀ x, HasVal ws' (charOf l) x ↔ HasVal ws (charOf l) x) (h1 : mid l = old l) (h2 : new' l = new l) :
    Reads ws old new' l := by
  have hl : HasLetter ws' (charOf l) ↔ HasLetter ws (charOf l) :=
    ⟨fun ⟨w, a, b⟩ => (fun ⟨w', a', b', _⟩ => ⟨w', a', b'⟩ : HasVal ws _ w.number → _) ((hv w.number).1 ⟨w, a, b, rfl⟩),
     fun ⟨w, a, b⟩ => (fun ⟨w', a', b', _⟩ => ⟨w', a', b'⟩ : HasVal ws' _ w.number → _) ((hv w.number).2 ⟨w, a, b, rfl⟩)⟩
  unfold Reads at *
  rw [← hl, h2, ← h1]
  exact ⟨fun hh => (hv _).1 (h.1 hh), h.2⟩

theorem reads_getWord (p : Parser) (l : Letter) : Reads p.block.words p.state.letterValue
    (p.getWord (charOf l) l).state.letterValue l := by
  obtain ⟨-, -, -, h1, h2⟩ := getWord_spec p (charOf l) l
  exact ⟨h1, fun h => by rw [h2 h]⟩

/-- Reading several letters one after the other. -/
theorem getWords_spec (ls : List Letter) : ls.Nodup → ∀ (p : Parser),
    Keeps (fun w => ∃ l ∈ ls, WithLetter (charOf l) w) p (ls.foldl (fun p l => p.getWord (charOf l) l) p) ∧
    (ls.foldl (fun p l => p.getWord (charOf l) l) p).state.modal = p.state.modal ∧
    (∀ k, k ∉ ls → (ls.foldl (fun p l => p.getWord (charOf l) l) p).state.letterValue k = p.state.letterValue k) ∧
    (∀ l ∈ ls, Reads p.block.words p.state.letterValue
      (ls.foldl (fun p l => p.getWord (charOf l) l) p).state.letterValue l) := by
  induction ls with
  | nil => intro _ p; exact ⟨.refl _ p, rfl, fun _ _ => rfl, by simp⟩
  | cons a ls ih =>
    intro hn p
    have hn' := List.nodup_cons.1 hn
    obtain ⟨k1, m1, o1, -, -⟩ := getWord_spec p (charOf a) a
    obtain ⟨k2, m2, o2, r2⟩ := ih hn'.2 (p.getWord (charOf a) a)
    rw [List.foldl_cons]
    refine ⟨(k1.trans k2).mono ?_, m2.trans m1, ?_, ?_⟩
    · rintro w (h | ⟨l, h1, h2⟩)
      · exact ⟨a, by simp, h⟩
      · exact ⟨l, by simp [h1], h2⟩
    · intro k hk
      rw [o2 k fun h => hk (by simp [h]), o1 k fun h => hk (by simp [h])]
    · intro l hl
      rcases List.mem_cons.1 hl with rfl | hl
      · exact reads_mono (reads_getWord p l) (fun _ => Iff.rfl) rfl (o2 l hn'.1)
      · have hne : l ≠ a := fun h => hn'.1 (h ▸ hl)
        refine reads_mono (r2 l hl) (fun x => k1.hasVal ?_ x) (o1 l hne) rfl
        intro w h1 h2
        unfold WithLetter at h1 h2
        rw [h1] at h2
        revert h2 hne
        cases l <;> cases a <;> simp [charOf]

theorem getWord_absent {p : Parser} {c : Char} {l : Letter} (h : ¬ HasLetter p.block.words c) : p.getWord c l = p :=
  (getWord_spec p c l).2.2.2.2 h

/-- The counts of a block show its words. -/
structure Shows (b : Block) (ws : List Word) : Prop where
  axis : HasLetter ws 'X' ∨ HasLetter ws 'Y' ∨ HasLetter ws 'Z' → b.hasAxis = true
  offset : HasLetter ws 'I' ∨ HasLetter ws 'J' ∨ HasLetter ws 'K' → b.hasOffset = true
  radius : HasLetter ws 'R' → b.hasRadius = true

theorem Rest.shows {p : Parser} (h : Rest p) : Shows p.block p.block.words := by
  obtain ⟨t, b, hb, e, r, hp⟩ := h
  obtain ⟨ws, rfl⟩ := ofString_ofWords hb
  rw [ofWords_words] at hp
  have hc := counted_ofWords ws
  have hl : ∀ l, HasLetter p.block.words l → HasLetter ws l := by
    rintro l ⟨w, hw, h⟩
    exact ⟨w, hp.mem_iff.2 (List.mem_append_right r hw), h⟩
  rw [e]
  refine ⟨fun h => ?_, fun h => ?_, fun h => ?_⟩
  · exact hc.axis.2 (h.imp (hl _) (Or.imp (hl _) (hl _)))
  · exact hc.offset.2 (h.imp (hl _) (Or.imp (hl _) (hl _)))
  · exact hc.radius.2 (hl _ h)

theorem Rest.groups {p : Parser} (h : Rest p) (hv : p.block.hasModalGroupViolation = false) :
    (ofWords p.block.words).hasModalGroupViolation = false := by
  obtain ⟨t, b, hb, e, r, hp⟩ := h
  obtain ⟨ws, rfl⟩ := ofString_ofWords hb
  rw [ofWords_words] at hp
  rw [e] at hv
  have hv' : (ofWords ws).hasModalGroupViolation = false := hv
  unfold Block.hasModalGroupViolation ofWords at hv' ⊢
  rw [List.any_eq_false] at hv' ⊢
  intro g hg
  have := hv' g hg
  rw [foldl_group] at this ⊢
  simp only [Block.empty, Nat.zero_add, decide_eq_true_eq, not_lt] at this ⊢
  rw [(hp.map _).sum_eq, List.map_append, List.sum_append] at this
  omega

theorem Rest.letters {p : Parser} (h : Rest p) (hv : p.block.hasLetterWordViolation = false) :
    (ofWords p.block.words).hasLetterWordViolation = false := by
  obtain ⟨t, b, hb, e, r, hp⟩ := h
  obtain ⟨ws, rfl⟩ := ofString_ofWords hb
  rw [ofWords_words] at hp
  rw [e] at hv
  have hv' : (ofWords ws).hasLetterWordViolation = false := hv
  unfold Block.hasLetterWordViolation ofWords at hv' ⊢
  rw [List.any_eq_false] at hv' ⊢
  intro g hg
  have := hv' g hg
  rw [foldl_letter] at this ⊢
  simp only [Block.empty, Nat.zero_add, decide_eq_true_eq, not_lt] at this ⊢
  rw [hp.countP_eq, List.countP_append] at this
  omega

theorem Read.rest {p : Parser} (h : Read p) : Rest p := by
  obtain ⟨t, h⟩ := h
  exact ⟨t, p.block, h, rfl, [], by simp⟩

theorem Rest.keeps {K : Word → Prop} {p q : Parser} (h : Rest p) (hk : Keeps K p q) : Rest q := by
  obtain ⟨t, b, hb, e, r, hp⟩ := h
  obtain ⟨r', -, hr'⟩ := hk.words
  refine ⟨t, b, hb, ?_, r ++ r', ?_⟩
  · rw [hk.counts, e]
  · rw [List.append_assoc]
    exact hp.trans (hr'.append_left r)

theorem getAxisOffsetRadiusWords_eq (p : Parser) (hc : Shows p.block p.block.words) :
    p.getAxisOffsetRadiusWords =
      [Letter.X, .Y, .Z, .I, .J, .K, .R].foldl (fun p l => p.getWord (charOf l) l) p := by
  have key : ∀ (q : Parser) (c : Char) (l : Letter), ¬ HasLetter p.block.words c → (∀ w ∈ q.block.words, w ∈ p.block.words) →
      q.getWord c l = q := fun q c l h hs => getWord_absent fun ⟨w, a, b⟩ => h ⟨w, hs w a, b⟩
  have hk := fun (ls : List Letter) (hn : ls.Nodup) => (getWords_spec ls hn p).1
  unfold getAxisOffsetRadiusWords
  simp only [List.foldl_cons, List.foldl_nil, charOf]
  have e1 : (if p.block.hasAxis = true then ((p.getWord 'X' .X).getWord 'Y' .Y).getWord 'Z' .Z else p) =
      ((p.getWord 'X' .X).getWord 'Y' .Y).getWord 'Z' .Z := by
    split_ifs with h
    · rfl
    · replace h := mt hc.axis h
      rw [not_or, not_or] at h
      rw [getWord_absent h.1, getWord_absent h.2.1, getWord_absent h.2.2]
  rw [e1]
  have k1 : Keeps _ p (((p.getWord 'X' .X).getWord 'Y' .Y).getWord 'Z' .Z) := hk [.X, .Y, .Z] (by decide)
  generalize ((p.getWord 'X' .X).getWord 'Y' .Y).getWord 'Z' .Z = q at k1
  have hq : q.block.hasOffset = p.block.hasOffset ∧ q.block.hasRadius = p.block.hasRadius := by
    rw [k1.counts]; exact ⟨rfl, rfl⟩
  have e2 : (if q.block.hasOffset = true then ((q.getWord 'I' .I).getWord 'J' .J).getWord 'K' .K else q) =
      ((q.getWord 'I' .I).getWord 'J' .J).getWord 'K' .K := by
    split_ifs with h
    · rfl
    · rw [hq.1] at h
      replace h := mt hc.offset h
      rw [not_or, not_or] at h
      rw [key q _ _ h.1 fun w => k1.sub, key q _ _ h.2.1 fun w => k1.sub, key q _ _ h.2.2 fun w => k1.sub]
  rw [e2]
  have k2 : Keeps _ q (((q.getWord 'I' .I).getWord 'J' .J).getWord 'K' .K) := (getWords_spec [.I, .J, .K] (by decide) q).1
  generalize ((q.getWord 'I' .I).getWord 'J' .J).getWord 'K' .K = q' at k2
  have hq' : q'.block.hasRadius = p.block.hasRadius := by rw [k2.counts, ← hq.2]; rfl
  split_ifs with h
  · rfl
  · rw [hq'] at h
    replace h := mt hc.radius h
    rw [key q' _ _ h fun w hw => k1.sub (k2.sub hw)]

end Moovr.GCode
