import Verif.Lemmas.GCodeBlock
/-!
# Properties of reading a line of G-code (C42, C43, C44)
-/
namespace Moovr.Props
open GCodeText

/-- The codes of the characters of a string. -/
def codes (s : String) : List Nat := s.toList.map Char.toNat

/-! ## C42 -/

/-- **C42** Lines that differ only in blanks, comments, letter case and in what follows the end of the line are read as the
same block (or both overrun). -/
theorem reading_ignores_layout {a b : List Nat} (h : Same a b) : Block.ofString a = Block.ofString b := by
  have : stripped false a = stripped false b := by
    induction h with
    | edit h => exact stripped_edit h
    | refl => rfl
    | symm _ ih => exact ih.symm
    | trans _ _ ih1 ih2 => exact ih1.trans ih2
  rw [ofString_eq, ofString_eq, this]

/-- "g1(fast)X2" means the same as "G1X2". -/
example : Same (codes "g1(fast)X2") (codes "G1X2") := by
  refine .symm (.trans (.edit (.lower [] (codes "1X2") 71 (by decide))) (.edit ?_))
  exact .comment (codes "g1") (codes "X2") (codes "fast")
    (by
      rintro ⟨u, v, e, -⟩
      have h : '('.toNat ∈ codes "g1" := by rw [e]; simp
      revert h; decide)
    (by decide)

example : (Block.ofString (codes "g1(fast) X-2.50")).map (·.words) = .ok [⟨71, 1, 10⟩, ⟨88, -5 / 2, 0⟩] := by decide +kernel

/-! ## C43 -/

/-- **C43**, partial: a line with less than 256 significant characters (not counting blanks, comments, and what follows the end
of the line) never causes a write outside an array, whatever the characters are; at most 16 words are stored; and the arrays
for words and number texts are never overrun by any line at all. Missing: longer lines (`reading_overrun_violated`). -/
theorem reading_in_bounds_partial (text : List Nat) :
    ((stripped false text).length ≤ 255 → Block.ofString text ≠ .error .lineOverrun) ∧
    Block.ofString text ≠ .error .numberOverrun ∧ Block.ofString text ≠ .error .wordsOverrun ∧
    ∀ b, Block.ofString text = .ok b → b.words.length ≤ 16 := by
  rw [ofString_eq]
  refine ⟨?_, ?_, ?_, ?_⟩
  · intro h e
    rw [if_pos (by unfold lineSize; omega)] at e
    simpa using readWords_fault _ _ _ _ e
  · intro e
    split_ifs at e
    · simpa using readWords_fault _ _ _ _ e
    · simp at e
  · intro e
    split_ifs at e
    · simpa using readWords_fault _ _ _ _ e
    · simp at e
  · intro b e
    split_ifs at e
    exact readWords_length _ _ _ _ (by simp [Block.empty]) e

theorem stripped_length (t : List Nat) : ∀ c, (stripped c t).length ≤ t.length := by
  induction t with
  | nil => intro c; simp [stripped]
  | cons a t ih =>
    intro c
    unfold stripped
    have h1 := ih true; have h2 := ih false; have h3 := ih c
    split_ifs <;> simp only [List.length_cons, List.length_nil] <;> omega

/-- **C43**: in particular for lines of at most 255 characters. -/
theorem reading_short_line (text : List Nat) (h : text.length ≤ 255) {e : Fault}
    (he : Block.ofString text = .error e) : e = .conversion := by
  rw [ofString_eq, if_pos (by have := stripped_length text false; unfold lineSize; omega)] at he
  exact readWords_fault _ _ _ _ he

/-- **C43** is violated: a line of 256 characters overruns the line buffer. -/
theorem reading_overrun_violated :
    Block.ofString (List.replicate 256 'X'.toNat) = .error .lineOverrun := by
  rw [ofString_eq, if_neg (by decide +kernel)]

/-- The longest block: 16 of 17 words are stored. -/
example : (Block.ofString (codes "X1X2X3X4X5X6X7X8X9X10X11X12X13X14X15X16X17")).map (·.words.length) = .ok 16 := by
  decide +kernel

/-! ## C44 -/

/-- A word as it is written: the letter and the text of the number. -/
structure Written where
  letter : Nat
  text : List Nat

/-- Characters that have no meaning of their own in a line. -/
def PlainChar (c : Nat) : Prop :=
  c ≠ 0 ∧ c ≠ '\n'.toNat ∧ c ≠ '('.toNat ∧ c ≠ ')'.toNat ∧ c ≠ ' '.toNat ∧ c ≠ '\t'.toNat ∧
    ¬ ('a'.toNat ≤ c ∧ c ≤ 'z'.toNat) ∧ ¬ ('A'.toNat ≤ c ∧ c ≤ 'Z'.toNat)

/-- A capital letter followed by a text of at most 15 plain characters. -/
def Written.Ok (w : Written) : Prop :=
  'A'.toNat ≤ w.letter ∧ w.letter ≤ 'Z'.toNat ∧ w.text.length ≤ 15 ∧ ∀ c ∈ w.text, PlainChar c

/-- The line with these words. -/
def printed (ws : List Written) : List Nat := ws.flatMap fun w => w.letter :: w.text

/-- What a written word is to be read as: its letter, the value of its text, and, for G and M words, ten times the value without
fraction. -/
def ReadAs (w : Written) (r : Word) : Prop :=
  r.letter = w.letter ∧ r.number = strtod w.text ∧
    if w.letter = 'G'.toNat ∨ w.letter = 'M'.toNat then
      (0 ≤ r.number → (r.intNumber : ℚ) ≤ r.number * 10 ∧ r.number * 10 < r.intNumber + 1) ∧ (r.number < 0 → r.intNumber = 0)
    else r.intNumber = 0

theorem stripped_plain {t : List Nat} (h : ∀ c ∈ t, PlainChar c ∨ ('A'.toNat ≤ c ∧ c ≤ 'Z'.toNat)) : stripped false t = t := by
  induction t with
  | nil => rfl
  | cons a t ih =>
    have ih := ih fun c hc => h c (by simp [hc])
    have e : a ≠ 0 ∧ a ≠ '\n'.toNat ∧ a ≠ '('.toNat ∧ a ≠ ')'.toNat ∧ ¬ (a = ' '.toNat ∨ a = '\t'.toNat) ∧
        ¬ ('a'.toNat ≤ a ∧ a ≤ 'z'.toNat) := by
      rcases h a (by simp) with h | h
      · obtain ⟨h1, h2, h3, h4, h5, h6, h7, -⟩ := h
        exact ⟨h1, h2, h3, h4, by tauto, h7⟩
      · have e1 : 'A'.toNat = 65 := rfl
        have e2 : 'Z'.toNat = 90 := rfl
        rw [e1, e2] at h
        simp only [Char.reduceToNat]
        omega
    obtain ⟨h1, h2, h3, h4, h5, h6⟩ := e
    unfold stripped
    rw [if_neg h1, if_neg h2, if_neg h3, if_neg h4, if_neg h5, if_neg (by simp), if_neg h6, ih]

theorem toUInt32_ok {x : ℚ} (h0 : 0 ≤ x) (h1 : x < 2 ^ 32) : ∃ k : Nat, toUInt32 x = .ok k ∧ (k : ℚ) ≤ x ∧ x < k + 1 := by
  refine ⟨x.floor.toNat, ?_, ?_, ?_⟩
  · unfold toUInt32
    rw [if_pos ⟨by linarith, h1⟩]
  all_goals
    have h2 : 0 ≤ x.floor := Rat.le_floor_iff.2 (by simpa using h0)
    have h3 : ((x.floor.toNat : Nat) : ℚ) = (x.floor : ℚ) := by
      have : ((x.floor.toNat : Nat) : ℤ) = x.floor := Int.toNat_of_nonneg h2
      exact_mod_cast congrArg (Int.cast : ℤ → ℚ) this
    rw [h3]
  · exact Rat.le_floor_iff.1 le_rfl
  · by_contra h
    have : x.floor + 1 ≤ x.floor := Rat.le_floor_iff.2 (by push_cast; linarith)
    omega

theorem toUInt32_negative {x : ℚ} (h0 : -1 < x) (h1 : x < 0) : toUInt32 x = .ok 0 := by
  unfold toUInt32
  rw [if_pos ⟨h0, by linarith⟩]
  have h2 : x.floor < 0 := by
    by_contra h
    have := Rat.le_floor_iff.1 (not_lt.1 h)
    push_cast at this
    linarith
  rw [Int.toNat_of_nonpos h2.le]

/-- **C44**, partial: words written one after the other, with G and M numbers above -1/10 and below 2^32/10, are read back, in order:
letter, value of the text, and code. Missing: the longest such lines (`round_trip_violated`: 16 words with 15 characters each are
256 characters). -/
theorem round_trip_partial (ws : List Written) (hok : ∀ w ∈ ws, w.Ok) (hn : ws.length ≤ 16) (hlen : (printed ws).length ≤ 255)
    (hgm : ∀ w ∈ ws, w.letter = 'G'.toNat ∨ w.letter = 'M'.toNat → -1 < strtod w.text * 10 ∧ strtod w.text * 10 < 2 ^ 32) :
    ∃ b, Block.ofString (printed ws) = .ok b ∧ List.Forall₂ ReadAs ws b.words := by
  have hplain : stripped false (printed ws) = printed ws := by
    apply stripped_plain
    intro c hc
    obtain ⟨w, hw, hc⟩ := List.mem_flatMap.1 hc
    obtain ⟨h1, h2, -, h4⟩ := hok w hw
    rcases List.mem_cons.1 hc with rfl | hc
    · exact .inr ⟨h1, h2⟩
    · exact .inl (h4 c hc)
  rw [ofString_eq, hplain, if_pos (by unfold lineSize; omega)]
  have key : ∀ (ws : List Written) (fuel : Nat) (b : Block), (∀ w ∈ ws, w.Ok) → b.words.length + ws.length ≤ 16 →
      (printed ws).length ≤ fuel →
      (∀ w ∈ ws, w.letter = 'G'.toNat ∨ w.letter = 'M'.toNat → -1 < strtod w.text * 10 ∧ strtod w.text * 10 < 2 ^ 32) →
      ∃ b', Block.readWords fuel (printed ws) b = .ok b' ∧ ∃ rs, b'.words = b.words ++ rs ∧ List.Forall₂ ReadAs ws rs := by
    intro ws
    induction ws with
    | nil =>
      intro fuel b _ _ _ _
      refine ⟨b, ?_, [], by simp, .nil⟩
      cases fuel <;> rfl
    | cons w ws ih =>
      intro fuel b hok hn hf hgm
      obtain ⟨h1, h2, h3, h4⟩ := hok w (by simp)
      have ep : printed (w :: ws) = w.letter :: (w.text ++ printed ws) := by simp [printed]
      rw [ep] at hf ⊢
      simp only [List.length_cons, List.length_append] at hf hn
      obtain ⟨fuel, rfl⟩ : ∃ f, fuel = f + 1 := ⟨fuel - 1, by omega⟩
      have hletter : isLetter w.letter = true := by unfold isLetter; simp only [h1, h2, decide_true, Bool.and_self]
      have hnum : Block.readNumber [] (w.text ++ printed ws) = .ok (w.text, printed ws) := by
        refine readNumber_text ?_ h3 ?_
        · intro c hc
          have := (h4 c hc).2.2.2.2.2.2.2
          unfold isLetter
          rw [← Bool.not_eq_true, Bool.and_eq_true, decide_eq_true_eq, decide_eq_true_eq]
          exact this
        · cases ws with
          | nil => exact .inl rfl
          | cons w' ws =>
            obtain ⟨h1, h2, -, -⟩ := hok w' (by simp)
            refine .inr ⟨w'.letter, w'.text ++ printed ws, by simp [printed], ?_⟩
            unfold isLetter; simp only [h1, h2, decide_true, Bool.and_self]
      obtain ⟨k, hk, hr⟩ : ∃ k, Block.intNumberOf w.letter (strtod w.text) = .ok k ∧
          ReadAs w ⟨w.letter, strtod w.text, k⟩ := by
        by_cases hg : w.letter = 'G'.toNat ∨ w.letter = 'M'.toNat
        · obtain ⟨g1, g2⟩ := hgm w (by simp) hg
          rcases le_or_gt 0 (strtod w.text) with g3 | g3
          · obtain ⟨k, e1, e2, e3⟩ := toUInt32_ok (by linarith) g2
            refine ⟨k, ?_, rfl, rfl, ?_⟩
            · unfold Block.intNumberOf; rw [if_pos hg]; exact e1
            · rw [if_pos hg]; exact ⟨fun _ => ⟨e2, e3⟩, fun h => absurd g3 (not_le.2 h)⟩
          · refine ⟨0, ?_, rfl, rfl, ?_⟩
            · unfold Block.intNumberOf; rw [if_pos hg]; exact toUInt32_negative g1 (by linarith)
            · rw [if_pos hg]; exact ⟨fun h => absurd g3 (not_lt.2 h), fun _ => rfl⟩
        · refine ⟨0, ?_, rfl, rfl, ?_⟩
          · unfold Block.intNumberOf; rw [if_neg hg]
          · rw [if_neg hg]
      obtain ⟨b', e1, rs, e2, e3⟩ := ih fuel
        { b.countWord ⟨w.letter, strtod w.text, k⟩ with words := b.words ++ [⟨w.letter, strtod w.text, k⟩] }
        (fun x hx => hok x (by simp [hx])) (by simp only [List.length_append, List.length_singleton]; omega) (by omega)
        (fun x hx => hgm x (by simp [hx]))
      refine ⟨b', ?_, _ :: rs, by rw [e2]; simp, .cons hr e3⟩
      unfold Block.readWords
      rw [if_pos (by unfold maxWords; omega), if_neg (by simp [hletter]), if_pos (by omega), hnum]
      simp only [hk]
      exact e1
  obtain ⟨b, e, rs, e2, e3⟩ := key ws _ .empty hok (by simpa [Block.empty] using hn) le_rfl hgm
  refine ⟨b, e, ?_⟩
  rw [e2]; simpa [Block.empty] using e3

/-- **C44** is violated, too, for codes out of range, exactly as far as the theorem above says nothing: the number of a G or M word is
converted to an unsigned integer, which is undefined if ten times the number is -1 or less, or 2^32 or more. -/
theorem code_conversion_violated {w : Written} (hok : w.Ok) (hg : w.letter = 'G'.toNat ∨ w.letter = 'M'.toNat) :
    Block.ofString (printed [w]) = .error .conversion ↔ strtod w.text * 10 ≤ -1 ∨ 2 ^ 32 ≤ strtod w.text * 10 := by
  constructor
  · intro he
    by_contra hc
    push Not at hc
    have h3 := hok.2.2.1
    obtain ⟨b, hb, -⟩ := round_trip_partial [w] (by simpa using hok) (by simp) (by simp [printed]; omega)
      (by intro x hx _; rw [List.mem_singleton.1 hx]; exact hc)
    rw [hb] at he
    simp at he
  · intro h
    obtain ⟨h1, h2, h3, h4⟩ := hok
    have ep : printed [w] = w.letter :: w.text := by simp [printed]
    have hplain : stripped false (printed [w]) = printed [w] := by
      apply stripped_plain
      intro c hc
      rw [ep] at hc
      rcases List.mem_cons.1 hc with rfl | hc
      · exact .inr ⟨h1, h2⟩
      · exact .inl (h4 c hc)
    have hletter : isLetter w.letter = true := by unfold isLetter; simp only [h1, h2, decide_true, Bool.and_self]
    have hnum : Block.readNumber [] w.text = .ok (w.text, []) := by
      have := readNumber_text (text := w.text) (rest := []) (by
        intro c hc
        have := (h4 c hc).2.2.2.2.2.2.2
        unfold isLetter
        rw [← Bool.not_eq_true, Bool.and_eq_true, decide_eq_true_eq, decide_eq_true_eq]
        exact this) h3 (.inl rfl)
      simpa using this
    have hint : Block.intNumberOf w.letter (strtod w.text) = .error .conversion := by
      unfold Block.intNumberOf toUInt32
      rw [if_pos hg, if_neg]
      rintro ⟨a, b⟩
      rcases h with h | h <;> linarith
    rw [ofString_eq, hplain, if_pos (by rw [ep]; unfold lineSize; simp; omega), ep]
    simp only [List.length_cons]
    unfold Block.readWords
    rw [if_pos (by simp [Block.empty, maxWords]), if_neg (by simp [hletter]), if_pos (by simp [Block.empty, maxWords])]
    simp only [hnum, hint]

/-- `G-0.1` is undefined, `G-0.05` is read as `G0`. -/
example : (Block.ofString (codes "G-0.1")).map (·.words) = .error .conversion ∧
    (Block.ofString (codes "G-0.05")).map (·.words) = .ok [⟨71, -1 / 20, 0⟩] := by
  constructor <;> decide +kernel

/-- **C44**: the value of a written decimal number is its value, for any number of digits. -/
theorem numbers_read_back (x : Numeral) : strtod x.text = x.value := strtod_text x

/-- **C44** is violated: the line with 16 words of 15 characters each overruns the line buffer. -/
theorem round_trip_violated : ∃ ws : List Written, (∀ w ∈ ws, w.Ok) ∧ ws.length ≤ 16 ∧
    Block.ofString (printed ws) = .error .lineOverrun := by
  refine ⟨List.replicate 16 ⟨'X'.toNat, List.replicate 15 '1'.toNat⟩, ?_, by simp,
    by rw [ofString_eq, if_neg (by decide +kernel)]⟩
  intro w hw
  rw [List.eq_of_mem_replicate hw]
  refine ⟨by decide, by decide, by simp, fun c hc => ?_⟩
  rw [List.eq_of_mem_replicate hc]
  unfold PlainChar
  decide

/-- A line in the scope of the theorem. -/
example : printed [⟨71, codes "1"⟩, ⟨88, codes "-12.5"⟩, ⟨70, codes "300"⟩] = codes "G1X-12.5F300" := by decide
example : strtod (codes "-12.5") = -25 / 2 := by decide +kernel

end Moovr.Props
