import Verif.Model.GCodeBlock
import Verif.Spec.GCodeText
import Mathlib.Data.List.TakeWhile
import Mathlib.Tactic.Ring
import Mathlib.Tactic.Linarith
import Mathlib.Tactic.FieldSimp
import Mathlib.Tactic.Positivity
/-!
# Reading a line: `strip` and `readWords` without the bounds checks
-/
namespace Moovr
open GCodeText

/-- The characters written by `strip`. -/
def stripped (inComment : Bool) : List Nat → List Nat
  | [] => []
  | c :: text =>
    if c = 0 then []
    else if c = '\n'.toNat then []
    else if c = '('.toNat then stripped true text
    else if c = ')'.toNat then stripped false text
    else if c = ' '.toNat ∨ c = '\t'.toNat then stripped inComment text
    else if inComment then stripped inComment text
    else (if 'a'.toNat ≤ c ∧ c ≤ 'z'.toNat then c - ('a'.toNat - 'A'.toNat) else c) :: stripped inComment text

theorem strip_eq (text : List Nat) : ∀ (inComment : Bool) (line : List Nat), line.length ≤ lineSize →
    Block.strip inComment line text =
      if (line ++ stripped inComment text).length < lineSize then .ok (line ++ stripped inComment text)
      else .error .lineOverrun := by
  induction text with
  | nil => intro c l _; simp [Block.strip, stripped]
  | cons a text ih =>
    intro c l hl
    unfold Block.strip stripped
    split_ifs with h1 h2 h3 h4 h5 h6 h7 h8 <;> try first
      | (simp at *; done)
      | (rw [ih _ _ hl]; simp_all; done)
      | (simp_all; done)
    all_goals first
      | (rw [ih _ _ (by simp only [List.length_append, List.length_singleton]; omega)]
         simp only [List.append_assoc, List.singleton_append] at *
         split_ifs <;> simp_all)
      | (exfalso; simp only [List.length_append, List.length_cons] at *; omega)
      | skip

/-- The comment flag after a text without end of line. -/
def commentAfter : Bool → List Nat → Bool
  | c, [] => c
  | c, a :: t => commentAfter (if a = '('.toNat then true else if a = ')'.toNat then false else c) t

/-- A text without end of line. -/
def NoEnd (t : List Nat) : Prop := ∀ c ∈ t, c ≠ '\n'.toNat ∧ c ≠ 0

theorem stripped_append {u : List Nat} (v : List Nat) : ∀ (c : Bool), NoEnd u →
    stripped c (u ++ v) = stripped c u ++ stripped (commentAfter c u) v := by
  induction u with
  | nil => intro c _; simp [stripped, commentAfter]
  | cons a u ih =>
    intro c h
    have h1 := h a (by simp)
    have ih := fun c => ih c fun x hx => h x (by simp [hx])
    simp only [List.cons_append, stripped, commentAfter]
    split_ifs <;> first | exact ih _ | simp_all

/-- After an end of line nothing is read. -/
theorem stripped_end (u v w : List Nat) (c : Bool) (h : ¬ NoEnd u) : stripped c (u ++ v) = stripped c (u ++ w) := by
  induction u generalizing c with
  | nil => exact absurd (fun _ hx => by simp at hx) h
  | cons a u ih =>
    simp only [List.cons_append, stripped]
    by_cases ha : a ≠ '\n'.toNat ∧ a ≠ 0
    · have hu : ¬ NoEnd u := fun hu => h fun x hx => by
        rcases List.mem_cons.1 hx with rfl | hx
        · exact ha
        · exact hu x hx
      simp only [ih _ hu]
    · split_ifs <;> first | rfl | (exfalso; tauto)

theorem commentAfter_open {u : List Nat} : ∀ {c : Bool}, commentAfter c u = true →
    CommentOpen u ∨ (c = true ∧ ')'.toNat ∉ u) := by
  induction u with
  | nil => intro c h; exact .inr ⟨h, by simp⟩
  | cons a u ih =>
    intro c h
    simp only [commentAfter] at h
    rcases ih h with ⟨x, y, e, hy⟩ | ⟨h1, h2⟩
    · exact .inl ⟨a :: x, y, by rw [e]; rfl, hy⟩
    · split_ifs at h1 with h3 h4
      · exact .inl ⟨[], u, by rw [h3]; rfl, h2⟩
      · exact .inr ⟨h1, by simp only [List.mem_cons, not_or]; exact ⟨fun e => h4 e.symm, h2⟩⟩

theorem stripped_comment {t : List Nat} (v : List Nat)
    (ht : ∀ c ∈ t, c ≠ ')'.toNat ∧ c ≠ '\n'.toNat ∧ c ≠ 0) :
    stripped true (t ++ ')'.toNat :: v) = stripped false v := by
  induction t with
  | nil => simp [stripped]
  | cons a t ih =>
    have h := ht a (by simp)
    have ih := ih fun c hc => ht c (by simp [hc])
    simp only [List.cons_append, stripped, if_neg h.1, if_neg h.2.1, if_neg h.2.2, ih, if_true, ite_self]

theorem stripped_congr {v v' : List Nat} (u : List Nat) (hv : ∀ c, commentAfter false u = c → stripped c v = stripped c v') :
    stripped false (u ++ v) = stripped false (u ++ v') := by
  by_cases h : NoEnd u
  · rw [stripped_append v false h, stripped_append v' false h, hv _ rfl]
  · exact stripped_end u v v' false h

theorem stripped_edit {a b : List Nat} (h : Edit a b) : stripped false a = stripped false b := by
  cases h with
  | space u v => exact stripped_congr u fun c _ => by simp [stripped]
  | tab u v => exact stripped_congr u fun c _ => by simp [stripped]
  | lower u v c h =>
    refine stripped_congr u fun d _ => ?_
    have e1 : 'A'.toNat = 65 := rfl
    have e2 : 'Z'.toNat = 90 := rfl
    rw [e1, e2] at h
    simp only [stripped, Char.reduceToNat]
    cases d
    · rw [if_neg (by omega), if_neg (by omega), if_neg (by omega), if_neg (by omega), if_neg (by omega), if_neg (by simp),
        if_neg (by omega), if_neg (by omega), if_neg (by omega), if_neg (by omega), if_neg (by omega), if_neg (by omega),
        if_neg (by simp), if_pos (by omega)]
      congr 1
    · rw [if_neg (by omega), if_neg (by omega), if_neg (by omega), if_neg (by omega), if_neg (by omega), if_pos (by simp),
        if_neg (by omega), if_neg (by omega), if_neg (by omega), if_neg (by omega), if_neg (by omega), if_pos (by simp)]
  | comment u v t h ht =>
    rw [List.append_assoc]
    refine stripped_congr u fun c hc => ?_
    have : c = false := by
      cases c with
      | false => rfl
      | true =>
        rcases commentAfter_open hc with h' | ⟨h', -⟩
        · exact absurd h' h
        · simp at h'
    subst this
    have e : stripped false ('('.toNat :: t ++ ')'.toNat :: v) = stripped true (t ++ ')'.toNat :: v) := by
      simp [stripped]
    rw [e, stripped_comment v ht]
  | tail u v w e h =>
    refine stripped_congr u fun c _ => ?_
    rcases h with rfl | rfl <;> simp [stripped]

theorem ofString_eq (text : List Nat) : Block.ofString text =
    if (stripped false text).length < lineSize then
      Block.readWords (stripped false text).length (stripped false text) .empty
    else .error .lineOverrun := by
  unfold Block.ofString
  rw [strip_eq text false [] (by simp [lineSize])]
  split_ifs <;> simp_all

/-! ## Words -/

/-- The number text and the rest. -/
theorem readNumber_eq (line : List Nat) : ∀ (number : List Nat), number.length ≤ 15 →
    Block.readNumber number line =
      .ok (number ++ (line.takeWhile fun c => !isLetter c).take (15 - number.length),
        line.drop ((line.takeWhile fun c => !isLetter c).take (15 - number.length)).length) := by
  induction line with
  | nil => intro n hn; unfold Block.readNumber; rw [if_pos (by unfold numberSize; omega)]; simp
  | cons c line ih =>
    intro n hn
    unfold Block.readNumber
    by_cases h : n.length < 15 ∧ ¬ isLetter c = true
    · rw [if_pos h, if_pos (by unfold numberSize; omega), ih _ (by simp; omega)]
      obtain ⟨h1, h2⟩ := h
      obtain ⟨k, hk⟩ : ∃ k, 15 - n.length = k + 1 := ⟨14 - n.length, by omega⟩
      have e : 15 - (n ++ [c]).length = k := by simp; omega
      rw [e, hk, List.takeWhile_cons_of_pos (by simpa using h2), List.take_succ_cons]
      simp
    · rw [if_neg h, if_pos (by unfold numberSize; omega)]
      by_cases h2 : isLetter c = true
      · rw [List.takeWhile_cons_of_neg (by simpa using h2)]; simp
      · have h1 : 15 - n.length = 0 := by
          by_contra h1
          exact h ⟨by omega, h2⟩
        rw [h1]; simp

/-- A printed word, read at the start of a line. -/
theorem readNumber_text {text rest : List Nat} (h : ∀ c ∈ text, isLetter c = false) (hl : text.length ≤ 15)
    (hr : rest = [] ∨ ∃ c r, rest = c :: r ∧ isLetter c = true) :
    Block.readNumber [] (text ++ rest) = .ok (text, rest) := by
  rw [readNumber_eq _ _ (by simp)]
  have e : (text ++ rest).takeWhile (fun c => !isLetter c) = text := by
    rw [List.takeWhile_append_of_pos (by intro a ha; simp [h a ha])]
    rcases hr with rfl | ⟨c, r, rfl, hc⟩
    · simp
    · rw [List.takeWhile_cons_of_neg (by simp [hc])]; simp
  rw [e]
  simp only [List.length_nil, Nat.sub_zero, List.nil_append]
  rw [List.take_of_length_le hl]
  simp

theorem readWords_length (fuel : Nat) : ∀ (line : List Nat) (b b' : Block), b.words.length ≤ 16 →
    Block.readWords fuel line b = .ok b' → b'.words.length ≤ 16 := by
  induction fuel with
  | zero => intro line b b' h e; simp [Block.readWords] at e; subst e; exact h
  | succ fuel ih =>
    intro line b b' h e
    cases line with
    | nil => simp [Block.readWords] at e; subst e; exact h
    | cons c line =>
      unfold Block.readWords at e
      split_ifs at e with h1 h2 h3
      · split at e
        · simp at e
        · split at e
          · simp at e
          · exact ih _ _ _ (by simp only [List.length_append, List.length_singleton]; omega) e
      · exact ih _ _ _ h e
      · simp only [Except.ok.injEq] at e
        subst e; exact h

theorem readWords_fault (fuel : Nat) : ∀ (line : List Nat) (b : Block) (e : Fault),
    Block.readWords fuel line b = .error e → e = .conversion := by
  induction fuel with
  | zero => intro line b e h; simp [Block.readWords] at h
  | succ fuel ih =>
    intro line b e h
    cases line with
    | nil => simp [Block.readWords] at h
    | cons c line =>
      unfold Block.readWords at h
      split_ifs at h with h1 h2 h3
      · split at h
        · rename_i hr
          rw [readNumber_eq _ _ (by simp)] at hr
          simp at hr
        · split at h
          · rename_i hk
            simp only [Except.error.injEq] at h
            subst h
            unfold Block.intNumberOf toUInt32 at hk
            split_ifs at hk <;> simp_all
          · exact ih _ _ _ h
      · exact absurd h1 h3
      · exact ih _ _ _ h

/-! ## Numerals -/

theorem digit_isDigit (d : Fin 10) : isDigit (digit d) = true := by
  revert d; decide

theorem digit_notSpace (d : Fin 10) : isSpace (digit d) = false ∧ digit d ≠ '-'.toNat ∧ digit d ≠ '+'.toNat := by
  revert d; decide

theorem digitsValue_append (s t : List Nat) :
    digitsValue (s ++ t) = t.foldl (fun a c => 10 * a + (c - '0'.toNat)) (digitsValue s) := by
  unfold digitsValue; rw [List.foldl_append]

theorem foldl_digits (ds : List (Fin 10)) : ∀ a : Nat,
    (((ds.map digit).foldl (fun a c => 10 * a + (c - '0'.toNat)) a : Nat) : ℚ) = a * 10 ^ ds.length + intValue ds := by
  induction ds with
  | nil => intro a; simp [intValue]
  | cons d ds ih =>
    intro a
    rw [List.map_cons, List.foldl_cons, ih]
    have : digit d - '0'.toNat = d := by unfold digit; omega
    rw [this]
    simp only [intValue, List.length_cons, pow_succ]
    push_cast
    ring

theorem digitsValue_map (ds : List (Fin 10)) : (digitsValue (ds.map digit) : ℚ) = intValue ds := by
  have := foldl_digits ds 0
  simpa [digitsValue] using this

theorem fracValue_eq (ds : List (Fin 10)) : fracValue ds = intValue ds / 10 ^ ds.length := by
  induction ds with
  | nil => simp [fracValue, intValue]
  | cons d ds ih =>
    simp only [fracValue, intValue, List.length_cons, ih]
    field_simp
    ring

theorem unsignedValue_numeral (int : List (Fin 10)) (frac : Option (List (Fin 10))) :
    unsignedValue (int.map digit ++ match frac with | some f => '.'.toNat :: f.map digit | none => []) =
      intValue int + fracValue (frac.getD []) := by
  have ht : ∀ rest, (rest = [] ∨ ∃ c r, rest = c :: r ∧ isDigit c = false) →
      (int.map digit ++ rest).takeWhile isDigit = int.map digit ∧ (int.map digit ++ rest).dropWhile isDigit = rest := by
    intro rest hr
    have hd : ∀ x ∈ int.map digit, isDigit x = true := by
      intro x hx
      obtain ⟨d, -, rfl⟩ := List.mem_map.1 hx
      exact digit_isDigit d
    rw [List.takeWhile_append_of_pos hd, List.dropWhile_append_of_pos hd]
    rcases hr with rfl | ⟨c, r, rfl, hc⟩
    · simp
    · rw [List.takeWhile_cons_of_neg (by simp [hc]), List.dropWhile_cons_of_neg (by simp [hc])]; simp
  cases frac with
  | none =>
    obtain ⟨h1, h2⟩ := ht [] (.inl rfl)
    unfold unsignedValue
    simp only [h1, h2]
    simp [digitsValue_map, fracValue]
  | some f =>
    obtain ⟨h1, h2⟩ := ht ('.'.toNat :: f.map digit) (.inr ⟨_, _, rfl, by decide⟩)
    have h3 : (f.map digit).takeWhile isDigit = f.map digit := by
      refine List.takeWhile_eq_self_iff.2 fun x hx => ?_
      obtain ⟨d, -, rfl⟩ := List.mem_map.1 hx
      exact digit_isDigit d
    unfold unsignedValue
    simp only [h1, h2, if_true, h3, Option.getD_some, List.length_map]
    rw [digitsValue_append, foldl_digits, digitsValue_map, fracValue_eq]
    field_simp

/-- `strtod` reads back a numeral. -/
theorem strtod_text (x : Numeral) : strtod x.text = x.value := by
  have key : ∀ t : List Nat, t ≠ [] → (∀ c r, t = c :: r → isSpace c = false ∧ c ≠ '-'.toNat ∧ c ≠ '+'.toNat) →
      strtod t = unsignedValue t ∧ strtod ('-'.toNat :: t) = -unsignedValue t := by
    intro t h0 h
    cases t with
    | nil => exact absurd rfl h0
    | cons c r =>
      obtain ⟨h1, h2, h3⟩ := h c r rfl
      refine ⟨?_, ?_⟩
      · unfold strtod
        rw [List.dropWhile_cons_of_neg (by simp [h1])]
        simp only [if_neg h2, if_neg h3]
      · unfold strtod
        rw [List.dropWhile_cons_of_neg (by decide)]
        simp only [if_true]
  set t := x.int.map digit ++ match x.frac with | some f => '.'.toNat :: f.map digit | none => [] with ht
  have hv : unsignedValue t = intValue x.int + fracValue (x.frac.getD []) := unsignedValue_numeral _ _
  have hx : x.text = (if x.neg then ['-'.toNat] else []) ++ t := by
    unfold Numeral.text; rw [ht, List.append_assoc]; rfl
  unfold Numeral.value
  rw [hx, ← hv]
  by_cases he : t = []
  · rw [he]
    cases x.neg
    · simp; decide +kernel
    · simp; decide +kernel
  · have hc : ∀ c r, t = c :: r → isSpace c = false ∧ c ≠ '-'.toNat ∧ c ≠ '+'.toNat := by
      intro c r e
      rw [ht] at e
      cases hi : x.int with
      | cons d ds =>
        rw [hi] at e
        simp only [List.map_cons, List.cons_append, List.cons.injEq] at e
        rw [← e.1]; exact digit_notSpace d
      | nil =>
        rw [hi] at e
        cases hf : x.frac with
        | none => rw [hf] at e; simp at e
        | some f =>
          rw [hf] at e
          simp only [List.map_nil, List.nil_append, List.cons.injEq] at e
          rw [← e.1]; decide
    obtain ⟨k1, k2⟩ := key t he hc
    cases x.neg
    · simpa using k1
    · simpa using k2

end Moovr
