import Verif.Model.MotionText
import Verif.Spec.MotionText
import Verif.Lemmas.Num
import Mathlib.Data.List.GetD
import Mathlib.Tactic.Linarith
import Mathlib.Tactic.NormNum
/-!
# The text of a motion (C125)

`motion::toString` writes exactly one text to memory, as long as the number it returns says, at most 2700 characters. Its numbers are
those of the motion, but for the end angle of an arc.
-/
namespace Moovr.Props
open Num TextSpec MotionText
open Version (digit decimal)

namespace MotionTextProof

/-! ## Numbers -/

theorem digit_spec : ∀ d < 10, (digit d).toNat = 48 + d ∧ (digit d).isDigit = true ∧ digit d ≠ '\x00' := by decide +kernel

theorem number_snoc (l : List Char) (c : Char) : TextSpec.number (l ++ [c]) = TextSpec.number l * 10 + (c.toNat - 48) := by
  simp [TextSpec.number]

theorem decimal_spec (n : Nat) : TextSpec.number (decimal n) = n ∧ decimal n ≠ [] ∧ (∀ c ∈ decimal n, c.isDigit = true ∧ c ≠ '\x00') := by
  induction n using Nat.strongRecOn with
  | ind n ih =>
    rw [decimal]
    split
    · rename_i h
      obtain ⟨h1, h2, h3⟩ := digit_spec n h
      refine ⟨by simp [TextSpec.number, h1], by simp, fun c hc => ?_⟩
      rw [List.mem_singleton.1 hc]; exact ⟨h2, h3⟩
    · obtain ⟨g1, -, g3⟩ := ih (n / 10) (by omega)
      obtain ⟨h1, h2, h3⟩ := digit_spec (n % 10) (by omega)
      refine ⟨by rw [number_snoc, g1, h1]; omega, by simp, fun c hc => ?_⟩
      rcases List.mem_append.1 hc with hc | hc
      · exact g3 c hc
      · rw [List.mem_singleton.1 hc]; exact ⟨h2, h3⟩

theorem decimal_length (k : Nat) : ∀ n, n < 10 ^ (k + 1) → (decimal n).length ≤ k + 1 := by
  induction k with
  | zero => intro n h; rw [decimal, if_pos (by omega)]; simp
  | succ k ih =>
    intro n h
    rw [decimal]
    split
    · simp
    · have := ih (n / 10) (by rw [pow_succ] at h; omega)
      simp only [List.length_append, List.length_singleton]
      omega

theorem sixDigits_spec (n : Nat) : TextSpec.number (sixDigits n) = n % 10 ^ 6 ∧
    (∀ c ∈ sixDigits n, c.isDigit = true ∧ c ≠ '\x00') := by
  have h : ∀ k, (digit (k % 10)).toNat = 48 + k % 10 ∧ (digit (k % 10)).isDigit = true ∧ digit (k % 10) ≠ '\x00' :=
    fun k => digit_spec _ (Nat.mod_lt _ (by norm_num))
  constructor
  · simp only [TextSpec.number, sixDigits, List.foldl_cons, List.foldl_nil, (h _).1]
    have : '0'.toNat = 48 := rfl
    rw [this]
    omega
  · intro c hc
    simp only [sixDigits, List.mem_cons, List.not_mem_nil, or_false] at hc
    rcases hc with rfl | rfl | rfl | rfl | rfl | rfl <;> exact (h _).2

theorem nearest_spec {y : ℝ} (hy : 0 ≤ y) : |(nearest y : ℝ) - y| ≤ 1 / 2 ∧ nearest y ≤ ⌊y⌋₊ + 1 := by
  have h1 := Nat.floor_le hy
  have h2 := Nat.lt_floor_add_one y
  unfold nearest
  split_ifs <;> (refine ⟨abs_le.2 ?_, by omega⟩; push_cast; constructor <;> linarith)

theorem percentF_length {x : Num} (h : IsFloat x) : (percentF x).length ≤ 47 := by
  cases x with
  | fin x =>
    have hx : |x| < 2 ^ 128 := h
    have hk : nearest (|x| * 10 ^ 6) / 10 ^ 6 < 10 ^ (38 + 1) := by
      have h1 := (nearest_spec (y := |x| * 10 ^ 6) (by positivity)).2
      have h2 : ⌊|x| * 10 ^ 6⌋₊ < 2 ^ 128 * 10 ^ 6 := by
        rw [Nat.floor_lt (by positivity)]
        have : |x| * 10 ^ 6 < 2 ^ 128 * 10 ^ 6 := mul_lt_mul_of_pos_right hx (by norm_num)
        exact_mod_cast this
      have h3 : nearest (|x| * 10 ^ 6) ≤ 2 ^ 128 * 10 ^ 6 := by omega
      have h4 : nearest (|x| * 10 ^ 6) / 10 ^ 6 ≤ 2 ^ 128 := by
        have := Nat.div_le_div_right (c := 10 ^ 6) h3
        rwa [Nat.mul_div_cancel _ (by norm_num)] at this
      exact lt_of_le_of_lt h4 (by norm_num)
    have := decimal_length 38 _ hk
    simp only [percentF, List.length_append, List.length_cons]
    have hs : (sixDigits (nearest (|x| * 10 ^ 6))).length = 6 := rfl
    rw [hs]
    split_ifs <;> simp only [List.length_cons, List.length_nil] <;> omega
  | posInf => simp [percentF]
  | negInf => simp [percentF]
  | nan => simp [percentF]

theorem percentF_noNul (x : Num) : '\x00' ∉ percentF x := by
  cases x with
  | fin x =>
    simp only [percentF, List.mem_append, List.mem_cons]
    rintro (h | h | h | h)
    · split_ifs at h <;> simp at h
    · exact ((decimal_spec _).2.2 _ h).2 rfl
    · simp at h
    · exact ((sixDigits_spec _).2 _ h).2 rfl
  | posInf => simp [percentF]
  | negInf => simp [percentF]
  | nan => simp [percentF]

/-! ## Printing -/

/-- A printer that does what one `sprintf` of `s` does. -/
def Prints (p : Printer) (s : List Char) : Prop := ∀ m out, p m out = sprintf s m out

theorem sprintf_sprintf (a b : List Char) (m : Mem) (out : Nat) :
    (sprintf b (sprintf a m out).1 (out + a.length)).1 = (sprintf (a ++ b) m out).1 := by
  funext i
  simp only [sprintf, List.length_append]
  by_cases h1 : i < out
  · rw [if_neg (by omega), if_neg (by omega), if_neg (by omega), if_neg (by omega), if_neg (by omega), if_neg (by omega)]
  · by_cases h2 : i < out + a.length
    · rw [if_neg (by omega), if_neg (by omega), if_pos (by omega), if_pos (by omega), List.getD_append _ _ _ _ (by omega)]
    · by_cases h3 : i < out + a.length + b.length
      · rw [if_pos (by omega), if_pos (by omega), List.getD_append_right _ _ _ _ (by omega)]
        congr 1; omega
      · rw [if_neg (by omega)]
        by_cases h4 : i = out + a.length + b.length
        · rw [if_pos h4, if_neg (by omega), if_pos (by omega)]
        · rw [if_neg h4, if_neg (by omega), if_neg (by omega), if_neg (by omega), if_neg (by omega)]

theorem Prints.inTurn {p : Printer} {s : List Char} {ps : List Printer} {ss : List (List Char)} (h : Prints p s)
    (hs : List.Forall₂ Prints ps ss) (hl : (s ++ ss.flatten).length < 2 ^ 32) : Prints (inTurn (p :: ps)) (s ++ ss.flatten) := by
  intro m out
  have key : ∀ (ps : List Printer) (ss : List (List Char)), List.Forall₂ Prints ps ss → ∀ a : List Char, (a ++ ss.flatten).length < 2 ^ 32 →
      ps.foldl (fun st p => let r := p st.1 (out + st.2); (r.1, u32add st.2 r.2)) ((sprintf a m out).1, a.length) =
        sprintf (a ++ ss.flatten) m out := by
    intro ps ss hs
    induction hs with
    | nil => intro a _; simp [sprintf]
    | @cons q t qs ts hq _ ih =>
      intro a ha
      rw [List.flatten_cons, ← List.append_assoc] at ha ⊢
      rw [List.foldl_cons]
      simp only
      have hlen : a.length + t.length < 4294967296 := by
        simp only [List.length_append] at ha; omega
      have e : ((q (sprintf a m out).1 (out + a.length)).1, u32add a.length (q (sprintf a m out).1 (out + a.length)).2) =
          ((sprintf (a ++ t) m out).1, (a ++ t).length) := by
        rw [hq, sprintf_sprintf, List.length_append]
        congr 1
        exact u32add_of_lt hlen
      rw [e]
      exact ih (a ++ t) ha
  have h0 : u32add 0 s.length = s.length := by
    rw [u32add_of_lt (by simp only [List.length_append] at hl; omega)]; omega
  unfold MotionText.inTurn
  rw [List.foldl_cons]
  simp only [Nat.add_zero, h m out]
  have : (sprintf s m out).2 = s.length := rfl
  rw [this, h0]
  exact key ps ss hs s hl

theorem Prints.say (s : String) : Prints (say s) s.toList := fun _ _ => rfl

theorem Prints.line (pre : String) (x : Num) (post : String) :
    Prints (line pre x post) (pre.toList ++ percentF x ++ post.toList) := fun _ _ => rfl

theorem Prints.congr {p : Printer} {s t : List Char} (h : Prints p s) (e : s = t) : Prints p t := e ▸ h

/-- The number of characters of a text is at most this. -/
def size (ps : List Part) : Nat := (ps.map fun
  | .words s => s.toList.length
  | .number _ => 47).sum

theorem size_append (a b : List Part) : size (a ++ b) = size a + size b := by simp [size]

theorem render_append (a b : List Part) : render percentF (a ++ b) = render percentF a ++ render percentF b := by
  simp [render]

theorem render_length {ps : List Part} (h : Floats ps) : (render percentF ps).length ≤ size ps := by
  induction ps with
  | nil => simp [render, size]
  | cons q ps ih =>
    have := ih fun x hx => h x (List.mem_cons_of_mem _ hx)
    cases q with
    | words s => simp only [render, List.flatMap_cons, List.length_append, size, List.map_cons, List.sum_cons] at this ⊢; omega
    | number x =>
      have hx := percentF_length (h x (by simp))
      simp only [render, List.flatMap_cons, List.length_append, size, List.map_cons, List.sum_cons] at this ⊢; omega

theorem size_coordinates (n : Nat) (x : Nat → Num) : size (coordinates n x) = 48 * n := by
  induction n with
  | zero => rfl
  | succ n ih =>
    rw [coordinates, List.range_succ, List.flatMap_append, size_append]
    rw [coordinates] at ih
    rw [ih]
    simp [size]
    omega

theorem size_quantity (a : String) (x : Num) (b : String) : size (quantity a x b) = a.toList.length + 47 + b.toList.length := by
  simp [size, quantity]; omega

theorem render_quantity (a : String) (x : Num) (b : String) :
    render percentF (quantity a x b) = a.toList ++ percentF x ++ b.toList := by simp [render, quantity]

theorem size_words (a : String) : size [.words a] = a.toList.length := by simp [size]

theorem size_ramp (a : AccDec Num) : size (ramp a) = 821 := by
  unfold ramp
  simp only [size_append, size_quantity]
  simp

theorem size_speeds (p : Profile) : size (speeds p) = 1994 := by
  unfold speeds
  simp only [size_append, size_quantity, size_words, size_ramp]
  simp

theorem Prints.all {ps : List Printer} {ss : List (List Char)} {t : List Char} (hs : List.Forall₂ Prints ps ss) (hne : ps ≠ [])
    (e : ss.flatten = t) (hl : t.length < 2 ^ 32) : Prints (MotionText.inTurn ps) t := by
  subst e
  cases hs with
  | nil => exact absurd rfl hne
  | cons h hs => exact Prints.inTurn h hs (by simpa using hl)

theorem floats_left {a b : List Part} (h : Floats (a ++ b)) : Floats a := fun x hx => h x (by simp [hx])
theorem floats_right {a b : List Part} (h : Floats (a ++ b)) : Floats b := fun x hx => h x (by simp [hx])

theorem prints_ramp {a : AccDec Num} (h : Floats (ramp a)) : Prints (accDec a) (render percentF (ramp a)) := by
  refine Prints.all (.cons (.line _ _ _) (.cons (.line _ _ _) (.cons (.line _ _ _) (.cons (.line _ _ _) (.cons (.line _ _ _)
    (.cons (.line _ _ _) (.cons (.line _ _ _) (.cons (.line _ _ _) (.cons (.line _ _ _) (.cons (.line _ _ _) (.cons (.line _ _ _)
    (.cons (.line _ _ _) (.cons (.line _ _ _) .nil))))))))))))) (by simp) ?_
    (lt_of_le_of_lt (render_length h) (by rw [size_ramp]; norm_num))
  · simp only [ramp, render_append, render_quantity, List.flatten_cons, List.flatten_nil, List.append_assoc, List.append_nil]

/-- The middle part. -/
def middle (c : Cruise Num) : List Part :=
  quantity "vMid     = " c.vMid " mm/s\n" ++ quantity "length   = " c.length " mm\n" ++ quantity "duration = " c.duration " s\n"

theorem prints_middle {c : Cruise Num} (h : Floats (middle c)) : Prints (cruise c) (render percentF (middle c)) := by
  refine Prints.all (.cons (.line _ _ _) (.cons (.line _ _ _) (.cons (.line _ _ _) .nil))) (by simp) ?_
    (lt_of_le_of_lt (render_length h) ?_)
  · simp only [middle, render_append, render_quantity, List.flatten_cons, List.flatten_nil, List.append_assoc, List.append_nil]
  · simp only [middle, size_append, size_quantity]; simp

theorem speeds_eq (p : Profile) : speeds p =
    quantity "feedrate =  " p.vFeed "  mm/s\n" ++ (quantity "duration =  " p.duration "  s\n" ++ ([.words "left part :\n"] ++ (ramp p.left ++
    ([.words "mid part :\n"] ++ (middle p.mid ++ ([.words "right part :\n"] ++ ramp p.right)))))) := by
  simp only [speeds, middle, List.append_assoc]

theorem render_words (a : String) : render percentF [.words a] = a.toList := by simp [render]
theorem render_number (x : Num) : render percentF [.number x] = percentF x := by simp [render]

theorem prints_speeds {p : Profile} (h : Floats (speeds p)) : Prints (profile p) (render percentF (speeds p)) := by
  have h' := h
  rw [speeds_eq] at h'
  have h3 := floats_right (floats_right (floats_right h'))
  have h5 := floats_right (floats_right h3)
  refine Prints.all (.cons (.line _ _ _) (.cons (.line _ _ _) (.cons (.say _) (.cons (prints_ramp (floats_left h3)) (.cons (.say _)
    (.cons (prints_middle (floats_left h5)) (.cons (.say _) (.cons (prints_ramp (floats_right (floats_right h5))) .nil)))))))) (by simp) ?_
    (lt_of_le_of_lt (render_length h) (by rw [size_speeds]; norm_num))
  · rw [speeds_eq]
    simp only [render_append, render_quantity, render_words, List.flatten_cons, List.flatten_nil, List.append_assoc, List.append_nil]

theorem prints_coordinates (n : Nat) (x : Nat → Num) : List.Forall₂ Prints ((List.range n).map fun i => line "" (x i) " ")
    ((List.range n).map fun i => percentF (x i) ++ " ".toList) := by
  rw [List.forall₂_map_left_iff, List.forall₂_map_right_iff, List.forall₂_same]
  intro i _
  exact (Prints.line _ _ _).congr (by simp)

theorem render_coordinates (n : Nat) (x : Nat → Num) :
    render percentF (coordinates n x) = ((List.range n).map fun i => percentF (x i) ++ " ".toList).flatten := by
  simp only [render, coordinates, List.flatMap_assoc]
  rw [← List.flatMap_def]
  congr 1

theorem size_two (a b : String) : size [.words a, .words b] = a.toList.length + b.toList.length := by simp [size]
theorem size_two' (x : Num) (b : String) : size [.number x, .words b] = 47 + b.toList.length := by simp [size]
theorem size_number (x : Num) : size [.number x] = 47 := by simp [size]

theorem size_path {n : Nat} (hn : n ≤ 3) (r : SimplifiedMotion) (turn : Num) : size (pathOf n r turn) ≤ 570 := by
  unfold pathOf
  simp only
  split <;> simp only [size_append, size_quantity, size_coordinates, size_words, size_two, size_two', size_number] <;> simp <;> omega

theorem pair (a b : String) (l : List Part) : [.words a, .words b] ++ l = [.words a] ++ ([.words b] ++ l) := rfl
theorem pair' (x : Num) (b : String) (l : List Part) : [.number x, .words b] ++ l = [.number x] ++ ([.words b] ++ l) := rfl

theorem prints_path {n : Nat} (hn : n ≤ 3) {x : Path} {r : SimplifiedMotion} (h : Floats (pathOf n r deltaAngle)) :
    Prints (trajectory n (MotionItem.setPath x r).trajectory r.type) (render percentF (pathOf n r deltaAngle)) := by
  have hl := lt_of_le_of_lt ((render_length h).trans (size_path hn r deltaAngle)) (by norm_num : 570 < 2 ^ 32)
  clear h
  unfold MotionItem.setPath
  unfold pathOf at hl ⊢
  cases ht : r.type <;> simp only [ht, trajectory] at hl ⊢
  case traverse | feedLinear =>
    refine Prints.all (List.rel_append (List.rel_append (List.rel_append (List.rel_append (.cons (.say _) (.cons (.say _) .nil)) (prints_coordinates _ _))
        (.cons (.say _) (.cons (.say _) .nil))) (prints_coordinates _ _)) (.cons (.say _) (.cons (.line _ _ _) .nil))) (by simp) ?_ hl
    · simp only [List.append_assoc, pair, pair', render_append, render_quantity, render_words, render_coordinates, List.flatten_append,
        List.flatten_cons, List.flatten_nil, List.append_nil]
      rfl
  case feedHelicalCW | feedHelicalCCW =>
    refine Prints.all (List.rel_append (List.rel_append (.cons (.say _) (.cons (.say _) .nil)) (prints_coordinates _ _))
        (.cons (.say _) (.cons (fun _ _ => rfl) (.cons (fun _ _ => rfl) (.cons (.line _ _ _) .nil))))) (by simp) ?_ hl
    · simp only [List.append_assoc, pair, pair', render_append, render_quantity, render_words, render_number, render_coordinates,
        List.flatten_append, List.flatten_cons, List.flatten_nil, List.append_nil]
      rfl
  all_goals
    refine Prints.all (.cons (.say _) .nil) (by simp) ?_ hl
    simp [render]

theorem prints_motion {n : Nat} (hn : n ≤ 3) {x : Path} {r : SimplifiedMotion} {p : Profile}
    (h : Floats (describes n r p deltaAngle)) : (render percentF (describes n r p deltaAngle)).length ≤ 2600 ∧
      Prints (MotionText.motion n (MotionItem.setPath x r) p) (render percentF (describes n r p deltaAngle)) := by
  have h' := h
  simp only [describes, List.append_assoc] at h'
  have hl : (render percentF (describes n r p deltaAngle)).length ≤ 2600 := by
    refine (render_length h).trans ?_
    have := size_path hn r deltaAngle
    simp only [describes, size_append, size_words, size_speeds]
    simp
    omega
  refine ⟨hl, Prints.all (.cons (.say _) (.cons (prints_path hn (floats_left (floats_right h'))) (.cons (prints_speeds
    (floats_left (floats_right (floats_right h')))) (.cons (Prints.all (.cons (.say _) .nil) (by simp) rfl (by simp)) .nil)))) (by simp) ?_
    (by omega)⟩
  simp only [describes, List.append_assoc, render_append, render_words, List.flatten_cons, List.flatten_nil, List.append_nil]

theorem render_noNul {ps : List Part} (h : ∀ s, Part.words s ∈ ps → '\x00' ∉ s.toList) : '\x00' ∉ render percentF ps := by
  simp only [render, List.mem_flatMap, not_exists, not_and]
  intro q hq
  cases q with
  | words s => exact h s hq
  | number x => exact percentF_noNul x

theorem wrote_sprintf {s : List Char} (hs : '\x00' ∉ s) (m : Mem) (out : Nat) : Wrote m (sprintf s m out).1 out s where
  chars i h := by
    simp only [sprintf]
    rw [if_pos (by omega), Nat.add_sub_cancel_left, List.getD_eq_getElem _ _ h]
  noNul := hs
  nul := by simp [sprintf]
  others i h := by
    simp only [sprintf]
    rw [if_neg (by omega), if_neg (by omega)]

theorem words_coordinates {n : Nat} {x : Nat → Num} {s : String} (h : Part.words s ∈ coordinates n x) : s = " " := by
  simp only [coordinates, List.mem_flatMap, List.mem_cons, List.not_mem_nil, or_false] at h
  obtain ⟨i, -, h | h⟩ := h
  · cases h
  · injection h

theorem noNul_motion {n : Nat} {r : SimplifiedMotion} {p : Profile} {turn : Num} :
    '\x00' ∉ render percentF (describes n r p turn) := by
  have hq : ∀ a x b, '\x00' ∉ String.toList a → '\x00' ∉ String.toList b → '\x00' ∉ render percentF (quantity a x b) := by
    intro a x b ha hb
    rw [render_quantity]
    simp only [List.mem_append, not_or]
    exact ⟨⟨ha, percentF_noNul x⟩, hb⟩
  have hw : ∀ a, '\x00' ∉ String.toList a → '\x00' ∉ render percentF [.words a] := fun a ha => by rwa [render_words]
  have hc : ∀ x, '\x00' ∉ render percentF (coordinates n x) := fun x => render_noNul fun s hs => by
    rw [words_coordinates hs]; simp
  have hr : ∀ a, '\x00' ∉ render percentF (ramp a) := by
    intro a
    unfold ramp
    simp only [render_append, List.mem_append, not_or]
    refine ⟨⟨⟨⟨⟨⟨⟨⟨⟨⟨⟨⟨?_, ?_⟩, ?_⟩, ?_⟩, ?_⟩, ?_⟩, ?_⟩, ?_⟩, ?_⟩, ?_⟩, ?_⟩, ?_⟩, ?_⟩ <;> exact hq _ _ _ (by simp) (by simp)
  have hs : '\x00' ∉ render percentF (speeds p) := by
    unfold speeds
    simp only [render_append, List.mem_append, not_or]
    refine ⟨⟨⟨⟨⟨⟨⟨⟨⟨?_, ?_⟩, ?_⟩, hr _⟩, ?_⟩, ?_⟩, ?_⟩, ?_⟩, ?_⟩, hr _⟩ <;>
      first | exact hq _ _ _ (by simp) (by simp) | exact hw _ (by simp)
  have hp : '\x00' ∉ render percentF (pathOf n r turn) := by
    unfold pathOf
    simp only
    have hn : ∀ x, '\x00' ∉ render percentF [.number x] := fun x => by rw [render_number]; exact percentF_noNul x
    split
    all_goals
      try simp only [List.append_assoc, pair, pair', render_append, List.mem_append, not_or]
      repeat' apply And.intro
      all_goals first
        | exact hc _ | exact hn _ | exact hq _ _ _ (by simp) (by simp) | exact hw _ (by simp)
  unfold describes
  simp only [render_append, List.mem_append, not_or]
  exact ⟨⟨⟨hw _ (by simp), hp⟩, hs⟩, hw _ (by simp)⟩

end MotionTextProof

open MotionTextProof

/-! ## The property -/

/-- **C125 (numbers).** `%f` shows a finite number rounded to six decimals. -/
theorem number_text (x : ℝ) : ∃ v, Reads (percentF (fin x)) v ∧ |v - x| ≤ 1 / 2 / 10 ^ 6 := by
  obtain ⟨h1, -⟩ := nearest_spec (y := |x| * 10 ^ 6) (by positivity)
  set k := nearest (|x| * 10 ^ 6) with hk
  obtain ⟨d1, d2, d3⟩ := decimal_spec (k / 10 ^ 6)
  obtain ⟨s1, s2⟩ := sixDigits_spec k
  have hv : ((k / 10 ^ 6 : Nat) : ℝ) + ((k % 10 ^ 6 : Nat) : ℝ) / 10 ^ 6 = k / 10 ^ 6 := by
    have h : ((10 ^ 6 * (k / 10 ^ 6) + k % 10 ^ 6 : Nat) : ℝ) = (k : ℝ) := by rw [Nat.div_add_mod]
    push_cast at h
    rw [← h]
    ring
  have hd : ∀ c ∈ decimal (k / 10 ^ 6) ++ sixDigits k, c.isDigit = true := by
    intro c hc
    rcases List.mem_append.1 hc with hc | hc
    · exact (d3 c hc).1
    · exact (s2 c hc).1
  have hb : _root_.abs ((k : ℝ) / 10 ^ 6 - |x|) ≤ 1 / 2 / 10 ^ 6 := by
    rw [show (k : ℝ) / 10 ^ 6 - |x| = (k - |x| * 10 ^ 6) / 10 ^ 6 by ring, abs_div, abs_of_pos (by norm_num : (0 : ℝ) < 10 ^ 6)]
    exact div_le_div_of_nonneg_right h1 (by norm_num)
  by_cases hx : x < 0
  · refine ⟨-(k / 10 ^ 6), ⟨['-'], decimal (k / 10 ^ 6), sixDigits k, ?_, d2, rfl, hd, .inr ⟨rfl, ?_⟩⟩, ?_⟩
    · simp only [percentF, if_pos hx, ← hk]
    · rw [d1, s1, hv]
    · rw [abs_of_neg hx] at hb
      rw [abs_le] at hb ⊢
      constructor <;> linarith [hb.1, hb.2]
  · refine ⟨k / 10 ^ 6, ⟨[], decimal (k / 10 ^ 6), sixDigits k, ?_, d2, rfl, hd, .inl ⟨rfl, ?_⟩⟩, ?_⟩
    · simp only [percentF, if_neg hx, ← hk]
    · rw [d1, s1, hv]
    · rwa [abs_of_nonneg (not_lt.1 hx)] at hb

/-- **C125 (memory).** After `motion::set(r)`, whatever the speed profile, `motion::toString` on a machine with up to three axes writes
one text, of at most 2600 characters, and nothing else; it returns its length. -/
theorem motion_text_fits {n : Nat} (hn : n ≤ 3) (x : Path) (r : SimplifiedMotion) (p : Profile)
    (h : Floats (describes n r p (fin 0))) (m : Mem) (out : Nat) :
    ∃ s, Wrote m (MotionText.motion n (MotionItem.setPath x r) p m out).1 out s ∧
      (MotionText.motion n (MotionItem.setPath x r) p m out).2 = s.length ∧ s.length ≤ 2600 := by
  obtain ⟨h1, h2⟩ := prints_motion (x := x) hn h
  rw [h2]
  exact ⟨_, wrote_sprintf noNul_motion m out, rfl, h1⟩

/-- **C125, partial (content).** The text describes the motion, unless it is an arc (with a change of angle). -/
theorem motion_text_partial {n : Nat} (hn : n ≤ 3) (x : Path) (r : SimplifiedMotion) (p : Profile)
    (h : Floats (describes n r p r.trajectory.deltaAngle))
    (hr : r.type ≠ .feedHelicalCW ∧ r.type ≠ .feedHelicalCCW ∨ r.trajectory.deltaAngle = fin 0) (m : Mem) (out : Nat) :
    Wrote m (MotionText.motion n (MotionItem.setPath x r) p m out).1 out
      (render percentF (describes n r p r.trajectory.deltaAngle)) := by
  have e : describes n r p r.trajectory.deltaAngle = describes n r p deltaAngle := by
    rcases hr with ⟨h1, h2⟩ | h1
    · unfold describes pathOf
      cases ht : r.type <;> simp_all
    · rw [h1]; rfl
  rw [e] at h ⊢
  rw [(prints_motion (x := x) hn h).2]
  exact wrote_sprintf noNul_motion m out

/-- **C125, partial (content).** The text of any motion, arcs included, describes it but for the end angle: it is given as if the
motion did not turn. -/
theorem motion_text_angle_partial {n : Nat} (hn : n ≤ 3) (x : Path) (r : SimplifiedMotion) (p : Profile)
    (h : Floats (describes n r p (fin 0))) (m : Mem) (out : Nat) :
    Wrote m (MotionText.motion n (MotionItem.setPath x r) p m out).1 out (render percentF (describes n r p (fin 0))) := by
  rw [(prints_motion (x := x) hn h).2]
  exact wrote_sprintf noNul_motion m out

/-- The text in memory is unique. -/
theorem wrote_unique {m m₁ m₂ : Mem} {out : Nat} {s t : List Char} (hs : Wrote m₁ m out s) (ht : Wrote m₂ m out t) : s = t := by
  have key : ∀ {m₁ m₂ : Mem} {s t : List Char}, Wrote m₁ m out s → Wrote m₂ m out t → s.length ≤ t.length := by
    intro m₁ m₂ s t hs ht
    by_contra hlt
    have h1 := hs.chars t.length (by omega)
    rw [ht.nul] at h1
    exact hs.noNul (h1 ▸ List.getElem_mem _)
  have hlen : s.length = t.length := le_antisymm (key hs ht) (key ht hs)
  refine List.ext_getElem hlen fun i h1 h2 => ?_
  rw [← hs.chars i h1, ← ht.chars i h2]

namespace TextExample

/-- An arc of radius 1 from angle 0 to angle 1. -/
noncomputable def arc : SimplifiedMotion :=
  { SimplifiedMotion.fresh 3 with
    type := .feedHelicalCCW
    trajectory := ⟨fin 1, fun _ => fin 0, fun _ => fin 0, 0, 1, fin 0, fin 0, fin 1, fin 0, fin 1⟩ }

theorem percentF_zero : percentF (fin 0) = "0.000000".toList := by
  have : nearest (|0| * 10 ^ 6) = 0 := by simp [nearest]
  simp only [percentF, this]
  rw [if_neg (lt_irrefl _)]
  decide +kernel

theorem percentF_one : percentF (fin 1) = "1.000000".toList := by
  have : nearest (|1| * 10 ^ 6) = 1000000 := by
    have h : ⌊(1000000 : ℝ)⌋₊ = 1000000 := Nat.floor_natCast 1000000
    norm_num [nearest, h]
  simp only [percentF, this]
  rw [if_neg (by norm_num)]
  decide +kernel

/-- **C125 violated (arcs).** The text of an arc that turns by one radian gives the start angle as its end angle: 0 instead of 1. -/
theorem motion_text_violated : ∃ (x : Path) (p : Profile), ∀ (m : Mem) (out : Nat),
    ¬Wrote m (MotionText.motion 3 (MotionItem.setPath x arc) p m out).1 out
      (render percentF (describes 3 arc p arc.trajectory.deltaAngle)) := by
  refine ⟨.zero 3, .zero, fun m out hw => ?_⟩
  have hf : Floats (describes 3 arc .zero deltaAngle) := by
    intro y hy
    simp [describes, pathOf, arc, speeds, ramp, quantity, coordinates, Profile.zero, AccDec.zero, Cruise.zero, deltaAngle,
      SimplifiedMotion.fresh, List.range_succ, Arith.lit] at hy
    rcases (by tauto : y = fin 0 ∨ y = fin 1) with h | h <;> subst h <;> norm_num [IsFloat]
  have h2 := wrote_sprintf (noNul_motion (n := 3) (r := arc) (p := .zero) (turn := deltaAngle)) m out
  rw [(prints_motion (n := 3) (x := .zero 3) le_rfl hf).2 m out] at hw
  have e := wrote_unique hw h2
  simp only [describes, List.append_assoc, render_append, pathOf, arc] at e
  simp only [List.append_cancel_left_eq, List.append_cancel_right_eq, render_quantity, List.append_assoc] at e
  rw [show deltaAngle = fin 0 from rfl, fin_add, fin_add, add_zero, zero_add, percentF_zero, percentF_one] at e
  simp at e

/-- A line of 1 mm along the first axis, at rest. -/
noncomputable def short : SimplifiedMotion :=
  { SimplifiedMotion.fresh 3 with
    type := .feedLinear
    trajectory := ⟨fin 1, fun _ => fin 0, fun i => if i = 0 then fin 1 else fin 0, 3, 3, fin 0, fin 0, fin 0, fin 0, fin 0⟩ }

theorem floats_short : Floats (describes 3 short .zero short.trajectory.deltaAngle) := by
  intro y hy
  simp [describes, pathOf, short, speeds, ramp, quantity, coordinates, Profile.zero, AccDec.zero, Cruise.zero,
    SimplifiedMotion.fresh, List.range_succ, Arith.lit] at hy
  rcases (by tauto : y = fin 0 ∨ y = fin 1) with h | h <;> subst h <;> norm_num [IsFloat]

/-- C125: the text of this line, and its beginning. -/
example (m : Mem) (out : Nat) : ∃ s, Wrote m (MotionText.motion 3 (MotionItem.setPath (.zero 3) short) .zero m out).1 out s ∧
    s.take 89 = "motionType :  Linear Trajectory : \n  startPosition = 0.000000 0.000000 0.000000 mm\n  positionChange = 1.000000".toList.take 89 := by
  refine ⟨_, motion_text_partial le_rfl _ short .zero floats_short (.inl ⟨by simp [short], by simp [short]⟩) m out, ?_⟩
  simp [describes, pathOf, short, render, coordinates, List.range_succ, percentF_zero, percentF_one]

/-- C125: 3.14159274 is shown as a number between 3.1415922 and 3.1415933. -/
example : ∃ v, Reads (percentF (fin 3.14159274)) v ∧ 3.1415922 ≤ v ∧ v ≤ 3.1415933 := by
  obtain ⟨v, h1, h2⟩ := number_text 3.14159274
  rw [abs_le] at h2
  exact ⟨v, h1, by norm_num at h2 ⊢; linarith [h2.1], by norm_num at h2 ⊢; linarith [h2.2]⟩

end TextExample

/-- **C125 (requests).** `simplifiedMotion::toString`: the type and the length (the unit is printed as seconds, though it is a length). -/
theorem request_text (r : SimplifiedMotion) (h : IsFloat r.trajectory.length) (m : Mem) (out : Nat) :
    ∃ s, Wrote m (MotionText.request r m out).1 out s ∧ (MotionText.request r m out).2 = s.length ∧ s.length ≤ 100 ∧
      s = "motionType = ".toList ++ r.type.name.toList ++ "\nlength = ".toList ++ percentF r.trajectory.length ++ " s\n".toList := by
  have hl := percentF_length h
  have ht : r.type.name.toList.length ≤ 14 ∧ '\x00' ∉ r.type.name.toList := by cases r.type <;> simp [MotionType.name]
  have hp : Prints (MotionText.request r)
      ("motionType = ".toList ++ r.type.name.toList ++ "\nlength = ".toList ++ percentF r.trajectory.length ++ " s\n".toList) := by
    refine Prints.all (.cons (fun _ _ => rfl) (.cons (.line _ _ _) .nil)) (by simp) (by simp) ?_
    simp
    omega
  rw [hp]
  refine ⟨_, wrote_sprintf ?_ m out, rfl, ?_, rfl⟩
  · simp only [List.mem_append, not_or]
    exact ⟨⟨⟨⟨by simp, ht.2⟩, by simp⟩, percentF_noNul _⟩, by simp⟩
  · simp
    omega

end Moovr.Props
