import Verif.Lemmas.GCodeDouble
import Verif.Props.GCodeText
/-!
# Properties of reading a line of G-code in double precision (C109)
-/
namespace Moovr.Props
open Float64

/-- A word as it is stored: the number is the nearest `double`. -/
noncomputable def stored (w : Word) : Word64 := ⟨w.letter, rnd w.number, w.intNumber⟩

theorem code_same (letter : Nat) {t : List Nat} (h : t.length ≤ 15) :
    Block64.intNumberOf letter (Block64.strtod64 t) = Block.intNumberOf letter (strtod t) := by
  unfold Block64.intNumberOf Block.intNumberOf Block64.strtod64
  rw [code_exact (short_strtod t h)]

/-- **C109** Binary fractions do no harm to the codes: with `strtod` and the product with ten rounded to double precision, every line
is read as the same words, with the same codes (or the same fault), as in exact arithmetic; the other numbers are the nearest
`double`s. -/
theorem reading_double (text : List Nat) :
    Block64.ofString text = (Block.ofString text).map fun b => b.words.map stored := by
  have key : ∀ (fuel : Nat) (line : List Nat) (b : Block), Block64.readWords fuel line (b.words.map stored) =
      (Block.readWords fuel line b).map fun b => b.words.map stored := by
    intro fuel
    induction fuel with
    | zero => intro line b; rfl
    | succ fuel ih =>
      intro line b
      cases line with
      | nil => rfl
      | cons c line =>
        unfold Block64.readWords Block.readWords
        rw [List.length_map]
        by_cases h1 : b.words.length < maxWords
        · rw [if_pos h1, if_pos h1]
          by_cases h2 : ¬ isLetter c = true
          · rw [if_pos h2, if_pos h2]; exact ih line b
          · rw [if_neg h2, if_neg h2]
            by_cases h3 : b.words.length < 16
            · rw [if_pos h3, if_pos h3, readNumber_eq _ _ (by simp)]
              simp only
              rw [code_same c (by simp)]
              split
              · rename_i he; simp only [he]; rfl
              · rename_i k he
                simp only [he]
                rw [← ih]
                simp [stored, Block64.strtod64]
            · rw [if_neg h3, if_neg h3]; rfl
        · rw [if_neg h1, if_neg h1]; rfl
  unfold Block64.ofString Block.ofString
  split
  · rename_i he; simp only [he]; rfl
  · rename_i line he
    simp only [he]
    exact key _ line Block.empty

/-- **C109**, for one word: a G or M number with at most one digit behind the point that is written in at most 15 characters is
recognised, although most tenths are no binary fractions. -/
theorem tenths_recognised {t : List Nat} (h : t.length ≤ 15) {k : Nat} (hk : k < 2 ^ 32) (hv : strtod t = k / 10) :
    Block64.intNumberOf 'G'.toNat (Block64.strtod64 t) = .ok k ∧ Block64.intNumberOf 'M'.toNat (Block64.strtod64 t) = .ok k := by
  have e : toUInt32 (strtod t * 10) = .ok k := by
    rw [hv, div_mul_cancel₀ _ (by norm_num)]
    unfold toUInt32
    rw [if_pos ⟨by have : (0 : ℚ) ≤ k := by positivity
                   linarith, by exact_mod_cast hk⟩]
    congr 1
  rw [code_same _ h, code_same _ h]
  unfold Block.intNumberOf
  simp only [true_or, or_true, if_true]
  exact ⟨e, e⟩

/-- The signs, which the interpreter looks at, are kept, too. -/
theorem sign_kept {t : List Nat} (h : t.length ≤ 15) :
    (0 ≤ Block64.strtod64 t ↔ 0 ≤ strtod t) ∧ (0 < Block64.strtod64 t ↔ 0 < strtod t) := by
  obtain ⟨n, d, e, hd, -⟩ := short_strtod t h
  have hp : (0 : ℝ) < 10 ^ d := by positivity
  have er : ((strtod t : ℚ) : ℝ) = n / 10 ^ d := by rw [e]; push_cast; rfl
  have hd14 : (10 : ℝ) ^ d ≤ 10 ^ 14 := pow_le_pow_right₀ (by norm_num) hd
  have h50 : (2 : ℝ) ^ (-50 : ℤ) ≤ 1 / 10 ^ d :=
    (show (2 : ℝ) ^ (-50 : ℤ) ≤ 1 / 10 ^ 14 by norm_num).trans (one_div_le_one_div_of_le hp hd14)
  have hpos : ∀ {x : ℝ}, 2 ^ (-50 : ℤ) ≤ x → 0 < rnd x := fun hx =>
    (Float32.two_zpow_pos (-50)).trans_le ((rnd_pow (e := -50) (by norm_num)).symm.le.trans (rnd_mono hx))
  have hle : 0 < strtod t → 0 < Block64.strtod64 t := by
    intro h0
    have h0' : (0 : ℝ) < strtod t := by exact_mod_cast h0
    have hn : 0 < n := by
      rw [er] at h0'
      have := (div_pos_iff_of_pos_right hp).1 h0'
      exact_mod_cast this
    apply hpos
    rw [er]
    exact h50.trans (div_le_div_of_nonneg_right (by exact_mod_cast hn) hp.le)
  have hlt : strtod t < 0 → Block64.strtod64 t < 0 := by
    intro h0
    have h0' : (0 : ℝ) < -(strtod t : ℝ) := by
      have : ((strtod t : ℚ) : ℝ) < 0 := by exact_mod_cast h0
      linarith
    have hn : 0 < -n := by
      rw [er, ← neg_div] at h0'
      have := (div_pos_iff_of_pos_right hp).1 h0'
      exact_mod_cast this
    have : 0 < rnd (-(strtod t : ℝ)) := by
      apply hpos
      rw [er, ← neg_div]
      exact h50.trans (div_le_div_of_nonneg_right (by exact_mod_cast hn) hp.le)
    rw [rnd_neg] at this
    unfold Block64.strtod64
    linarith
  have hz : strtod t = 0 → Block64.strtod64 t = 0 := by intro h0; unfold Block64.strtod64; rw [h0]; simp
  rcases lt_trichotomy (strtod t) 0 with h0 | h0 | h0
  · have := hlt h0
    exact ⟨⟨fun h => absurd h (not_le.2 this), fun h => absurd h (not_le.2 h0)⟩,
      ⟨fun h => absurd h (not_lt.2 this.le), fun h => absurd h (not_lt.2 h0.le)⟩⟩
  · rw [hz h0, h0]; simp
  · have := hle h0
    exact ⟨⟨fun _ => h0.le, fun _ => this.le⟩, ⟨fun _ => h0, fun _ => this⟩⟩

/-- "G59.1": 59.1 is no binary fraction, but ten times the nearest `double` is rounded to 591. -/
example : Block64.intNumberOf 'G'.toNat (Block64.strtod64 (codes "59.1")) = .ok 591 :=
  (tenths_recognised (k := 591) (by decide) (by norm_num) (by decide +kernel)).1

end Moovr.Props
