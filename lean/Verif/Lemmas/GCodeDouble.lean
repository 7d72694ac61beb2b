import Verif.Lemmas.Float64
import Verif.Lemmas.GCodeBlock
import Verif.Model.GCodeDouble
/-!
# Lemmas about numbers of G-code in double precision
-/
namespace Moovr.Float64
open Float32 (nearestEven nearestEven_near nearestEven_unique nearestEven_int nearestEven_mono two_zpow_pos)

/-- The exponent of a number that is not tiny. -/
theorem expo_normal {x : ℝ} (h : 2 ^ (-1022 : ℤ) ≤ |x|) : expo x = Int.log 2 |x| - 52 := by
  have hx : 0 < |x| := (two_zpow_pos _).trans_le h
  have : -1022 ≤ Int.log 2 |x| := (Int.zpow_le_iff_le_log (b := 2) (by norm_num) hx).1 (by push_cast; exact h)
  unfold expo
  omega

/-- Ten times a tenth, in double precision: the rounding errors cancel. -/
theorem ten_tenths {k : ℕ} (hk : k < 2 ^ 34) : rnd (rnd (k / 10) * 10) = k := by
  rcases Nat.eq_zero_or_pos k with h0 | h0
  · subst h0; simp
  have hkr : (1 : ℝ) ≤ k := by exact_mod_cast h0
  have hkr2 : (k : ℝ) < 2 ^ 34 := by exact_mod_cast hk
  set x : ℝ := k / 10 with hx
  have hx0 : 0 < x := by positivity
  have hbig : (2 : ℝ) ^ (-1022 : ℤ) ≤ |x| := by
    rw [abs_of_pos hx0]
    calc (2 : ℝ) ^ (-1022 : ℤ) ≤ 2 ^ (-4 : ℤ) := zpow_le_zpow_right₀ (by norm_num) (by norm_num)
      _ ≤ x := by rw [hx]; norm_num; linarith
  set L := Int.log 2 |x| with hL
  have hl1 : (2 : ℝ) ^ L ≤ x := by
    have := Int.zpow_log_le_self (b := 2) (by norm_num) (abs_pos.2 hx0.ne')
    push_cast at this
    rwa [← hL, abs_of_pos hx0] at this
  have hLhi : L ≤ 33 := by
    by_contra hc
    have : (2 : ℝ) ^ (34 : ℤ) ≤ 2 ^ L := zpow_le_zpow_right₀ (by norm_num) (by omega)
    have h5 : x < 2 ^ 34 := by rw [hx]; linarith
    norm_num at this h5
    linarith
  have hLlo : -4 ≤ L := by
    refine (Int.zpow_le_iff_le_log (b := 2) (by norm_num) (abs_pos.2 hx0.ne')).1 ?_
    rw [abs_of_pos hx0, hx]; push_cast; norm_num; linarith
  have ex : expo x = L - 52 := expo_normal hbig
  -- the quotient
  set q := nearestEven (x / 2 ^ (L - 52)) with hq
  have ey : rnd x = q * 2 ^ (L - 52) := by rw [rnd, ex]
  have hp : (0 : ℝ) < 2 ^ (L - 52) := two_zpow_pos _
  have hp2 : (0 : ℝ) < 2 ^ (L - 51) := two_zpow_pos _
  have e51 : (2 : ℝ) ^ (L - 51) = 2 * 2 ^ (L - 52) := by
    rw [show L - 51 = 1 + (L - 52) by ring, zpow_add₀ (by norm_num)]; norm_num
  have e0 : (2 : ℝ) ^ L = 2 ^ 52 * 2 ^ (L - 52) := by
    rw [← zpow_natCast (2 : ℝ) 52, ← zpow_add₀ (by norm_num)]; congr 1; push_cast; ring
  have hnear : |rnd x - x| ≤ 2 ^ (L - 52) / 2 := by have := rnd_near x; rwa [ex] at this
  have hlow : (2 : ℝ) ^ L ≤ rnd x := by
    have : rnd (2 ^ L) = 2 ^ L := rnd_pow (by omega)
    rw [← this]
    exact rnd_mono hl1
  -- the product
  set w := rnd x * 10 with hw
  obtain ⟨m, hm⟩ : ∃ m : ℤ, (k : ℝ) = m * 2 ^ (L - 51) := by
    refine ⟨k * 2 ^ (51 - L).toNat, ?_⟩
    push_cast
    rw [mul_assoc, ← zpow_natCast (2 : ℝ), Int.toNat_of_nonneg (by omega), ← zpow_add₀ (by norm_num)]
    simp
  have hwm : w = (5 * q : ℤ) * 2 ^ (L - 51) := by rw [hw, ey, e51]; push_cast; ring
  have hdiff : |5 * q - m| ≤ 2 := by
    have h1 : |((5 * q - m : ℤ) : ℝ)| * 2 ^ (L - 51) ≤ 5 / 2 * 2 ^ (L - 51) := by
      have e : ((5 * q - m : ℤ) : ℝ) * 2 ^ (L - 51) = (rnd x - x) * 10 := by
        push_cast at hwm ⊢
        rw [sub_mul, ← hwm, ← hm, hw, hx]; ring
      rw [← abs_of_pos hp2, ← abs_mul, e, abs_mul, abs_of_pos hp2, e51]
      norm_num
      linarith
    have h2 : |((5 * q - m : ℤ) : ℝ)| ≤ 5 / 2 := le_of_mul_le_mul_right h1 hp2
    have h3 : |((5 * q - m : ℤ) : ℝ)| < 3 := by linarith
    have h4 : |5 * q - m| < 3 := by exact_mod_cast h3
    omega
  have hw0 : 0 < w := by have := two_zpow_pos L; rw [hw]; linarith
  have hwlo : (2 : ℝ) ^ (L + 3) ≤ |w| := by
    rw [abs_of_pos hw0, hw, zpow_add₀ (by norm_num)]
    have := two_zpow_pos L
    norm_num
    linarith
  have hwhi : |w| < 2 ^ (50 : ℤ) := by
    rw [abs_of_pos hw0, hw]
    have h1 := (abs_le.1 hnear).2
    have h2 := two_zpow_pos (L - 52)
    have h4 : (2 : ℝ) ^ (L - 52) ≤ x := by linarith [hl1, e0]
    have h5 : x ≤ 2 ^ 34 / 10 := by rw [hx]; linarith
    norm_num at h5 ⊢
    linarith
  have hwbig : (2 : ℝ) ^ (-1022 : ℤ) ≤ |w| :=
    (zpow_le_zpow_right₀ (by norm_num) (by omega)).trans hwlo
  have ew : expo w = Int.log 2 |w| - 52 := expo_normal hwbig
  have hElo : L - 49 ≤ expo w := by
    have : L + 3 ≤ Int.log 2 |w| := (Int.zpow_le_iff_le_log (b := 2) (by norm_num) (abs_pos.2 hw0.ne')).1 (by push_cast; exact hwlo)
    omega
  have hEhi : expo w ≤ -3 := by
    have : Int.log 2 |w| < 50 := (Int.lt_zpow_iff_log_lt (b := 2) (by norm_num) (abs_pos.2 hw0.ne')).1 (by push_cast; exact hwhi)
    omega
  have hE : (0 : ℝ) < 2 ^ expo w := two_zpow_pos _
  -- the rounded product
  obtain ⟨n, hn⟩ : ∃ n : ℤ, (k : ℝ) = (2 * n : ℤ) * 2 ^ expo w := by
    refine ⟨k * 2 ^ (-expo w - 1).toNat, ?_⟩
    push_cast
    rw [show (2 : ℝ) * (k * 2 ^ (-expo w - 1).toNat) * 2 ^ expo w = k * (2 ^ (1 : ℤ) * 2 ^ (-expo w - 1).toNat * 2 ^ expo w) by
      norm_num; ring, ← zpow_natCast (2 : ℝ), Int.toNat_of_nonneg (by omega), ← zpow_add₀ (by norm_num), ← zpow_add₀ (by norm_num)]
    simp
  have hround : nearestEven (w / 2 ^ expo w) = 2 * n := by
    apply nearestEven_unique
    have h1 : |w / 2 ^ expo w - ((2 * n : ℤ) : ℝ)| ≤ 1 / 2 := by
      have e : w / 2 ^ expo w - ((2 * n : ℤ) : ℝ) = ((5 * q - m : ℤ) : ℝ) * 2 ^ (L - 51) / 2 ^ expo w := by
        rw [eq_div_iff hE.ne', sub_mul, div_mul_cancel₀ _ hE.ne', ← hn, hwm, hm]; push_cast; ring
      rw [e, abs_div, abs_of_pos hE, div_le_iff₀ hE, abs_mul, abs_of_pos hp2]
      have h2 : |((5 * q - m : ℤ) : ℝ)| ≤ 2 := by exact_mod_cast hdiff
      have h3 : (2 : ℝ) ^ (L - 49) ≤ 2 ^ expo w := zpow_le_zpow_right₀ (by norm_num) hElo
      have e49 : (2 : ℝ) ^ (L - 49) = 4 * 2 ^ (L - 51) := by
        rw [show L - 49 = 2 + (L - 51) by ring, zpow_add₀ (by norm_num)]; norm_num
      have := mul_le_mul_of_nonneg_right h2 hp2.le
      linarith
    rcases h1.lt_or_eq with h | h
    · exact .inl h
    · exact .inr ⟨h, even_two_mul n⟩
  rw [rnd, hround, ← hn]

/-- The error of two roundings. -/
theorem two_roundings {x : ℝ} (h : 2 ^ (-1000 : ℤ) ≤ |x|) : |rnd (rnd x * 10) - x * 10| ≤ |x| * 10 / 2 ^ 51 := by
  have h1 : |rnd x - x| ≤ |x| * 2 ^ (-53 : ℤ) :=
    rnd_relative ((zpow_le_zpow_right₀ (by norm_num) (by norm_num)).trans h)
  have hx : 0 < |x| := (two_zpow_pos _).trans_le h
  have hy : |rnd x| ≤ |x| + |x| * 2 ^ (-53 : ℤ) := by
    have := abs_sub_abs_le_abs_sub (rnd x) x
    linarith
  have hy2 : |x| - |x| * 2 ^ (-53 : ℤ) ≤ |rnd x| := by
    have := abs_sub_abs_le_abs_sub x (rnd x)
    rw [abs_sub_comm] at this
    linarith
  have h2 : |rnd (rnd x * 10) - rnd x * 10| ≤ |rnd x * 10| * 2 ^ (-53 : ℤ) := by
    apply rnd_relative
    rw [abs_mul]
    have e : (2 : ℝ) ^ (-1022 : ℤ) ≤ 2 ^ (-1000 : ℤ) := zpow_le_zpow_right₀ (by norm_num) (by norm_num)
    norm_num at hy2 e h ⊢
    linarith
  have h3 : |rnd (rnd x * 10) - x * 10| ≤ |rnd (rnd x * 10) - rnd x * 10| + |rnd x - x| * 10 := by
    have := abs_sub_le (rnd (rnd x * 10)) (rnd x * 10) (x * 10)
    rw [show rnd x * 10 - x * 10 = (rnd x - x) * 10 by ring, abs_mul, show |(10 : ℝ)| = 10 by norm_num] at this
    exact this
  rw [abs_mul, show |(10 : ℝ)| = 10 by norm_num] at h2
  norm_num at h1 h2 h3 hy ⊢
  linarith

end Moovr.Float64

namespace Moovr

/-- Numbers that can be written with at most 15 characters: at most 14 digits with a point, or at most 15 digits. -/
def Short (x : ℚ) : Prop :=
  ∃ (n : ℤ) (d : ℕ), x = n / 10 ^ d ∧ d ≤ 14 ∧ (d = 0 ∧ |n| < 10 ^ 15 ∨ 0 < d ∧ |n| < 10 ^ 14)

theorem digitsValue_lt (t : List Nat) (h : ∀ c ∈ t, isDigit c = true) : digitsValue t < 10 ^ t.length := by
  have key : ∀ (t : List Nat) (a : Nat), (∀ c ∈ t, isDigit c = true) →
      t.foldl (fun a c => 10 * a + (c - '0'.toNat)) a < (a + 1) * 10 ^ t.length := by
    intro t
    induction t with
    | nil => intro a _; simp
    | cons c t ih =>
      intro a h
      have h1 := ih (10 * a + (c - '0'.toNat)) fun c hc => h c (by simp [hc])
      have h2 := h c (by simp)
      unfold isDigit at h2
      rw [Bool.and_eq_true, decide_eq_true_eq, decide_eq_true_eq] at h2
      have h3 : 10 * a + (c - '0'.toNat) + 1 ≤ (a + 1) * 10 := by
        have e1 : '0'.toNat = 48 := rfl
        have e2 : '9'.toNat = 57 := rfl
        omega
      rw [List.foldl_cons, List.length_cons, pow_succ']
      calc _ < _ := h1
        _ ≤ (a + 1) * 10 * 10 ^ t.length := Nat.mul_le_mul_right _ h3
        _ = _ := by ring
  simpa [digitsValue] using key t 0 h

theorem short_unsigned (t : List Nat) (h : t.length ≤ 15) : Short (unsignedValue t) := by
  have hint : ∀ c ∈ t.takeWhile isDigit, isDigit c = true := fun c hc => List.mem_takeWhile_imp hc
  have hl : (t.takeWhile isDigit).length + (t.dropWhile isDigit).length = t.length := by
    rw [← List.length_append, List.takeWhile_append_dropWhile]
  have hplain : Short (digitsValue (t.takeWhile isDigit) : ℚ) := by
    refine ⟨digitsValue (t.takeWhile isDigit), 0, by simp, by omega, .inl ⟨rfl, ?_⟩⟩
    have h1 := digitsValue_lt _ hint
    have h2 : 10 ^ (t.takeWhile isDigit).length ≤ 10 ^ 15 := Nat.pow_le_pow_right (by omega) (by omega)
    rw [Nat.abs_cast]
    exact_mod_cast h1.trans_le h2
  unfold unsignedValue
  simp only
  split
  · rename_i c rest e
    rw [e, List.length_cons] at hl
    split_ifs
    · set frac := rest.takeWhile isDigit with hf
      have hfr : ∀ c ∈ frac, isDigit c = true := fun c hc => List.mem_takeWhile_imp hc
      have hfl : frac.length ≤ rest.length := by rw [hf]; exact (List.takeWhile_sublist _).length_le
      have h1 := digitsValue_lt (t.takeWhile isDigit ++ frac) (by
        intro c hc
        rcases List.mem_append.1 hc with hc | hc
        · exact hint c hc
        · exact hfr c hc)
      have h2 : 10 ^ (t.takeWhile isDigit ++ frac).length ≤ 10 ^ 14 :=
        Nat.pow_le_pow_right (by omega) (by rw [List.length_append]; omega)
      have h3 : |((digitsValue (t.takeWhile isDigit ++ frac) : ℕ) : ℤ)| < 10 ^ 14 := by
        rw [Nat.abs_cast]
        exact_mod_cast h1.trans_le h2
      refine ⟨digitsValue (t.takeWhile isDigit ++ frac), frac.length, by simp, by omega, ?_⟩
      rcases Nat.eq_zero_or_pos frac.length with h0 | h0
      · exact .inl ⟨h0, h3.trans (by norm_num)⟩
      · exact .inr ⟨h0, h3⟩
    · exact hplain
  · exact hplain

theorem Short.neg {x : ℚ} (h : Short x) : Short (-x) := by
  obtain ⟨n, d, e, h1, h2⟩ := h
  exact ⟨-n, d, by rw [e]; push_cast; ring, h1, by rwa [abs_neg]⟩

/-- The number of a text of at most 15 characters. -/
theorem short_strtod (t : List Nat) (h : t.length ≤ 15) : Short (strtod t) := by
  have hl : (t.dropWhile isSpace).length ≤ 15 := ((List.dropWhile_sublist _).length_le).trans h
  unfold strtod
  split
  · rename_i c rest e
    rw [e, List.length_cons] at hl
    split_ifs
    · exact (short_unsigned rest (by omega)).neg
    · exact short_unsigned rest (by omega)
    · exact short_unsigned _ (by rw [List.length_cons]; omega)
  · exact ⟨0, 0, by simp, by omega, .inl ⟨rfl, by norm_num⟩⟩

/-- The exact conversion, in real numbers. -/
theorem toUInt32_real (q : ℚ) : toUInt32 q = doubleToUInt32 q := by
  unfold toUInt32 doubleToUInt32
  have e1 : (-1 < q ∧ q < 2 ^ 32) ↔ (-1 < (q : ℝ) ∧ (q : ℝ) < 2 ^ 32) :=
    and_congr (by rw [← Rat.cast_lt (K := ℝ)]; push_cast; rfl) (by rw [← Rat.cast_lt (K := ℝ)]; push_cast; rfl)
  have e2 : ⌊(q : ℝ)⌋ = q.floor := Rat.floor_cast q
  simp only [e1, e2]

theorem doubleToUInt32_error {x : ℝ} (h : x ≤ -1 ∨ 2 ^ 32 ≤ x) : doubleToUInt32 x = .error .conversion := by
  unfold doubleToUInt32
  rw [if_neg]
  rintro ⟨h1, h2⟩
  rcases h with h | h <;> linarith

theorem doubleToUInt32_congr {x y : ℝ} (h : ∀ j : ℤ, ((j : ℝ) ≤ x ↔ (j : ℝ) ≤ y) ∧ ((j : ℝ) < x ↔ (j : ℝ) < y)) :
    doubleToUInt32 x = doubleToUInt32 y := by
  have e1 : -1 < x ↔ -1 < y := by have := (h (-1)).2; push_cast at this; exact this
  have e2 : x < 2 ^ 32 ↔ y < 2 ^ 32 := by
    have := (h (2 ^ 32)).1; push_cast at this; norm_num; rw [← not_le, ← not_le, this]
  have e3 : ⌊x⌋ = ⌊y⌋ := by
    apply le_antisymm
    · exact Int.le_floor.2 ((h _).1.1 (Int.floor_le x))
    · exact Int.le_floor.2 ((h _).1.2 (Int.floor_le y))
  unfold doubleToUInt32
  simp only [e1, e2, e3]

open Float64 in
/-- The code of a G or M word is the same in double precision. -/
theorem code_exact {x : ℚ} (h : Short x) : doubleToUInt32 (rnd (rnd x * 10)) = toUInt32 (x * 10) := by
  rw [toUInt32_real]
  push_cast
  rcases eq_or_ne x 0 with h0 | h0
  · subst h0; simp
  obtain ⟨n, d, e, hd, hn⟩ := h
  have hp : (0 : ℝ) < 10 ^ d := by positivity
  have er : (x : ℝ) = n / 10 ^ d := by rw [e]; push_cast; rfl
  have hn0 : n ≠ 0 := by rintro rfl; exact h0 (by rw [e]; simp)
  have hn1 : (1 : ℝ) ≤ |(n : ℝ)| := by exact_mod_cast Int.one_le_abs hn0
  have hax : |(x : ℝ)| = |(n : ℝ)| / 10 ^ d := by rw [er, abs_div, abs_of_pos hp]
  have hd14 : (10 : ℝ) ^ d ≤ 10 ^ 14 := pow_le_pow_right₀ (by norm_num) hd
  have hbig : (2 : ℝ) ^ (-1000 : ℤ) ≤ |(x : ℝ)| := by
    rw [hax]
    calc (2 : ℝ) ^ (-1000 : ℤ) ≤ 2 ^ (-50 : ℤ) := zpow_le_zpow_right₀ (by norm_num) (by norm_num)
      _ ≤ 1 / 10 ^ 14 := by norm_num
      _ ≤ 1 / 10 ^ d := one_div_le_one_div_of_le hp hd14
      _ ≤ _ := div_le_div_of_nonneg_right hn1 hp.le
  have herr := two_roundings hbig
  by_cases hint : ∃ K : ℤ, (x : ℝ) * 10 = K
  · obtain ⟨K, hK⟩ := hint
    by_cases hs : |K| < 2 ^ 34
    · suffices rnd (rnd x * 10) = K by rw [this, hK]
      have hx : (x : ℝ) = K / 10 := by linarith
      rcases le_total 0 K with hk | hk
      · obtain ⟨k, rfl⟩ := Int.eq_ofNat_of_zero_le hk
        rw [hx]
        have := ten_tenths (k := k) (by rw [Nat.abs_cast] at hs; exact_mod_cast hs)
        simpa using this
      · obtain ⟨k, hk'⟩ := Int.eq_ofNat_of_zero_le (by omega : 0 ≤ -K)
        have e1 : (K : ℝ) = -(k : ℝ) := by
          have : K = -(k : ℤ) := by omega
          rw [this]; push_cast; rfl
        have := ten_tenths (k := k) (by
          rw [show K = -(k : ℤ) by omega, abs_neg, Nat.abs_cast] at hs; exact_mod_cast hs)
        rw [hx, e1, neg_div, rnd_neg, neg_mul, rnd_neg, this]
    · have hK' : (2 : ℝ) ^ 34 ≤ |(x : ℝ)| * 10 := by
        rw [show |(x : ℝ)| * 10 = |(x : ℝ) * 10| by rw [abs_mul]; norm_num, hK]
        exact_mod_cast not_lt.1 hs
      have h1 := abs_le.1 herr
      have hx0 := abs_nonneg (x : ℝ)
      rcases abs_cases (x : ℝ) with ⟨ha, hb⟩ | ⟨ha, hb⟩
      · rw [doubleToUInt32_error (.inr ?_), doubleToUInt32_error (.inr ?_)]
        · rw [ha] at hK'; norm_num at hK' ⊢; linarith
        · rw [ha] at hK' h1; norm_num at hK' h1 ⊢; linarith
      · rw [doubleToUInt32_error (.inl ?_), doubleToUInt32_error (.inl ?_)]
        · rw [ha] at hK'; norm_num at hK' ⊢; linarith
        · rw [ha] at hK' h1; norm_num at hK' h1 ⊢; linarith
  · -- at a distance from every integer
    have hd0 : 0 < d ∧ |n| < 10 ^ 14 := by
      rcases hn with ⟨rfl, -⟩ | hn
      · exact absurd ⟨n * 10, by rw [er]; push_cast; ring⟩ hint
      · exact hn
    obtain ⟨c, rfl⟩ : ∃ c, d = c + 1 := ⟨d - 1, by omega⟩
    have hc : (0 : ℝ) < 10 ^ c := by positivity
    have ex10 : (x : ℝ) * 10 = n / 10 ^ c := by rw [er, pow_succ]; field_simp
    have hgap : ∀ j : ℤ, 1 / 10 ^ c ≤ |(x : ℝ) * 10 - j| := by
      intro j
      have e1 : (x : ℝ) * 10 - j = ((n - j * 10 ^ c : ℤ) : ℝ) / 10 ^ c := by
        rw [ex10]; push_cast; field_simp
      have hne : n - j * 10 ^ c ≠ 0 := by
        intro hz
        apply hint
        refine ⟨j, ?_⟩
        rw [hz] at e1
        simp at e1
        linarith
      rw [e1, abs_div, abs_of_pos hc]
      have : (1 : ℝ) ≤ |((n - j * 10 ^ c : ℤ) : ℝ)| := by exact_mod_cast Int.one_le_abs hne
      exact div_le_div_of_nonneg_right this hc.le
    have hsmall : |rnd (rnd x * 10) - x * 10| < 1 / 10 ^ c := by
      refine herr.trans_lt ?_
      rw [show |(x : ℝ)| * 10 = |(x : ℝ) * 10| by rw [abs_mul]; norm_num, ex10, abs_div, abs_of_pos hc, div_div,
        div_lt_div_iff₀ (by positivity) hc]
      have : |(n : ℝ)| < 10 ^ 14 := by exact_mod_cast hd0.2
      have h2 := mul_lt_mul_of_pos_right this hc
      have h3 : (10 : ℝ) ^ 14 * 10 ^ c ≤ 1 * (10 ^ c * 2 ^ 51) := by
        rw [one_mul, mul_comm]; exact mul_le_mul_of_nonneg_left (by norm_num) hc.le
      linarith
    apply doubleToUInt32_congr
    intro j
    have h1 := abs_lt.1 hsmall
    have h2 := hgap j
    rcases abs_cases ((x : ℝ) * 10 - j) with ⟨ha, hb⟩ | ⟨ha, hb⟩
    all_goals
      rw [ha] at h2
      constructor <;> constructor <;> intro <;> linarith

end Moovr
