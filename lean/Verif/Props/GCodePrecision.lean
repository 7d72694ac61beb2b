import Mathlib.Analysis.Real.Pi.Bounds
import Mathlib.Analysis.SpecialFunctions.Trigonometric.Bounds
import Verif.Lemmas.Double
import Verif.Props.GCodePosition
/-!
# Properties of the positions of the G-code interpreter in double precision (C110, C111)
-/
namespace Moovr.Props
open GCode GCode.Parser Float64

/-- A coordinate of a move: the unit, the distance mode and the number that is written. -/
structure Coord where
  unit : UnitMode
  distance : DistanceMode
  value : ℚ

/-- Where the move leads (the origins of the work coordinates are zero). -/
def place (c : ℚ) (l : Coord) : ℚ := (if l.distance = .G91 then c else 0) + mm l.unit l.value

/-- Where the move leads in double precision. -/
noncomputable def place64 (c : ℝ) (l : Coord) : ℝ := GCode64.next l.unit l.distance 0 c (rnd l.value)

/-! ## C110 -/

/-- `place` is what the interpreter calculates in exact arithmetic. -/
theorem place_is_position {p p' : Parser} {m m' : SimplifiedMotion} (hr : Rest p) (h : p.parseBlock m = .ok (p', m'))
    (hm : Moved p' m') {i : Nat} (hi : i < 3) (ho : ∀ s, p.state.wcsOrigin s i = 0) :
    p'.state.currentPosition i = place (p.state.currentPosition i)
      ⟨p'.state.modal.unit, p'.state.modal.distance, p'.state.letterValue (axisLetter i)⟩ := by
  rw [(moved_axis hr h hm hi).1, ho, zero_add]
  rfl

theorem mm_cast (u : UnitMode) (x : ℚ) : ((mm u x : ℚ) : ℝ) = if u = .G20 then (x : ℝ) * (254 / 10) else x := by
  unfold mm
  split_ifs <;> push_cast <;> ring

/-- One move: the error of the position before is kept in incremental mode and forgotten in absolute mode; the calculation adds
little. -/
theorem coord_double {c : ℚ} {c' B ε : ℝ} (l : Coord) (hB : 1 ≤ B) (hε : ε ≤ B / 4) (hc : |c' - c| ≤ ε) (hv : |((mm l.unit l.value : ℚ) : ℝ)| ≤ B)
    (hp : |((place c l : ℚ) : ℝ)| ≤ B) :
    |place64 c' l - place c l| ≤ (if l.distance = .G91 then ε else 0) + B / 2 ^ 50 := by
  have hv' := hv
  rw [mm_cast] at hv'
  have ht := GCode64.inMm_near hB hv'
  rw [← mm_cast] at ht
  set t := GCode64.inMm l.unit (rnd l.value)
  have e : place64 c' l = rnd (if l.distance = .G91 then rnd (c' + t) else t) := by
    unfold place64 GCode64.next
    simp only [zero_add]
    rfl
  rw [e]
  unfold place at hp ⊢
  have h0 := (abs_nonneg _).trans hc
  split_ifs at hp ⊢ with h
  · push_cast at hp ⊢
    rw [rnd_rnd]
    have e1 : |c' + t - (c + (mm l.unit l.value : ℚ))| ≤ ε + B / 2 ^ 51 := by
      rw [show c' + t - (c + ((mm l.unit l.value : ℚ) : ℝ)) = (c' - c) + (t - (mm l.unit l.value : ℚ)) by ring]
      exact (abs_add_le _ _).trans (add_le_add hc ht)
    have e2 : |c' + t| ≤ B * 2 := by
      have := abs_sub_abs_le_abs_sub (c' + t) (c + ((mm l.unit l.value : ℚ) : ℝ))
      norm_num at e1
      linarith
    have e3 := GCode64.rnd_le e2 (by linarith)
    have e4 := abs_sub_le (rnd (c' + t)) (c' + t) (c + ((mm l.unit l.value : ℚ) : ℝ))
    norm_num at e1 e3 ⊢
    linarith
  · push_cast at hp ⊢
    simp only [zero_add] at hp ⊢
    have e2 : |t| ≤ B * 2 := by
      have := abs_sub_abs_le_abs_sub t ((mm l.unit l.value : ℚ) : ℝ)
      norm_num at ht
      linarith
    have e3 := GCode64.rnd_le e2 (by linarith)
    have e4 := abs_sub_le (rnd t) t ((mm l.unit l.value : ℚ) : ℝ)
    norm_num at ht e3 ⊢
    linarith

/-- The number of moves since the last absolute one, that one included (of all moves if there is none). -/
def sinceAbsolute (legs : List Coord) : Nat := legs.foldl (fun n l => if l.distance = .G91 then n + 1 else 1) 0

theorem sinceAbsolute_append (legs : List Coord) (l : Coord) :
    sinceAbsolute (legs ++ [l]) = if l.distance = .G91 then sinceAbsolute legs + 1 else 1 := by
  simp [sinceAbsolute]

theorem sinceAbsolute_le (legs : List Coord) : sinceAbsolute legs ≤ legs.length := by
  induction legs using List.reverseRecOn with
  | nil => simp [sinceAbsolute]
  | append_singleton legs l ih =>
    rw [sinceAbsolute_append, List.length_append, List.length_singleton]
    split_ifs <;> omega

/-- **C110** The position of the interpreter in double precision: after any number of moves (up to 2^48) with coordinates and positions
of at most `B` mm, it differs from the exact one by at most `n B / 2^50`, where `n` counts the moves since the last absolute one. -/
theorem position_double (c : ℚ) (legs : List Coord) (B : ℝ) (hB : 1 ≤ B) (hn : legs.length ≤ 2 ^ 48)
    (hv : ∀ l ∈ legs, |((mm l.unit l.value : ℚ) : ℝ)| ≤ B)
    (hp : ∀ k, |(((legs.take k).foldl place c : ℚ) : ℝ)| ≤ B) :
    |legs.foldl place64 c - (legs.foldl place c : ℚ)| ≤ sinceAbsolute legs * (B / 2 ^ 50) := by
  induction legs using List.reverseRecOn with
  | nil => simp [sinceAbsolute]
  | append_singleton legs l ih =>
    rw [List.length_append, List.length_singleton] at hn
    have ih := ih (by omega) (fun x hx => hv x (by simp [hx])) (by
      intro k
      rcases le_total k legs.length with hk | hk
      · have := hp k
        rwa [List.take_append_of_le_length hk] at this
      · have := hp legs.length
        rw [List.take_append_of_le_length le_rfl, List.take_length] at this
        rwa [List.take_of_length_le hk])
    rw [List.foldl_append, List.foldl_append, List.foldl_cons, List.foldl_cons, List.foldl_nil, List.foldl_nil, sinceAbsolute_append]
    have hle : (sinceAbsolute legs : ℝ) ≤ 2 ^ 48 := by
      have := sinceAbsolute_le legs
      exact_mod_cast (by omega : sinceAbsolute legs ≤ 2 ^ 48)
    have hB0 : 0 ≤ B / 2 ^ 50 := by positivity
    have := coord_double (c := legs.foldl place c) (c' := legs.foldl place64 c) l hB (ε := sinceAbsolute legs * (B / 2 ^ 50))
      (by have := mul_le_mul_of_nonneg_right hle hB0
          norm_num at this ⊢
          linarith) ih (hv l (by simp)) (by
        have := hp (legs.length + 1)
        rwa [List.take_of_length_le (by simp), List.foldl_append] at this)
    refine this.trans (le_of_eq ?_)
    split_ifs <;> push_cast <;> ring

/-- **C110** In absolute mode and mm the position is the `double` nearest to the number that is written, whatever has been before. -/
theorem absolute_double (c : ℝ) (x : ℚ) : place64 c ⟨.G21, .G90, x⟩ = rnd x := by
  simp [place64, GCode64.next, GCode64.inMm, rnd_rnd]

/-- In incremental mode the errors do add up: 0.1, 0.2 and -0.3 mm do not lead back. -/
theorem increments_double :
    [(⟨.G21, .G91, 1 / 10⟩ : Coord), ⟨.G21, .G91, 2 / 10⟩, ⟨.G21, .G91, -3 / 10⟩].foldl place 0 = 0 ∧
    [(⟨.G21, .G91, 1 / 10⟩ : Coord), ⟨.G21, .G91, 2 / 10⟩, ⟨.G21, .G91, -3 / 10⟩].foldl place64 0 = 1 / 2 ^ 54 := by
  refine ⟨by decide +kernel, ?_⟩
  have e1 : rnd (1 / 10) = 7205759403792794 * 2 ^ (-56 : ℤ) := by
    have := rnd_eval (x := 1 / 10) 7205759403792794 (-56) (by norm_num) (by rw [abs_of_pos] <;> norm_num)
      (by rw [abs_of_pos] <;> norm_num) (.inl (by rw [abs_lt]; constructor <;> norm_num))
    exact_mod_cast this
  have e2 : rnd (2 / 10) = 7205759403792794 * 2 ^ (-55 : ℤ) := by
    have := rnd_eval (x := 2 / 10) 7205759403792794 (-55) (by norm_num) (by rw [abs_of_pos] <;> norm_num)
      (by rw [abs_of_pos] <;> norm_num) (.inl (by rw [abs_lt]; constructor <;> norm_num))
    exact_mod_cast this
  have e3 : rnd (-3 / 10) = -(5404319552844595 * 2 ^ (-54 : ℤ)) := by
    rw [neg_div, rnd_neg]
    have := rnd_eval (x := 3 / 10) 5404319552844595 (-54) (by norm_num) (by rw [abs_of_pos] <;> norm_num)
      (by rw [abs_of_pos] <;> norm_num) (.inl (by rw [abs_lt]; constructor <;> norm_num))
    rw [show rnd (3 / 10) = 5404319552844595 * 2 ^ (-54 : ℤ) from by exact_mod_cast this]
  have e4 : rnd (7205759403792794 * 2 ^ (-56 : ℤ) + 7205759403792794 * 2 ^ (-55 : ℤ)) = 5404319552844596 * 2 ^ (-54 : ℤ) := by
    have := rnd_eval (x := 7205759403792794 * 2 ^ (-56 : ℤ) + 7205759403792794 * 2 ^ (-55 : ℤ)) 5404319552844596 (-54) (by norm_num)
      (by rw [abs_of_pos] <;> norm_num) (by rw [abs_of_pos] <;> norm_num)
      (.inr ⟨by rw [abs_of_neg] <;> norm_num, by decide +kernel⟩)
    exact_mod_cast this
  have e5 : rnd (5404319552844596 * 2 ^ (-54 : ℤ) + -(5404319552844595 * 2 ^ (-54 : ℤ))) = 1 / 2 ^ 54 := by
    have := rnd_pow (e := -54) (by norm_num)
    rw [show (5404319552844596 * 2 ^ (-54 : ℤ) + -(5404319552844595 * 2 ^ (-54 : ℤ)) : ℝ) = 2 ^ (-54 : ℤ) by ring, this]
    norm_num
  have step : ∀ (c : ℝ) (x : ℚ), place64 c ⟨.G21, .G91, x⟩ = rnd (c + rnd x) := by
    intro c x; simp [place64, GCode64.next, GCode64.inMm, rnd_rnd]
  simp only [List.foldl_cons, List.foldl_nil, step]
  push_cast
  rw [e1, e2, e3, zero_add, ← e1, rnd_rnd, e1, e4, e5]

/-- The bound for these three moves. -/
example : |[(⟨.G21, .G91, 1 / 10⟩ : Coord), ⟨.G21, .G91, 2 / 10⟩, ⟨.G21, .G91, -3 / 10⟩].foldl place64 0| ≤ 3 * (1 / 2 ^ 50) := by
  have := position_double 0 [⟨.G21, .G91, 1 / 10⟩, ⟨.G21, .G91, 2 / 10⟩, ⟨.G21, .G91, -3 / 10⟩] 1 le_rfl (by norm_num)
    (by
      simp only [List.mem_cons, List.not_mem_nil, or_false]
      rintro l (rfl | rfl | rfl) <;> rw [mm_cast, if_neg (by decide), abs_le] <;> constructor <;> norm_num)
    (by
      intro k
      match k with
      | 0 => simp
      | 1 => simp [place, mm]; norm_num
      | 2 => simp [place, mm]; norm_num
      | n + 3 => simp [place, mm]; norm_num)
  rw [increments_double.1] at this
  simpa [sinceAbsolute] using this

/-! ## C111 -/

/-- `2 * pi` is near to the exact value. -/
theorem two_pi_near : |rnd (2 * GCode64.pi) - 2 * Real.pi| ≤ 1 / 2 ^ 49 := by
  have h1 := Real.pi_gt_d20
  have h2 := Real.pi_lt_d20
  have h3 : |GCode64.pi - 3141592653589793238463 / 10 ^ 21| ≤ 4 / 2 ^ 53 :=
    GCode64.rnd_le (by rw [abs_of_pos] <;> norm_num) (by norm_num)
  have h3' := abs_le.1 h3
  have h4 : |rnd (2 * GCode64.pi) - 2 * GCode64.pi| ≤ 7 / 2 ^ 53 := by
    refine GCode64.rnd_le ?_ (by norm_num)
    norm_num at h3'
    rw [abs_le]; constructor <;> linarith
  have h4' := abs_le.1 h4
  norm_num at h1 h2 h3' h4' ⊢
  rw [abs_le]
  constructor <;> linarith

/-- What is assumed of `atan2`: an error of at most 2^-51 (less than one unit in the last place of the largest results). -/
def Atan2Near (atan2 : ℝ → ℝ → ℝ) : Prop := ∀ y x, |atan2 y x - Complex.arg ⟨x, y⟩| ≤ 1 / 2 ^ 51

/-- **C111**, partial: an arc whose end is, in double precision, the place where it starts is a full circle in the direction of G2 or G3,
whatever `atan2` returns. By `absolute_double` this is so for an arc in absolute mode that leads to the coordinates written in the block
before, and for an arc in incremental mode without displacement (`next_same`). Missing: positions that are only equal in exact
arithmetic (`full_circle_violated`). -/
theorem full_circle_partial (atan2 : ℝ → ℝ → ℝ) (x y cx cy : ℝ) :
    |(GCode64.angles atan2 true x y x y cx cy).2 - -(2 * Real.pi)| ≤ 1 / 2 ^ 49 ∧
    |(GCode64.angles atan2 false x y x y cx cy).2 - 2 * Real.pi| ≤ 1 / 2 ^ 49 := by
  unfold GCode64.angles
  simp only [sub_self, rnd_zero, le_refl, if_true, if_false, Bool.false_eq_true, zero_add, zero_sub, rnd_neg, rnd_rnd]
  refine ⟨?_, two_pi_near⟩
  rw [neg_sub_neg, abs_sub_comm]
  exact two_pi_near

theorem next_same (c : ℝ) (hc : rnd c = c) : place64 c ⟨.G21, .G91, 0⟩ = c := by
  simp [place64, GCode64.next, GCode64.inMm, hc]

/-- A direction a little below the negative axis. -/
theorem arg_below {u : ℝ} (h0 : 0 < u) (h1 : u ≤ 1 / 2 ^ 50) :
    -Real.pi ≤ Complex.arg ⟨-5, -u⟩ ∧ Complex.arg ⟨-5, -u⟩ ≤ -Real.pi + 1 / 2 ^ 50 := by
  have hz : ‖(⟨-5, -u⟩ : ℂ)‖ ≥ 5 := by
    have := Complex.abs_re_le_norm (⟨-5, -u⟩ : ℂ)
    simpa using this
  rw [Complex.arg_of_re_neg_of_im_neg (by simp) (by simpa using h0)]
  have e : (-(⟨-5, -u⟩ : ℂ)).im = u := by simp
  rw [e]
  set w := u / ‖(⟨-5, -u⟩ : ℂ)‖ with hw
  have hw0 : 0 ≤ w := div_nonneg h0.le (norm_nonneg _)
  have hw1 : w ≤ u / 5 := div_le_div_of_nonneg_left h0.le (by norm_num) hz
  have ha0 : 0 ≤ Real.arcsin w := Real.arcsin_nonneg.2 hw0
  have ha1 : Real.arcsin w ≤ Real.pi / 2 := Real.arcsin_le_pi_div_two w
  have hs : Real.sin (Real.arcsin w) = w := Real.sin_arcsin (by linarith) (by norm_num at h1; linarith)
  have hj := Real.mul_le_sin ha0 ha1
  rw [hs] at hj
  have hp := Real.pi_pos
  have hp4 := Real.pi_le_four
  have hb : Real.arcsin w ≤ 2 * w := by
    have : Real.arcsin w * 2 ≤ w * Real.pi := by
      rw [div_mul_eq_mul_div, div_le_iff₀ hp] at hj
      linarith
    nlinarith
  constructor
  · linarith
  · linarith

/-- **C111** is violated: after the increments 0.1, 0.2 and -0.3 in Y, in exact arithmetic the position is again (0, 0), and
"G90 G3 X0 Y0 I5 J0" is a full circle with a radius of 5 mm. In double precision the interpreter calculates a swept angle of less than
2^-46: nothing is milled. (This is so for every `atan2` with the usual precision.) -/
theorem full_circle_violated (atan2 : ℝ → ℝ → ℝ) (h : Atan2Near atan2) :
    let y := [(⟨.G21, .G91, 1 / 10⟩ : Coord), ⟨.G21, .G91, 2 / 10⟩, ⟨.G21, .G91, -3 / 10⟩].foldl place64 0
    |(GCode64.angles atan2 false 0 y (place64 0 ⟨.G21, .G90, 0⟩) (place64 y ⟨.G21, .G90, 0⟩)
      (GCode64.center .G21 0 (rnd 5)) (GCode64.center .G21 y (rnd 0))).2| ≤ 1 / 2 ^ 46 := by
  intro y
  have hy : y = 1 / 2 ^ 54 := increments_double.2
  have r5 : rnd 5 = 5 := by simpa using rnd_int (m := 5) (by norm_num)
  have ry : rnd y = y := by
    have := rnd_pow (e := -54) (by norm_num)
    rw [hy]
    norm_num at this ⊢
    exact this
  have hc0 : GCode64.center .G21 0 (rnd 5) = 5 := by simp [GCode64.center, GCode64.inMm, r5]
  have hc1 : GCode64.center .G21 y (rnd 0) = y := by simp [GCode64.center, GCode64.inMm, ry]
  rw [absolute_double, absolute_double, hc0, hc1]
  unfold GCode64.angles
  simp only [Rat.cast_zero, rnd_zero, sub_self, zero_sub, rnd_neg, r5, ry, Bool.false_eq_true, if_false]
  have h1 := abs_le.1 (h 0 (-5))
  have h2 := abs_le.1 (h (-y) (-5))
  have ea : Complex.arg ⟨-5, 0⟩ = Real.pi := by
    have := Complex.arg_ofReal_of_neg (x := -5) (by norm_num)
    rwa [show ((-5 : ℝ) : ℂ) = ⟨-5, 0⟩ from rfl] at this
  rw [ea] at h1
  have hb := arg_below (u := y) (by rw [hy]; norm_num) (by rw [hy]; norm_num)
  have hp1 := Real.pi_gt_three
  have hp2 := Real.pi_le_four
  set a := atan2 0 (-5)
  set b := atan2 (-y) (-5)
  have h3 := abs_le.1 (GCode64.rnd_le (x := b - a) (X := 9) (by norm_num at h1 h2 hb; rw [abs_le]; constructor <;> linarith) (by norm_num))
  have h4 := abs_le.1 two_pi_near
  norm_num at h1 h2 h3 h4 hb
  rw [if_pos (by linarith)]
  have h5 := rnd_error_add (rnd (b - a) + rnd (2 * GCode64.pi))
  have h6 : |rnd (b - a) + rnd (2 * GCode64.pi)| ≤ 1 / 2 ^ 47 := by
    norm_num
    rw [abs_le]; constructor <;> linarith
  have h7 := abs_sub_abs_le_abs_sub (rnd (rnd (b - a) + rnd (2 * GCode64.pi))) (rnd (b - a) + rnd (2 * GCode64.pi))
  have h8 := GCode64.tiny
  norm_num at h5 h6 h8 ⊢
  linarith

/-- Without the increments, the same block is a full circle. -/
example (atan2 : ℝ → ℝ → ℝ) :
    |(GCode64.angles atan2 false 0 0 (place64 0 ⟨.G21, .G90, 0⟩) (place64 0 ⟨.G21, .G90, 0⟩) 5 0).2 - 2 * Real.pi| ≤ 1 / 2 ^ 49 := by
  have e : place64 0 ⟨.G21, .G90, 0⟩ = 0 := by rw [absolute_double]; simp
  rw [e]
  exact (full_circle_partial atan2 0 0 5 0).2

end Moovr.Props
