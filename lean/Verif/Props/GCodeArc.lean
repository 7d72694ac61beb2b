import Verif.Lemmas.GCodeArc
import Verif.Props.GCodePosition
import Verif.Props.Trajectory
/-!
# Arcs and paths of G-code motions (C51, C52, C53, C71, C72)

Positions are those of the interpreter before and after a block, in mm.
-/
namespace Moovr.Props
open GCode Parser Num

/-- The letter of an offset. -/
def offsetChar : Nat → Char
  | 0 => 'I'
  | 1 => 'J'
  | _ => 'K'

/-- An arc, clockwise or counter-clockwise. -/
def IsArc (m : SimplifiedMotion) : Prop := m.type = .feedHelicalCW ∨ m.type = .feedHelicalCCW

theorem isArc_iff (m : SimplifiedMotion) : isArc m = true ↔ IsArc m := by
  unfold isArc IsArc; simp

/-- What a movement is calculated from. -/
theorem moved_motion {p p' : Parser} {m m' : SimplifiedMotion} (hr : Rest p) (h : p.parseBlock m = .ok (p', m'))
    (hm : Moved p' m') : ∃ q mi, GCode.Motion q mi m' ∧ mi.type = m'.type ∧ mi.trajectory = m.trajectory ∧
      q.state.currentPosition = p.state.currentPosition ∧ (∀ i, i < 3 → q.nextOf i = p'.state.currentPosition i) ∧
      (∀ l ∈ [Letter.X, .Y, .Z, .I, .J, .K, .R], q.state.letterValue l = p'.state.letterValue l ∧
        Reads p.block.words p.state.letterValue p'.state.letterValue l) ∧
      q.state.modal.unit = p'.state.modal.unit ∧ q.state.modal.plane = p'.state.modal.plane ∧
      q.block.hasOffset = p.block.hasOffset ∧ q.block.hasRadius = p.block.hasRadius := by
  obtain ⟨hc, hd⟩ := moved_no hr h hm
  obtain ⟨q, hk, hq, hx⟩ := parse_ok hr h hc hd
  have hmod := exec_modal hx
  have hlet : ∀ l ∈ [Letter.X, .Y, .Z, .I, .J, .K, .R], p'.state.letterValue l = q.state.letterValue l := by
    intro l hl
    have hnF : l ≠ .F := by rintro rfl; exact absurd hl (by decide)
    rcases hx with ⟨_, _, _, s, _⟩ | ⟨k, mode, _, _, _, _, s, _⟩ | ⟨_, _, _, s, _⟩ | ⟨_, _, _, s, _⟩ | ⟨_, _, _, s, _⟩ <;> rw [s]
    · rfl
    · simp [hnF]
    · rfl
  have hreads : ∀ l ∈ [Letter.X, .Y, .Z, .I, .J, .K, .R], Reads p.block.words p.state.letterValue p'.state.letterValue l := by
    intro l hl
    have := hq.letters l hl
    unfold Reads at this ⊢
    rw [hlet l hl]
    exact this
  have e1 : q.state.modal.unit = p'.state.modal.unit := by rw [hmod]
  have e2 : q.state.modal.plane = p'.state.modal.plane := by rw [hmod]
  have o1 : q.block.hasOffset = p.block.hasOffset := by rw [hk.counts]; rfl
  have o2 : q.block.hasRadius = p.block.hasRadius := by rw [hk.counts]; rfl
  rcases hx with ⟨_, c, _, s, mo, _⟩ | ⟨k, mode, _, n, _, _, s, mo, _⟩ | ⟨_, _, _, _, _, r, _⟩ | ⟨n, _, _, s, mo, _⟩ | ⟨_, _, _, _, mo, _⟩
  · refine ⟨_, _, mo, mo.type.symm, rfl, hk.position, ?_, ?_, e1, e2, o1, o2⟩
    · intro i hi; rw [s]; exact (if_pos hi).symm
    · intro l hl; exact ⟨(hlet l hl).symm, hreads l hl⟩
  · refine ⟨_, _, mo, mo.type.symm, rfl, hk.position, ?_, ?_, e1, e2, o1, o2⟩
    · intro i hi; rw [s]; exact (if_pos hi).symm
    · intro l hl; exact ⟨(hlet l hl).symm, hreads l hl⟩
  · exact absurd r hm.1
  · refine ⟨_, _, mo, mo.type.symm, rfl, hk.position, ?_, ?_, e1, e2, o1, o2⟩
    · intro i hi; rw [s]; exact (if_pos hi).symm
    · intro l hl; exact ⟨(hlet l hl).symm, hreads l hl⟩
  · have := hm.2
    rw [mo] at this
    exact absurd this (by simp [MotionType.moves])

theorem inMm_mm (q : Parser) (x : ℚ) : q.inMm x = mm q.state.modal.unit x := rfl

/-! ## C51 -/

/-- **C51**, partial: in the G17 plane the arc axes are X and Y; in every plane they are two different axes. Missing: the other planes,
where it is false (`arc_plane_violated`): G18 selects Y and Z, and G19 selects Z and X. -/
theorem arc_plane_partial {p p' : Parser} {m m' : SimplifiedMotion} (hr : Rest p) (h : p.parseBlock m = .ok (p', m'))
    (hm : Moved p' m') (ha : IsArc m') :
    (p'.state.modal.plane = .G17 → m'.trajectory.arcAxis0 = 0 ∧ m'.trajectory.arcAxis1 = 1) ∧
    (p'.state.modal.plane = .G18 → m'.trajectory.arcAxis0 = 1 ∧ m'.trajectory.arcAxis1 = 2) ∧
    (p'.state.modal.plane = .G19 → m'.trajectory.arcAxis0 = 2 ∧ m'.trajectory.arcAxis1 = 0) ∧
    m'.trajectory.arcAxis0 ≠ m'.trajectory.arcAxis1 ∧ m'.trajectory.arcAxis0 < 3 ∧ m'.trajectory.arcAxis1 < 3 := by
  obtain ⟨q, mi, mo, ty, -, -, -, -, -, pl, -⟩ := moved_motion hr h hm
  have ha' : isArc mi = true := by rw [isArc_iff]; unfold IsArc; rw [ty]; exact ha
  obtain ⟨e0, e1⟩ := mo.axes_arc ha'
  rw [pl] at e0 e1
  rw [e0, e1]
  cases p'.state.modal.plane <;> simp [arcAxes]

/-! ## C52 -/

/-- **C52**, arcs with R: if the distance between both ends in the arc plane is positive and at most twice the radius, the centre has
the radius |R| (in mm) as distance to both ends. -/
theorem arc_center_radius {p p' : Parser} {m m' : SimplifiedMotion} (hr : Read p) (h : p.parseBlock m = .ok (p', m'))
    (hm : Moved p' m') (ha : IsArc m') {x : ℚ} (hx : HasVal p.block.words 'R' x) (hn : ∀ l ∈ ['I', 'J', 'K'], ¬ HasLetter p.block.words l)
    {s0 s1 e0 e1 r : ℝ} (hs0 : s0 = p.state.currentPosition m'.trajectory.arcAxis0) (hs1 : s1 = p.state.currentPosition m'.trajectory.arcAxis1)
    (he0 : e0 = p'.state.currentPosition m'.trajectory.arcAxis0) (he1 : e1 = p'.state.currentPosition m'.trajectory.arcAxis1)
    (hR : r = mm p'.state.modal.unit x) (hpos : 0 < (e0 - s0) ^ 2 + (e1 - s1) ^ 2) (hle : (e0 - s0) ^ 2 + (e1 - s1) ^ 2 ≤ (2 * r) ^ 2) :
    ∃ c0 c1 : ℝ, m'.trajectory.arcCenter0 = fin c0 ∧ m'.trajectory.arcCenter1 = fin c1 ∧ m'.trajectory.radius = fin |r| ∧
      (s0 - c0) ^ 2 + (s1 - c1) ^ 2 = r ^ 2 ∧ (e0 - c0) ^ 2 + (e1 - c1) ^ 2 = r ^ 2 ∧
      ((m'.type = .feedHelicalCCW ∧ 0 < r ∨ m'.type = .feedHelicalCW ∧ r < 0) →
        0 ≤ (s0 - c0) * (e1 - c1) - (s1 - c1) * (e0 - c0)) ∧
      ((m'.type = .feedHelicalCW ∧ 0 < r ∨ m'.type = .feedHelicalCCW ∧ r < 0) →
        (s0 - c0) * (e1 - c1) - (s1 - c1) * (e0 - c0) ≤ 0) := by
  obtain ⟨q, mi, mo, ty, -, cur, nx, lt, un, pl, o1, o2⟩ := moved_motion hr.rest h hm
  obtain ⟨-, -, -, -, l0, l1⟩ := arc_plane_partial hr.rest h hm ha
  obtain ⟨hc, -⟩ := moved_no hr.rest h hm
  have hcnt : Counted p.block p.block.words := by
    obtain ⟨t, ht⟩ := hr
    obtain ⟨ws, hws⟩ := ofString_ofWords ht
    rw [hws, ofWords_words]
    exact counted_ofWords ws
  have b1 : q.block.hasOffset = false := by
    rw [o1, ← Bool.not_eq_true, hcnt.offset]
    rintro (h | h | h)
    · exact hn _ (by decide) h
    · exact hn _ (by decide) h
    · exact hn _ (by decide) h
  have b2 : q.block.hasRadius = true := by
    rw [o2, hcnt.radius]
    exact ⟨hx.choose, hx.choose_spec.1, hx.choose_spec.2.1⟩
  have hx' : p'.state.letterValue .R = x := by
    have := (lt .R (by decide)).2.1 ⟨hx.choose, hx.choose_spec.1, hx.choose_spec.2.1⟩
    exact val_unique (l := .R) (hr.rest.letters (parse_noViolation h hc).2) (by decide) this hx
  have d0 : m'.trajectory.delta m'.trajectory.arcAxis0 = fin (e0 - s0) := by
    rw [mo.delta _ l0, nx _ l0, cur, he0, hs0]; unfold num; push_cast; rfl
  have d1 : m'.trajectory.delta m'.trajectory.arcAxis1 = fin (e1 - s1) := by
    rw [mo.delta _ l1, nx _ l1, cur, he1, hs1]; unfold num; push_cast; rfl
  have hR' : (q.inMm (q.state.letterValue .R) : ℝ) = r := by
    rw [hR, inMm_mm, un, (lt .R (by decide)).1, hx']
  have hle' : (e0 - s0) ^ 2 + (e1 - s1) ^ 2 ≤ 4 * r ^ 2 := by linarith [hle, mul_pow 2 r 2]
  obtain ⟨k0, k1, k2⟩ := mo.byRadius b1 b2 d0 d1 hR' hpos hle'
  rw [cur, ← hs0] at k0
  rw [cur, ← hs1] at k1
  have hσ : ((if mi.type = .feedHelicalCW then -1 else 1) * (if r < 0 then -1 else 1) : ℝ) ^ 2 = 1 := by
    split_ifs <;> norm_num
  obtain ⟨g1, g2⟩ := Arc.center hpos hle' hσ
  refine ⟨_, _, k0, k1, k2, ?_, ?_, ?_, ?_⟩
  · rw [← g1]; ring
  · rw [← g2]; ring
  all_goals
    have hK : 0 ≤ √(4 * r * r - (e0 - s0) * (e0 - s0) - (e1 - s1) * (e1 - s1)) * (1 / 2) / √((e0 - s0) * (e0 - s0) + (e1 - s1) * (e1 - s1)) := by
      positivity
    generalize √(4 * r * r - (e0 - s0) * (e0 - s0) - (e1 - s1) * (e1 - s1)) * (1 / 2) / √((e0 - s0) * (e0 - s0) + (e1 - s1) * (e1 - s1)) = K at *
    have hpos' : 0 ≤ K * ((e0 - s0) ^ 2 + (e1 - s1) ^ 2) := mul_nonneg hK hpos.le
  · rintro (⟨t, hr0⟩ | ⟨t, hr0⟩)
    · rw [if_neg (by rw [ty, t]; decide), if_neg (not_lt.2 hr0.le)]
      linarith
    · rw [if_pos (by rw [ty, t]), if_pos hr0]
      linarith
  · rintro (⟨t, hr0⟩ | ⟨t, hr0⟩)
    · rw [if_pos (by rw [ty, t]), if_neg (not_lt.2 hr0.le)]
      linarith
    · rw [if_neg (by rw [ty, t]; decide), if_pos hr0]
      linarith

theorem charOf_offset {i : Nat} (hi : i < 3) : charOf (offsetLetter i) = offsetChar i := by
  interval_cases i <;> rfl

theorem offset_mem {i : Nat} (hi : i < 3) : offsetLetter i ∈ [Letter.X, .Y, .Z, .I, .J, .K, .R] := by
  interval_cases i <;> decide

/-- The offset of an axis that a block has in force: the programmed one, otherwise that of an earlier block. -/
structure OffsetBy (ws : List Word) (i : Nat) (old new : ℚ) : Prop where
  named : ∀ x, HasVal ws (offsetChar i) x → new = x
  kept : ¬ HasLetter ws (offsetChar i) → new = old

/-- **C52**, arcs with I, J or K: the centre is the start plus the offsets (in mm), the radius is the length of the offset. -/
theorem arc_center_offsets {p p' : Parser} {m m' : SimplifiedMotion} (hr : Rest p) (h : p.parseBlock m = .ok (p', m'))
    (hm : Moved p' m') (ha : IsArc m') (hx : ∃ l ∈ ['I', 'J', 'K'], HasLetter p.block.words l) :
    ∃ x0 x1 : ℚ, OffsetBy p.block.words m'.trajectory.arcAxis0 (p.state.letterValue (offsetLetter m'.trajectory.arcAxis0)) x0 ∧
      OffsetBy p.block.words m'.trajectory.arcAxis1 (p.state.letterValue (offsetLetter m'.trajectory.arcAxis1)) x1 ∧
      m'.trajectory.arcCenter0 = num (p.state.currentPosition m'.trajectory.arcAxis0 + mm p'.state.modal.unit x0) ∧
      m'.trajectory.arcCenter1 = num (p.state.currentPosition m'.trajectory.arcAxis1 + mm p'.state.modal.unit x1) ∧
      m'.trajectory.radius = fin (√((mm p'.state.modal.unit x0 : ℝ) ^ 2 + (mm p'.state.modal.unit x1 : ℝ) ^ 2)) := by
  obtain ⟨q, mi, mo, ty, -, cur, nx, lt, un, pl, o1, o2⟩ := moved_motion hr h hm
  obtain ⟨-, -, -, -, l0, l1⟩ := arc_plane_partial hr h hm ha
  obtain ⟨hc, -⟩ := moved_no hr h hm
  have b1 : q.block.hasOffset = true := by
    rw [o1]
    apply hr.shows.offset
    obtain ⟨l, hl, hx⟩ := hx
    simp only [List.mem_cons, List.not_mem_nil, or_false] at hl
    rcases hl with rfl | rfl | rfl
    · exact .inl hx
    · exact .inr (.inl hx)
    · exact .inr (.inr hx)
  obtain ⟨k0, k1, k2⟩ := mo.offsets b1
  have by_ : ∀ i, i < 3 → OffsetBy p.block.words i (p.state.letterValue (offsetLetter i)) (p'.state.letterValue (offsetLetter i)) := by
    intro i hi
    have hrd := (lt (offsetLetter i) (offset_mem hi)).2
    unfold Reads at hrd
    rw [charOf_offset hi] at hrd
    refine ⟨fun x hx => ?_, hrd.2⟩
    have := hrd.1 ⟨hx.choose, hx.choose_spec.1, hx.choose_spec.2.1⟩
    rw [← charOf_offset hi] at this hx
    exact val_unique (hr.letters (parse_noViolation h hc).2) (by interval_cases i <;> decide) this hx
  rw [(lt _ (offset_mem l0)).1, inMm_mm, un] at k0 k2
  rw [(lt _ (offset_mem l1)).1, inMm_mm, un] at k1 k2
  rw [cur] at k0 k1
  exact ⟨_, _, by_ _ l0, by_ _ l1, k0, k1, k2⟩

/-! ## C53, C72 -/

/-- **C53**: a G2 motion has a strictly negative swept angle, a G3 motion a strictly positive one, of at most a full turn; the start
angle is the direction of the start, the start angle plus the swept angle that of the end, as seen from the centre (any centre that is
a pair of numbers; see C52 for which this is). -/
theorem arc_angles {p p' : Parser} {m m' : SimplifiedMotion} (hr : Rest p) (h : p.parseBlock m = .ok (p', m'))
    (hm : Moved p' m') (ha : IsArc m') {c0 c1 : ℝ} (h0 : m'.trajectory.arcCenter0 = fin c0) (h1 : m'.trajectory.arcCenter1 = fin c1)
    {s0 s1 e0 e1 : ℝ} (hs0 : s0 = p.state.currentPosition m'.trajectory.arcAxis0) (hs1 : s1 = p.state.currentPosition m'.trajectory.arcAxis1)
    (he0 : e0 = p'.state.currentPosition m'.trajectory.arcAxis0) (he1 : e1 = p'.state.currentPosition m'.trajectory.arcAxis1) :
    ∃ θ φ : ℝ, m'.trajectory.startAngle = fin θ ∧ m'.trajectory.deltaAngle = fin φ ∧
      (m'.type = .feedHelicalCW → -(2 * Real.pi) ≤ φ ∧ φ < 0) ∧ (m'.type = .feedHelicalCCW → 0 < φ ∧ φ ≤ 2 * Real.pi) ∧
      s0 = c0 + √((s0 - c0) ^ 2 + (s1 - c1) ^ 2) * Real.cos θ ∧ s1 = c1 + √((s0 - c0) ^ 2 + (s1 - c1) ^ 2) * Real.sin θ ∧
      e0 = c0 + √((e0 - c0) ^ 2 + (e1 - c1) ^ 2) * Real.cos (θ + φ) ∧ e1 = c1 + √((e0 - c0) ^ 2 + (e1 - c1) ^ 2) * Real.sin (θ + φ) ∧
      φ = Arc.sweep (decide (m'.type = .feedHelicalCW)) (Complex.arg ⟨s0 - c0, s1 - c1⟩) (Complex.arg ⟨e0 - c0, e1 - c1⟩) := by
  obtain ⟨q, mi, mo, ty, -, cur, nx, -⟩ := moved_motion hr h hm
  obtain ⟨-, -, -, -, l0, l1⟩ := arc_plane_partial hr h hm ha
  have ha' : isArc mi = true := by rw [isArc_iff]; unfold IsArc; rw [ty]; exact ha
  obtain ⟨hθ, hφ⟩ := mo.angles ha' h0 h1
  rw [nx _ l0, nx _ l1, cur, ← hs0, ← hs1, ← he0, ← he1, ty] at hφ
  rw [cur, ← hs0, ← hs1] at hθ
  obtain ⟨p1, p2⟩ := Arc.polar (s0 - c0) (s1 - c1)
  obtain ⟨p3, p4⟩ := Arc.polar (e0 - c0) (e1 - c1)
  refine ⟨_, _, hθ, hφ, ?_, ?_, by rw [← p1]; ring, by rw [← p2]; ring, ?_, ?_, rfl⟩
  · intro t; rw [t]; exact Arc.sweep_cw
  · intro t; rw [t]; exact Arc.sweep_ccw
  · rw [Arc.sweep_cos, ← p3]; ring
  · rw [Arc.sweep_sin, ← p4]; ring

/-- **C72**: an arc with a positive R sweeps at most half a turn, an arc with a negative R at least half a turn. -/
theorem arc_short_long {p p' : Parser} {m m' : SimplifiedMotion} (hr : Read p) (h : p.parseBlock m = .ok (p', m'))
    (hm : Moved p' m') (ha : IsArc m') {x : ℚ} (hx : HasVal p.block.words 'R' x) (hn : ∀ l ∈ ['I', 'J', 'K'], ¬ HasLetter p.block.words l)
    {s0 s1 e0 e1 r : ℝ} (hs0 : s0 = p.state.currentPosition m'.trajectory.arcAxis0) (hs1 : s1 = p.state.currentPosition m'.trajectory.arcAxis1)
    (he0 : e0 = p'.state.currentPosition m'.trajectory.arcAxis0) (he1 : e1 = p'.state.currentPosition m'.trajectory.arcAxis1)
    (hR : r = mm p'.state.modal.unit x) (hpos : 0 < (e0 - s0) ^ 2 + (e1 - s1) ^ 2) (hle : (e0 - s0) ^ 2 + (e1 - s1) ^ 2 ≤ (2 * r) ^ 2) :
    ∃ φ : ℝ, m'.trajectory.deltaAngle = fin φ ∧ (0 < x → |φ| ≤ Real.pi) ∧ (x < 0 → Real.pi ≤ |φ|) := by
  obtain ⟨c0, c1, h0, h1, -, g1, g2, g3, g4⟩ := arc_center_radius hr h hm ha hx hn hs0 hs1 he0 he1 hR hpos hle
  obtain ⟨θ, φ, -, hφ, b1, b2, -, -, -, -, e⟩ := arc_angles hr.rest h hm ha h0 h1 hs0 hs1 he0 he1
  have hr2 : 0 < r ^ 2 := by nlinarith
  have hne : (s0 - c0, s1 - c1) ≠ (e0 - c0, e1 - c1) := by
    intro hc
    simp only [Prod.mk.injEq, sub_left_inj] at hc
    rw [hc.1, hc.2] at hpos
    simp at hpos
  have hr0 : 0 < |r| := abs_pos.2 fun h => by rw [h] at hr2; norm_num at hr2
  obtain ⟨k1, k2⟩ := Arc.short_or_long hr0 (by rw [sq_abs]; exact g1) (by rw [sq_abs]; exact g2) hne
  have sgn : ∀ y : ℚ, (0 < y → 0 < mm p'.state.modal.unit y) ∧ (y < 0 → mm p'.state.modal.unit y < 0) := by
    intro y
    unfold mm
    split_ifs
    · constructor <;> intro _ <;> linarith
    · exact ⟨id, id⟩
  refine ⟨φ, hφ, fun hx0 => ?_, fun hx0 => ?_⟩
  · have hrp : 0 < r := by rw [hR]; exact_mod_cast (sgn x).1 hx0
    rcases ha with t | t
    · have := (k2 (g4 (.inl ⟨t, hrp⟩))).2
      rw [e, t]
      rw [e, t] at b1
      have b := (b1 rfl).2
      simp only [decide_true] at b ⊢
      rw [abs_of_neg b]; linarith
    · have := (k1 (g3 (.inl ⟨t, hrp⟩))).1
      rw [e, t]
      rw [e, t] at b2
      have b := (b2 rfl).1
      simp only [reduceCtorEq, decide_false] at b ⊢
      rw [abs_of_pos b]; exact this
  · have hrp : r < 0 := by rw [hR]; exact_mod_cast (sgn x).2 hx0
    rcases ha with t | t
    · have := (k1 (g3 (.inr ⟨t, hrp⟩))).2
      rw [e, t]
      rw [e, t] at b1
      have b := (b1 rfl).2
      simp only [decide_true] at b ⊢
      rw [abs_of_neg b]; linarith
    · have := (k2 (g4 (.inr ⟨t, hrp⟩))).1
      rw [e, t]
      rw [e, t] at b2
      have b := (b2 rfl).1
      simp only [reduceCtorEq, decide_false] at b ⊢
      rw [abs_of_pos b]; exact this

/-! ## C71 -/

/-- The path of a motion leads from position `x` to position `y`: at distance 0 it is at `x`, at its full length at `y`. -/
def Leads (m : SimplifiedMotion) (x y : Nat → ℚ) : Prop :=
  ∃ L : ℝ, 0 < L ∧ m.trajectory.length = fin L ∧ ∀ i, i < 3 →
    (Trajectory.ofReq m.trajectory).position i (fin 0) = num (x i) ∧ (Trajectory.ofReq m.trajectory).position i (fin L) = num (y i)

/-- **C71**, straight motions: a G0 or G1 motion that goes anywhere leads from the position before to the position after, and its length is
their distance (`m` is the motion object given to the call, with any finite radius, see `radius_finite`). -/
theorem straight_leads {p p' : Parser} {m m' : SimplifiedMotion} (hr : Rest p) (h : p.parseBlock m = .ok (p', m'))
    (hm : Moved p' m') (ha : ¬ IsArc m') {rho : ℝ} (hrho : m.trajectory.radius = fin rho)
    {x y : Nat → ℚ} (hx : x = p.state.currentPosition) (hy : y = p'.state.currentPosition) (hne : ∃ i, i < 3 ∧ y i ≠ x i) :
    Leads m' x y ∧
      m'.trajectory.length = fin (√(((y 0 - x 0 : ℚ) : ℝ) ^ 2 + ((y 1 - x 1 : ℚ) : ℝ) ^ 2 + ((y 2 - x 2 : ℚ) : ℝ) ^ 2)) := by
  obtain ⟨q, mi, mo, ty, tr, cur, nx, -⟩ := moved_motion hr h hm
  have ha' : isArc mi = false := by
    rw [← Bool.not_eq_true, isArc_iff]; unfold IsArc; rw [ty]; exact ha
  obtain ⟨a0, a1⟩ := mo.axes_straight ha'
  obtain ⟨-, hφ⟩ := mo.angles_straight ha'
  obtain ⟨rho', hrho'⟩ := mo.finite ⟨rho, by rw [tr]; exact hrho⟩
  have hδ : ∀ i, i < 3 → m'.trajectory.delta i = fin ((y i - x i : ℚ) : ℝ) := by
    intro i hi
    rw [mo.delta i hi, nx i hi, cur, hx, hy]; rfl
  have hst : ∀ i, i < 3 → m'.trajectory.startPosition i = fin (x i : ℝ) := by
    intro i hi
    rw [mo.start i hi, cur, hx]; rfl
  have hl := mo.length hrho' hφ hδ
  rw [a0, a1] at hl
  have hf : ((List.range 3).filter (fun i => decide (i ≠ 3 ∧ i ≠ 3))) = [0, 1, 2] := by decide
  rw [hf] at hl
  have hl' : m'.trajectory.length = fin (√(((y 0 - x 0 : ℚ) : ℝ) ^ 2 + ((y 1 - x 1 : ℚ) : ℝ) ^ 2 + ((y 2 - x 2 : ℚ) : ℝ) ^ 2)) := by
    rw [hl]
    congr 2
    simp only [List.foldl_cons, List.foldl_nil, abs_zero, mul_zero]
    ring
  refine ⟨?_, hl'⟩
  have hL : 0 < √(((y 0 - x 0 : ℚ) : ℝ) ^ 2 + ((y 1 - x 1 : ℚ) : ℝ) ^ 2 + ((y 2 - x 2 : ℚ) : ℝ) ^ 2) := by
    apply Real.sqrt_pos.2
    obtain ⟨i, hi, hn⟩ := hne
    have hsq : 0 < ((y i - x i : ℚ) : ℝ) ^ 2 := by
      have : ((y i - x i : ℚ) : ℝ) ≠ 0 := by
        exact_mod_cast sub_ne_zero.2 hn
      positivity
    interval_cases i
    · have := sq_nonneg (((y 1 - x 1 : ℚ) : ℝ)); have := sq_nonneg (((y 2 - x 2 : ℚ) : ℝ)); linarith
    · have := sq_nonneg (((y 0 - x 0 : ℚ) : ℝ)); have := sq_nonneg (((y 2 - x 2 : ℚ) : ℝ)); linarith
    · have := sq_nonneg (((y 1 - x 1 : ℚ) : ℝ)); have := sq_nonneg (((y 0 - x 0 : ℚ) : ℝ)); linarith
  refine ⟨_, hL, hl', fun i hi => ?_⟩
  obtain ⟨-, k1, k2, -⟩ := straight_path hl' hL (axis := i) (by rw [a0, a1]; omega) (hst i hi) (hδ i hi)
  refine ⟨k1, k2.trans ?_⟩
  unfold num
  push_cast
  congr 1
  ring

/-- **C71**, arcs: an arc whose centre has the same positive distance to both ends leads from the position before to the position after. -/
theorem arc_leads {p p' : Parser} {m m' : SimplifiedMotion} (hr : Rest p) (h : p.parseBlock m = .ok (p', m'))
    (hm : Moved p' m') (ha : IsArc m') {c0 c1 rho : ℝ} (h0 : m'.trajectory.arcCenter0 = fin c0) (h1 : m'.trajectory.arcCenter1 = fin c1)
    (hrho : m'.trajectory.radius = fin rho) (hpos : 0 < rho)
    {x y : Nat → ℚ} (hx : x = p.state.currentPosition) (hy : y = p'.state.currentPosition)
    (hs : ((x m'.trajectory.arcAxis0 : ℝ) - c0) ^ 2 + ((x m'.trajectory.arcAxis1 : ℝ) - c1) ^ 2 = rho ^ 2)
    (he : ((y m'.trajectory.arcAxis0 : ℝ) - c0) ^ 2 + ((y m'.trajectory.arcAxis1 : ℝ) - c1) ^ 2 = rho ^ 2) : Leads m' x y := by
  obtain ⟨q, mi, mo, ty, tr, cur, nx, -⟩ := moved_motion hr h hm
  obtain ⟨-, -, -, hne, l0, l1⟩ := arc_plane_partial hr h hm ha
  obtain ⟨θ, φ, hθ, hφ, b1, b2, p1, p2, p3, p4, -⟩ := arc_angles hr h hm ha h0 h1 (s0 := x m'.trajectory.arcAxis0)
    (s1 := x m'.trajectory.arcAxis1) (e0 := y m'.trajectory.arcAxis0) (e1 := y m'.trajectory.arcAxis1)
    (by rw [hx]) (by rw [hx]) (by rw [hy]) (by rw [hy])
  rw [hs, Real.sqrt_sq hpos.le] at p1 p2
  rw [he, Real.sqrt_sq hpos.le] at p3 p4
  have hφ0 : 0 < |φ| := by
    apply abs_pos.2
    rcases ha with t | t
    · exact (b1 t).2.ne
    · exact (b2 t).1.ne'
  have hδ : ∀ i, i < 3 → m'.trajectory.delta i = fin ((y i - x i : ℚ) : ℝ) := by
    intro i hi
    rw [mo.delta i hi, nx i hi, cur, hx, hy]; rfl
  have hst : ∀ i, i < 3 → m'.trajectory.startPosition i = fin (x i : ℝ) := by
    intro i hi
    rw [mo.start i hi, cur, hx]; rfl
  have hl := mo.length hrho hφ hδ
  have hnn : ∀ (l : List Nat) (z : ℝ), 0 ≤ z → 0 ≤ l.foldl (fun s i => s + ((y i - x i : ℚ) : ℝ) ^ 2) z := by
    intro l
    induction l with
    | nil => intro y hy; exact hy
    | cons j l ih => intro y hy; exact ih _ (by positivity)
  have hL : 0 < √((rho * |φ|) ^ 2 + ((List.range 3).filter
      (fun i => decide (i ≠ m'.trajectory.arcAxis0 ∧ i ≠ m'.trajectory.arcAxis1))).foldl (fun s i => s + ((y i - x i : ℚ) : ℝ) ^ 2) 0) := by
    apply Real.sqrt_pos.2
    have := hnn ((List.range 3).filter (fun i => decide (i ≠ m'.trajectory.arcAxis0 ∧ i ≠ m'.trajectory.arcAxis1))) 0 le_rfl
    have : 0 < (rho * |φ|) ^ 2 := by positivity
    linarith
  generalize √((rho * |φ|) ^ 2 + _) = L at hl hL
  refine ⟨L, hL, hl, fun i hi => ?_⟩
  obtain ⟨X, Y, hX, hY, -, -, x0, y0, xL, yL⟩ := arc_path hl hL hne h0 h1 hrho hθ hφ
  by_cases i0 : i = m'.trajectory.arcAxis0
  · rw [i0, hX, hX, x0, xL, ← p1, ← p3]
    exact ⟨rfl, rfl⟩
  · by_cases i1 : i = m'.trajectory.arcAxis1
    · rw [i1, hY, hY, y0, yL, ← p2, ← p4]
      exact ⟨rfl, rfl⟩
    · obtain ⟨-, k1, k2, -⟩ := straight_path hl hL (axis := i) ⟨i0, i1⟩ (hst i hi) (hδ i hi)
      refine ⟨k1, k2.trans ?_⟩
      unfold num
      push_cast
      congr 1
      ring

/-- In every execution the radius of the motion object is finite. -/
theorem radius_finite {p₀ p : Parser} {m₀ m : SimplifiedMotion} {log} (h : Run p₀ m₀ log p m)
    (h0 : ∃ r : ℝ, m₀.trajectory.radius = fin r) : ∃ r : ℝ, m.trajectory.radius = fin r := by
  induction h with
  | start => exact h0
  | line _ _ _ ih => exact ih
  | parse _ hp ih =>
    rcases parse_any hp with ⟨_, _, _, _, e⟩ | ⟨q, x, hk, hc, s, r, er, mo, _⟩ | ⟨q, hk, hx⟩
    · rw [e]; exact ih
    · exact mo.finite ih
    · rcases hx with ⟨_, _, _, _, mo, _⟩ | ⟨_, _, _, _, _, _, _, mo, _⟩ | ⟨_, _, _, _, mo, _⟩ | ⟨_, _, _, _, mo, _⟩ | ⟨_, _, _, _, mo, _⟩
      · exact mo.finite ih
      · exact mo.finite ih
      · rw [mo]; exact ih
      · exact mo.finite ih
      · rw [mo]; exact ih

/-! ## C70 -/

/-- **C70**, partial: a call of `parseBlock` on a block without I, J, K and R words, or on an arc block, accesses no array outside its
bounds; for every state and every line. Missing: other blocks with such words, where it is false (`bounds_violated`). -/
theorem bounds_partial {p : Parser} (m : SimplifiedMotion) (hr : Read p)
    (h : (∀ l ∈ ['I', 'J', 'K', 'R'], ¬ HasLetter p.block.words l) ∨ (¬ IsDwell p.block.words ∧
      (∀ k ∈ [0, 10, 530], ¬ HasCode p.block.words 'G' k) ∧
      (HasCode p.block.words 'G' 20 ∨ HasCode p.block.words 'G' 30 ∨ p.state.modal.motion = .G2 ∨ p.state.modal.motion = .G3))) :
    ∃ p' m', p.parseBlock m = .ok (p', m') := by
  refine parse_inside m hr.rest (h.imp_left fun hn => ?_)
  obtain ⟨t, ht⟩ := hr
  obtain ⟨ws, hws⟩ := ofString_ofWords ht
  have hc := counted_ofWords ws
  rw [hws, ofWords_words] at hn
  rw [hws]
  refine ⟨?_, ?_⟩
  · rw [Bool.eq_false_iff, Ne, hc.offset, not_or, not_or]
    exact ⟨hn 'I' (by simp), hn 'J' (by simp), hn 'K' (by simp)⟩
  · rw [Bool.eq_false_iff, Ne, hc.radius]
    exact hn 'R' (by simp)

/-- Counterexample to **C70**: every block without collisions that has a G0, G53 or G4 (with its P) and an I, J, K or R word reads outside
an array, in every state; for example the line "G0 X1 R5". -/
theorem bounds_violated :
    (∀ (p : Parser) (m : SimplifiedMotion), Rest p → (∃ l ∈ ['I', 'J', 'K', 'R'], HasLetter p.block.words l) →
      p.block.hasModalGroupViolation = false → p.block.hasLetterWordViolation = false →
      (IsDwell p.block.words ∨ HasCode p.block.words 'G' 0 ∨ HasCode p.block.words 'G' 530) →
      p.parseBlock m = .error .axisOutOfBounds) ∧
    (∀ (p : Parser) (m : SimplifiedMotion), ∃ p', p.getBlock (codes "G0 X1 R5") = .ok p' ∧ p'.parseBlock m = .error .axisOutOfBounds) := by
  have h1 : ∀ (p : Parser) (m : SimplifiedMotion), Rest p → (∃ l ∈ ['I', 'J', 'K', 'R'], HasLetter p.block.words l) →
      p.block.hasModalGroupViolation = false → p.block.hasLetterWordViolation = false →
      (IsDwell p.block.words ∨ HasCode p.block.words 'G' 0 ∨ HasCode p.block.words 'G' 530) →
      p.parseBlock m = .error .axisOutOfBounds := by
    intro p m hr hl h1 h2 hc
    refine parse_outside m hr ?_ h1 h2 hc
    obtain ⟨l, hl, h⟩ := hl
    simp only [List.mem_cons, List.not_mem_nil, or_false] at hl
    rcases hl with rfl | rfl | rfl | rfl
    · exact .inl (hr.shows.offset (.inl h))
    · exact .inl (hr.shows.offset (.inr (.inl h)))
    · exact .inl (hr.shows.offset (.inr (.inr h)))
    · exact .inr (hr.shows.radius h)
  refine ⟨h1, fun p m => ?_⟩
  have hb : Block.ofString (codes "G0 X1 R5") = .ok (ofWords [⟨71, 0, 0⟩, ⟨88, 1, 0⟩, ⟨82, 5, 0⟩]) := line (by decide +kernel)
  have hg : p.getBlock (codes "G0 X1 R5") = .ok { p with block := ofWords [⟨71, 0, 0⟩, ⟨88, 1, 0⟩, ⟨82, 5, 0⟩] } := by
    unfold getBlock; rw [hb]; rfl
  refine ⟨_, hg, ?_⟩
  have hr : Read ({ p with block := ofWords [⟨71, 0, 0⟩, ⟨88, 1, 0⟩, ⟨82, 5, 0⟩] } : Parser) := ⟨_, hb⟩
  refine h1 _ m hr.rest ⟨'R', by decide, ?_⟩
    (show (ofWords [⟨71, 0, 0⟩, ⟨88, 1, 0⟩, ⟨82, 5, 0⟩]).hasModalGroupViolation = false by decide +kernel)
    (show (ofWords [⟨71, 0, 0⟩, ⟨88, 1, 0⟩, ⟨82, 5, 0⟩]).hasLetterWordViolation = false by decide +kernel) (.inr (.inl ?_))
  · rw [ofWords_words]; decide +kernel
  · rw [ofWords_words]; decide +kernel

/-! ## Examples and counterexamples -/

/-- A block with G2 or G3 is an arc. -/
theorem arc_of {p p' : Parser} {m m' : SimplifiedMotion} (hr : Rest p) (h : p.parseBlock m = .ok (p', m'))
    (he : NoCollision p'.error) (hd : ¬ IsDwell p.block.words) {k : Nat} {mode : MotionMode} (hk : (k, mode) ∈ [(20, MotionMode.G2), (30, .G3)])
    (c : HasCode p.block.words 'G' k) (hn : ∀ j ∈ [0, 10, 20, 30, 530], j ≠ k → ¬ HasCode p.block.words 'G' j) :
    m'.type = typeOf mode ∧ IsArc m' ∧ Moved p' m' ∧ Reported p'.result := by
  obtain ⟨q, hkp, hq, hx⟩ := parse_ok hr h he hd
  have tr : ∀ {j}, j ∈ [0, 10, 20, 30, 530] → (HasCode q.block.words 'G' j ↔ HasCode p.block.words 'G' j) := by
    intro j hj
    refine keeps_codes hkp ?_
    simp only [List.mem_cons, List.not_mem_nil, or_false] at hj
    rcases hj with rfl | rfl | rfl | rfl | rfl <;> decide
  have hkm : k = 20 ∨ k = 30 := by
    simp only [List.mem_cons, List.not_mem_nil, or_false, Prod.mk.injEq] at hk
    omega
  have hkj : k ∈ [0, 10, 20, 30, 530] := by rcases hkm with rfl | rfl <;> decide
  have key : m'.type = typeOf mode ∧ p'.result = .okContextUpdateAndMotion := by
    rcases hx with ⟨_, c', _⟩ | ⟨k', mode', t, _, c', _, s, mo, r, _⟩ | ⟨_, c', _⟩ | ⟨_, c', _⟩ | ⟨_, c', _⟩
    · exact absurd ((tr (by decide)).1 c') (hn _ (by decide) (by omega))
    · have hk' : k' = k := by
        by_contra hne
        refine hn k' ?_ hne ((tr ?_).1 c')
        all_goals
          simp only [List.mem_cons, List.not_mem_nil, or_false, Prod.mk.injEq] at t
          rcases t with ⟨rfl, -⟩ | ⟨rfl, -⟩ | ⟨rfl, -⟩ | ⟨rfl, -⟩ <;> decide
      subst hk'
      have hmode : mode' = mode := by
        clear mo s r c c' hn
        simp only [List.mem_cons, List.not_mem_nil, or_false, Prod.mk.injEq] at t hk
        rcases hk with ⟨rfl, rfl⟩ | ⟨rfl, rfl⟩ <;> simpa using t
      subst hmode
      exact ⟨mo.type, r⟩
    · exact absurd ((tr (by decide)).1 c') (hn _ (by decide) (by omega))
    all_goals
      refine absurd ((tr hkj).2 c) (c' k ?_)
      rcases hkm with rfl | rfl <;> decide
  have hm : mode = .G2 ∨ mode = .G3 := by
    simp only [List.mem_cons, List.not_mem_nil, or_false, Prod.mk.injEq] at hk
    tauto
  refine ⟨key.1, ?_, ⟨by rw [key.2]; decide, ?_⟩, .inl key.2⟩
  · unfold IsArc; rw [key.1]; rcases hm with rfl | rfl <;> simp [typeOf]
  · rw [key.1]; rcases hm with rfl | rfl <;> rfl

/-- Reading and parsing an arc line. -/
theorem runs_arc (p : Parser) {t : String} {ws : List Word} (ht : (Block.ofString (codes t)).map (·.words) = .ok ws)
    (h1 : (ofWords ws).hasModalGroupViolation = false) (h2 : (ofWords ws).hasLetterWordViolation = false) (hd : ¬ IsDwell ws)
    {k : Nat} {mode : MotionMode} (hk : (k, mode) ∈ [(20, MotionMode.G2), (30, .G3)])
    (c : HasCode ws 'G' k) (hn : ∀ j ∈ [0, 10, 20, 30, 530], j ≠ k → ¬ HasCode ws 'G' j) (m : SimplifiedMotion) :
    ∃ p1 p' m', p.getBlock (codes t) = .ok p1 ∧ p1.block.words = ws ∧ p1.state = p.state ∧ Read p1 ∧
      p1.parseBlock m = .ok (p', m') ∧ NoCollision p'.error ∧ m'.type = typeOf mode ∧ IsArc m' ∧ Moved p' m' := by
  have hb := line ht
  have hg : p.getBlock (codes t) = .ok { p with block := ofWords ws } := by
    unfold getBlock; rw [hb]; rfl
  have hr : Read ({ p with block := ofWords ws } : Parser) := ⟨_, hb⟩
  have hw : ({ p with block := ofWords ws } : Parser).block.words = ws := ofWords_words ws
  have hkm : k = 20 ∨ k = 30 := by
    simp only [List.mem_cons, List.not_mem_nil, or_false, Prod.mk.injEq] at hk
    omega
  obtain ⟨p', m', e⟩ := parse_inside m hr.rest (.inr ⟨by rw [hw]; exact hd, fun j hj => by
      rw [hw]
      refine hn j ?_ ?_ <;> simp only [List.mem_cons, List.not_mem_nil, or_false] at hj ⊢ <;> omega, by
      rw [hw]
      rcases hkm with rfl | rfl
      · exact .inl c
      · exact .inr (.inl c)⟩)
  have he : NoCollision p'.error := noCollision_counts hr.rest e h1 h2
  obtain ⟨t1, t2, t3, -⟩ := arc_of hr.rest e he (by rw [hw]; exact hd) hk (by rw [hw]; exact c) (by rw [hw]; exact hn)
  exact ⟨_, p', m', hg, hw, rfl, hr, e, he, t1, t2, t3⟩

/-- Position after a movement of one absolute word, in mm, from reset. -/
theorem axis_at {p p' : Parser} {m m' : SimplifiedMotion} (hr : Rest p) (h : p.parseBlock m = .ok (p', m')) (hm : Moved p' m')
    (hs : p.state = Parser.reset.state) (hn : ∀ k ∈ [200, 910], ¬ HasCode p.block.words 'G' k) {i : Nat} (hi : i < 3) :
    (∀ x, HasVal p.block.words (axisChar i) x → p'.state.currentPosition i = x) ∧
    (¬ HasLetter p.block.words (axisChar i) → p'.state.currentPosition i = 0) ∧ p'.state.modal.unit = .G21 := by
  obtain ⟨hc, hd⟩ := moved_no hr h hm
  obtain ⟨a1, a2, a3⟩ := moved_axis hr h hm hi
  obtain ⟨-, b, -⟩ := modal_settings_partial hr h hc hd
  have set_or : ∀ {α : Type} {t : GroupTable α} {old new : α} (v : α), SetBy t p.block.words old new → old = v →
      (∀ e ∈ t, e.2.2 ≠ v → ¬ HasCode p.block.words e.1 e.2.1) → new = v := by
    intro α t old new v hb ho hv
    by_cases hex : ∃ e ∈ t, HasCode p.block.words e.1 e.2.1
    · obtain ⟨e, he, hc⟩ := hex
      rw [hb.named e he hc]
      by_contra hne
      exact hv e he hne hc
    · rw [hb.kept (fun e he hc => hex ⟨e, he, hc⟩), ho]
  have hu : p'.state.modal.unit = .G21 := set_or .G21 b.unit (by rw [hs]; rfl) (by
    intro e he hne hc
    simp only [unitGroup, List.mem_cons, List.not_mem_nil, or_false] at he
    rcases he with rfl | rfl
    · first | exact hn 200 (by decide) hc | exact hne rfl
    · first | exact hn 200 (by decide) hc | exact hne rfl)
  have hdm : p'.state.modal.distance = .G90 := set_or .G90 b.distance (by rw [hs]; rfl) (by
    intro e he hne hc
    simp only [distanceGroup, List.mem_cons, List.not_mem_nil, or_false] at he
    rcases he with rfl | rfl
    · first | exact hn 910 (by decide) hc | exact hne rfl
    · first | exact hn 910 (by decide) hc | exact hne rfl)
  have ho : ∀ c, p.state.wcsOrigin c i = 0 := by intro c; rw [hs]; rfl
  rw [ho, hu, hdm] at a1
  have e : ∀ x, mm .G21 x = x := fun _ => rfl
  rw [e] at a1
  refine ⟨fun x hx => ?_, fun hn => ?_, hu⟩
  · rw [a1, a2 x hx]; simp
  · rw [a1, a3 hn, hs]
    show (0 : ℚ) + (0 + 0) = 0
    norm_num

/-- "G3 X1 Y1 R1" from the origin: an arc of radius 1, of at most half a turn, that leads to (1, 1, 0). -/
example : ∃ (p1 p' : Parser) (m' : SimplifiedMotion), Parser.reset.getBlock (codes "G3 X1 Y1 R1") = .ok p1 ∧
    p1.parseBlock (.fresh 3) = .ok (p', m') ∧ m'.trajectory.radius = fin 1 ∧
    (∃ φ, m'.trajectory.deltaAngle = fin φ ∧ 0 < φ ∧ φ ≤ Real.pi) ∧ Leads m' (fun _ => 0) p'.state.currentPosition ∧
    p'.state.currentPosition 0 = 1 ∧ p'.state.currentPosition 1 = 1 ∧ p'.state.currentPosition 2 = 0 := by
  obtain ⟨p1, p', m', hg, hw, hs, hr, e, he, ht, ha, hm⟩ := runs_arc .reset (t := "G3 X1 Y1 R1")
    (ws := [⟨71, 3, 30⟩, ⟨88, 1, 0⟩, ⟨89, 1, 0⟩, ⟨82, 1, 0⟩]) (by decide +kernel) (by decide +kernel) (by decide +kernel)
    (by decide +kernel) (k := 30) (mode := .G3) (by decide) (by decide +kernel) (by decide +kernel) (.fresh 3)
  have ax := fun {i} (hi : i < 3) => axis_at hr.rest e hm hs (by rw [hw]; decide +kernel) (i := i) hi
  have x0 := (ax (i := 0) (by decide)).1 1 (by rw [hw]; decide +kernel)
  have x1 := (ax (i := 1) (by decide)).1 1 (by rw [hw]; decide +kernel)
  have x2 := (ax (i := 2) (by decide)).2.1 (by rw [hw]; decide +kernel)
  have hu := (ax (i := 0) (by decide)).2.2
  have hpl : p'.state.modal.plane = .G17 := by
    have b := (modal_settings_partial hr.rest e he (by rw [hw]; decide +kernel)).2.1.plane
    rw [hw] at b
    rw [b.kept (by decide +kernel), hs]; rfl
  obtain ⟨a0, a1⟩ := (arc_plane_partial hr.rest e hm ha).1 hpl
  have s0 : (0 : ℝ) = p1.state.currentPosition m'.trajectory.arcAxis0 := by
    rw [hs]; show (0 : ℝ) = ((0 : ℚ) : ℝ); norm_num
  have s1 : (0 : ℝ) = p1.state.currentPosition m'.trajectory.arcAxis1 := by
    rw [hs]; show (0 : ℝ) = ((0 : ℚ) : ℝ); norm_num
  have e0 : (1 : ℝ) = p'.state.currentPosition m'.trajectory.arcAxis0 := by rw [a0, x0]; norm_num
  have e1 : (1 : ℝ) = p'.state.currentPosition m'.trajectory.arcAxis1 := by rw [a1, x1]; norm_num
  have hR : HasVal p1.block.words 'R' 1 := by rw [hw]; decide +kernel
  have hno : ∀ l ∈ ['I', 'J', 'K'], ¬ HasLetter p1.block.words l := by rw [hw]; decide +kernel
  have hr1 : (1 : ℝ) = mm p'.state.modal.unit 1 := by rw [hu]; show (1 : ℝ) = ((1 : ℚ) : ℝ); norm_num
  obtain ⟨c0, c1, k0, k1, k2, g1, g2, -⟩ := arc_center_radius hr e hm ha hR hno s0 s1 e0 e1 hr1 (by norm_num) (by norm_num)
  obtain ⟨φ, hφ, f1, -⟩ := arc_short_long hr e hm ha hR hno s0 s1 e0 e1 hr1 (by norm_num) (by norm_num)
  obtain ⟨θ, φ', -, hφ', -, f2, -⟩ := arc_angles hr.rest e hm ha k0 k1 s0 s1 e0 e1
  have : φ' = φ := fin_injective (hφ'.symm.trans hφ)
  subst this
  have hp : 0 < φ' := (f2 ht).1
  refine ⟨p1, p', m', hg, e, by rw [k2, abs_one], ⟨φ', hφ, hp, by have := f1 (by norm_num); rwa [abs_of_pos hp] at this⟩, ?_, x0, x1, x2⟩
  have hx : (fun _ => 0 : Nat → ℚ) = p1.state.currentPosition := by rw [hs]; rfl
  refine arc_leads hr.rest e hm ha k0 k1 k2 (by rw [abs_one]; norm_num) hx rfl ?_ ?_
  · rw [sq_abs, ← g1]; norm_num
  · rw [sq_abs, ← g2, ← e0, ← e1]

/-- "G0 X3 Y4" from the origin leads to (3, 4, 0) over a length of 5. -/
example : ∃ (p1 p' : Parser) (m' : SimplifiedMotion), Parser.reset.getBlock (codes "G0 X3 Y4") = .ok p1 ∧
    p1.parseBlock (.fresh 3) = .ok (p', m') ∧ m'.trajectory.length = fin 5 ∧ Leads m' (fun _ => 0) p'.state.currentPosition := by
  obtain ⟨p1, p', m', hg, hw, hs, hr, e, he⟩ := runs_line .reset (t := "G0 X3 Y4") (ws := [⟨71, 0, 0⟩, ⟨88, 3, 0⟩, ⟨89, 4, 0⟩])
    (by decide +kernel) (by decide +kernel) (by decide +kernel) (by decide +kernel) (.fresh 3)
  obtain ⟨hm, -⟩ := moved_of hr.rest e he (by rw [hw]; decide +kernel) (by rw [hw]; decide +kernel) (by rw [hw]; decide +kernel)
  have ht := (traverse_of hr.rest e he (by rw [hw]; decide +kernel) (by rw [hw]; decide +kernel) (by rw [hw]; decide +kernel)).1
  have ax := fun {i} (hi : i < 3) => axis_at hr.rest e hm hs (by rw [hw]; decide +kernel) (i := i) hi
  have x0 := (ax (i := 0) (by decide)).1 3 (by rw [hw]; decide +kernel)
  have x1 := (ax (i := 1) (by decide)).1 4 (by rw [hw]; decide +kernel)
  have x2 := (ax (i := 2) (by decide)).2.1 (by rw [hw]; decide +kernel)
  have hx : (fun _ => 0 : Nat → ℚ) = p1.state.currentPosition := by rw [hs]; rfl
  obtain ⟨h1, h2⟩ := straight_leads hr.rest e hm (by unfold IsArc; rw [ht]; decide) (rho := 0) rfl hx rfl
    ⟨0, by decide, by rw [x0]; norm_num⟩
  refine ⟨p1, p', m', hg, e, ?_, h1⟩
  rw [h2, x0, x1, x2]
  congr 1
  rw [show (((3 - 0 : ℚ) : ℝ) ^ 2 + ((4 - 0 : ℚ) : ℝ) ^ 2 + ((0 - 0 : ℚ) : ℝ) ^ 2) = 5 ^ 2 by norm_num]
  exact Real.sqrt_sq (by norm_num)

/-- Counterexample to **C51**: "G18 G2 X1" has the arc axes Y and Z, "G19 G2 X1" has Z and X. -/
theorem arc_plane_violated :
    (∃ (p1 p' : Parser) (m' : SimplifiedMotion), Parser.reset.getBlock (codes "G18 G2 X1") = .ok p1 ∧
      p1.parseBlock (.fresh 3) = .ok (p', m') ∧ Moved p' m' ∧ IsArc m' ∧ m'.trajectory.arcAxis0 = 1 ∧ m'.trajectory.arcAxis1 = 2) ∧
    (∃ (p1 p' : Parser) (m' : SimplifiedMotion), Parser.reset.getBlock (codes "G19 G2 X1") = .ok p1 ∧
      p1.parseBlock (.fresh 3) = .ok (p', m') ∧ Moved p' m' ∧ IsArc m' ∧ m'.trajectory.arcAxis0 = 2 ∧ m'.trajectory.arcAxis1 = 0) := by
  constructor
  · obtain ⟨p1, p', m', hg, hw, hs, hr, e, he, ht, ha, hm⟩ := runs_arc .reset (t := "G18 G2 X1")
      (ws := [⟨71, 18, 180⟩, ⟨71, 2, 20⟩, ⟨88, 1, 0⟩]) (by decide +kernel) (by decide +kernel) (by decide +kernel)
      (by decide +kernel) (k := 20) (mode := .G2) (by decide) (by decide +kernel) (by decide +kernel) (.fresh 3)
    have b := (modal_settings_partial hr.rest e he (by rw [hw]; decide +kernel)).2.1.plane
    rw [hw] at b
    have := (arc_plane_partial hr.rest e hm ha).2.1 (b.named ('G', 180, .G18) (by decide) (by decide +kernel))
    exact ⟨p1, p', m', hg, e, hm, ha, this⟩
  · obtain ⟨p1, p', m', hg, hw, hs, hr, e, he, ht, ha, hm⟩ := runs_arc .reset (t := "G19 G2 X1")
      (ws := [⟨71, 19, 190⟩, ⟨71, 2, 20⟩, ⟨88, 1, 0⟩]) (by decide +kernel) (by decide +kernel) (by decide +kernel)
      (by decide +kernel) (k := 20) (mode := .G2) (by decide) (by decide +kernel) (by decide +kernel) (.fresh 3)
    have b := (modal_settings_partial hr.rest e he (by rw [hw]; decide +kernel)).2.1.plane
    rw [hw] at b
    have := (arc_plane_partial hr.rest e hm ha).2.2.1 (b.named ('G', 190, .G19) (by decide) (by decide +kernel))
    exact ⟨p1, p', m', hg, e, hm, ha, this⟩

/-- Counterexample to **C71**: "G3 X2 I5" from the origin is accepted, the interpreter is then at X2, but the path is a full circle around X5
back to X0. -/
theorem arc_leads_violated : ∃ (p1 p' : Parser) (m' : SimplifiedMotion), Parser.reset.getBlock (codes "G3 X2 I5") = .ok p1 ∧
    p1.parseBlock (.fresh 3) = .ok (p', m') ∧ Moved p' m' ∧ Reported p'.result ∧ p'.state.currentPosition 0 = 2 ∧
    ∃ L : ℝ, 0 < L ∧ m'.trajectory.length = fin L ∧ (Trajectory.ofReq m'.trajectory).position 0 (fin L) = fin 0 := by
  obtain ⟨p1, p', m', hg, hw, hs, hr, e, he, ht, ha, hm⟩ := runs_arc .reset (t := "G3 X2 I5")
    (ws := [⟨71, 3, 30⟩, ⟨88, 2, 0⟩, ⟨73, 5, 0⟩]) (by decide +kernel) (by decide +kernel) (by decide +kernel)
    (by decide +kernel) (k := 30) (mode := .G3) (by decide) (by decide +kernel) (by decide +kernel) (.fresh 3)
  have hrep := (arc_of hr.rest e he (by rw [hw]; decide +kernel) (k := 30) (mode := .G3) (by decide) (by rw [hw]; decide +kernel)
    (by rw [hw]; decide +kernel)).2.2.2
  have ax := fun {i} (hi : i < 3) => axis_at hr.rest e hm hs (by rw [hw]; decide +kernel) (i := i) hi
  have x0 := (ax (i := 0) (by decide)).1 2 (by rw [hw]; decide +kernel)
  have x1 := (ax (i := 1) (by decide)).2.1 (by rw [hw]; decide +kernel)
  have x2 := (ax (i := 2) (by decide)).2.1 (by rw [hw]; decide +kernel)
  have hu := (ax (i := 0) (by decide)).2.2
  have hpl : p'.state.modal.plane = .G17 := by
    have b := (modal_settings_partial hr.rest e he (by rw [hw]; decide +kernel)).2.1.plane
    rw [hw] at b
    rw [b.kept (by decide +kernel), hs]; rfl
  obtain ⟨a0, a1⟩ := (arc_plane_partial hr.rest e hm ha).1 hpl
  obtain ⟨y0, y1, o0, o1, k0, k1, k2⟩ := arc_center_offsets hr.rest e hm ha ⟨'I', by decide, by rw [hw]; decide +kernel⟩
  rw [a0] at o0 k0
  rw [a1] at o1 k1
  have z0 : y0 = 5 := o0.named 5 (by rw [hw]; decide +kernel)
  have z1 : y1 = 0 := by
    rw [o1.kept (by rw [hw]; decide +kernel), hs]; rfl
  have m0 : ∀ x, mm .G21 x = x := fun _ => rfl
  rw [z0, hu, m0, hs] at k0
  rw [z1, hu, m0, hs] at k1
  rw [z0, z1, hu, m0, m0] at k2
  have k0' : m'.trajectory.arcCenter0 = fin 5 := by
    rw [k0]; show fin ((0 + 5 : ℚ) : ℝ) = _; norm_num
  have k1' : m'.trajectory.arcCenter1 = fin 0 := by
    rw [k1]; show fin ((0 + 0 : ℚ) : ℝ) = _; norm_num
  have k2' : m'.trajectory.radius = fin 5 := by
    rw [k2, show (((5 : ℚ) : ℝ) ^ 2 + ((0 : ℚ) : ℝ) ^ 2) = 5 ^ 2 by norm_num, Real.sqrt_sq (by norm_num)]
  obtain ⟨θ, φ, hθ, hφ, -, f2, p1', p2', p3', p4', -⟩ := arc_angles hr.rest e hm ha k0' k1' (s0 := 0) (s1 := 0) (e0 := 2) (e1 := 0)
    (by rw [hs]; show (0 : ℝ) = ((0 : ℚ) : ℝ); norm_num) (by rw [hs]; show (0 : ℝ) = ((0 : ℚ) : ℝ); norm_num)
    (by rw [a0, x0]; norm_num) (by rw [a1, x1]; norm_num)
  have hcos : Real.cos (θ + φ) = -1 := by
    rw [show ((2 - 5) ^ 2 + (0 - 0) ^ 2 : ℝ) = 3 ^ 2 by norm_num, Real.sqrt_sq (by norm_num)] at p3'
    linarith
  obtain ⟨q, mi, mo, ty, tr, cur, nx, -⟩ := moved_motion hr.rest e hm
  have hδ : ∀ i, i < 3 → m'.trajectory.delta i = fin ((q.nextOf i - q.state.currentPosition i : ℚ) : ℝ) := fun i hi => mo.delta i hi
  have hl := mo.length k2' hφ hδ
  have hδ2 : (q.nextOf 2 - q.state.currentPosition 2 : ℚ) = 0 := by
    rw [nx 2 (by decide), x2, cur, hs]; show (0 - 0 : ℚ) = 0; norm_num
  rw [a0, a1] at hl
  have hf : ((List.range 3).filter (fun i => decide (i ≠ 0 ∧ i ≠ 1))) = [2] := by decide
  rw [hf] at hl
  simp only [List.foldl_cons, List.foldl_nil, hδ2] at hl
  have hL : 0 < √((5 * |φ|) ^ 2 + (0 + ((0 : ℚ) : ℝ) ^ 2)) := by
    apply Real.sqrt_pos.2
    have := abs_pos.2 (f2 ht).1.ne'
    positivity
  obtain ⟨X, Y, hX, -, -, -, -, -, xL, -⟩ := arc_path hl hL (by rw [a0, a1]; decide) k0' k1' k2' hθ hφ
  refine ⟨p1, p', m', hg, e, hm, hrep, x0, _, hL, hl, ?_⟩
  rw [a0] at hX
  rw [hX, xL, hcos]
  norm_num

/-- An offset that is not programmed keeps its value from an earlier block: after "G3 X2 I1 J1" from the origin, the arc "G3 X0 I-1" has its
centre at Y1. -/
theorem arc_offset_kept : ∃ log p m, Run .reset (.fresh 3) log p m ∧ ∃ e ∈ log,
    e.1.block.words = [⟨71, 3, 30⟩, ⟨88, 0, 0⟩, ⟨73, -1, 0⟩] ∧ Moved e.2.1 e.2.2 ∧ IsArc e.2.2 ∧
    e.1.state.currentPosition 1 = 0 ∧ e.2.2.trajectory.arcAxis1 = 1 ∧ e.2.2.trajectory.arcCenter1 = fin 1 := by
  obtain ⟨p1, p2, m2, g1, w1, s1, r1, e1, c1, t1, v1, h1⟩ := runs_arc .reset (t := "G3 X2 I1 J1")
    (ws := [⟨71, 3, 30⟩, ⟨88, 2, 0⟩, ⟨73, 1, 0⟩, ⟨74, 1, 0⟩]) (by decide +kernel) (by decide +kernel) (by decide +kernel)
    (by decide +kernel) (k := 30) (mode := .G3) (by decide) (by decide +kernel) (by decide +kernel) (.fresh 3)
  obtain ⟨p3, p4, m4, g2, w2, s2, r2, e2, c2, t2, v2, h2⟩ := runs_arc p2 (t := "G3 X0 I-1")
    (ws := [⟨71, 3, 30⟩, ⟨88, 0, 0⟩, ⟨73, -1, 0⟩]) (by decide +kernel) (by decide +kernel) (by decide +kernel)
    (by decide +kernel) (k := 30) (mode := .G3) (by decide) (by decide +kernel) (by decide +kernel) m2
  have h := (((Run.start.line _ g1).parse e1).line _ g2).parse e2
  obtain ⟨-, y1, u1⟩ := axis_at r1.rest e1 h1 s1 (by rw [w1]; decide +kernel) (i := 1) (by decide)
  have b1 := (modal_settings_partial r1.rest e1 c1 (by rw [w1]; decide +kernel)).2.1.plane
  have b2 := (modal_settings_partial r2.rest e2 c2 (by rw [w2]; decide +kernel)).2.1
  rw [w1] at b1
  rw [w2] at b2
  have hpl : p4.state.modal.plane = .G17 := by
    rw [b2.plane.kept (by decide +kernel), s2, b1.kept (by decide +kernel), s1]; rfl
  have hu : p4.state.modal.unit = .G21 := by rw [b2.unit.kept (by decide +kernel), s2, u1]
  obtain ⟨a0, a1⟩ := (arc_plane_partial r2.rest e2 h2 v2).1 hpl
  obtain ⟨z0, z1, o0, o1, k0, k1, k2⟩ := arc_center_offsets r2.rest e2 h2 v2 ⟨'I', by decide, by rw [w2]; decide +kernel⟩
  rw [a1] at o1 k1
  have hJ : p2.state.letterValue .J = 1 := by
    obtain ⟨q, mi, mo, ty, tr, cur, nx, lt, -⟩ := moved_motion r1.rest e1 h1
    have := (lt .J (by decide)).2.1 (by rw [w1]; decide +kernel)
    rw [w1] at this
    exact val_unique (l := .J) (by decide +kernel) (by simp) this (by decide +kernel)
  have e3 : z1 = 1 := by
    rw [o1.kept (by rw [w2]; decide +kernel), s2]; exact hJ
  have pos1 : p3.state.currentPosition 1 = 0 := by rw [s2]; exact y1 (by rw [w1]; decide +kernel)
  refine ⟨_, _, _, h, (p3, p4, m4), by simp, w2, h2, v2, pos1, a1, ?_⟩
  simp only
  rw [k1, pos1, e3, hu]
  show fin ((0 + 1 : ℚ) : ℝ) = _
  norm_num

end Moovr.Props
