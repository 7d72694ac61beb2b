import Verif.Lemmas.GCodeRun
import Verif.Lemmas.ArcGeometry
import Verif.Lemmas.Num
import Mathlib.Tactic.IntervalCases
/-!
# The motion of a block: arcs, lengths and speeds
-/
namespace Moovr.GCode
open Num Parser

theorem num_sub (x y : ℚ) : num x - num y = num (x - y) := by
  unfold num; rw [fin_sub]; push_cast; rfl

/-- The axes of an arc. -/
def arcAxes : PlaneMode → Nat × Nat
  | .G17 => (0, 1)
  | .G18 => (1, 2)
  | .G19 => (2, 0)

theorem arcAxes_lt (pl : PlaneMode) : (arcAxes pl).1 < 3 ∧ (arcAxes pl).2 < 3 ∧ (arcAxes pl).1 ≠ (arcAxes pl).2 := by
  cases pl <;> decide

/-- The intermediate motions of `calcMotion`. -/
theorem Motion.parts {p : Parser} {m m' : SimplifiedMotion} (h : Motion p m m') :
    ∃ m1, p.setNext.calcArcCenter (p.setNext.setArcAxis (p.setNext.setDelta m)) = .ok m1 ∧
      m'.trajectory = (calcLength (p.setNext.calcArcAngles m1)).trajectory ∧ m1.type = m.type ∧ m1.trajectory.delta = m'.trajectory.delta ∧
      m1.trajectory.startPosition = m'.trajectory.startPosition ∧
      m1.trajectory.arcAxis0 = m'.trajectory.arcAxis0 ∧ m1.trajectory.arcAxis1 = m'.trajectory.arcAxis1 ∧
      m1.trajectory.arcCenter0 = m'.trajectory.arcCenter0 ∧ m1.trajectory.arcCenter1 = m'.trajectory.arcCenter1 ∧
      m1.trajectory.radius = m'.trajectory.radius := by
  obtain ⟨m1, h1, h2⟩ := h.calculated
  obtain ⟨c1, c2, c3, c4, c5⟩ := calcArcCenter_fields h1
  obtain ⟨d1, d2, d3, d4, d5⟩ := calcArcAngles_fields p.setNext m1
  obtain ⟨a1, -, -⟩ := setArcAxis_fields p.setNext (p.setNext.setDelta m)
  have hc : (p.setNext.calcArcAngles m1).trajectory.arcCenter0 = m1.trajectory.arcCenter0 ∧
      (p.setNext.calcArcAngles m1).trajectory.arcCenter1 = m1.trajectory.arcCenter1 ∧
      (p.setNext.calcArcAngles m1).trajectory.radius = m1.trajectory.radius := by
    unfold calcArcAngles
    split_ifs <;> exact ⟨rfl, rfl, rfl⟩
  refine ⟨m1, h1, h2, c1.trans a1, ?_, ?_, ?_, ?_, ?_, ?_, ?_⟩ <;> rw [h2]
  · exact d2.symm
  · exact d3.symm
  · exact d4.symm
  · exact d5.symm
  · exact hc.1.symm
  · exact hc.2.1.symm
  · exact hc.2.2.symm

theorem Motion.axes_arc {p : Parser} {m m' : SimplifiedMotion} (h : Motion p m m') (ha : isArc m = true) :
    m'.trajectory.arcAxis0 = (arcAxes p.state.modal.plane).1 ∧ m'.trajectory.arcAxis1 = (arcAxes p.state.modal.plane).2 := by
  rw [h.axes.1, h.axes.2]
  unfold setArcAxis
  rw [if_pos ha]
  cases p.state.modal.plane <;> exact ⟨rfl, rfl⟩

theorem Motion.axes_straight {p : Parser} {m m' : SimplifiedMotion} (h : Motion p m m') (ha : isArc m = false) :
    m'.trajectory.arcAxis0 = 3 ∧ m'.trajectory.arcAxis1 = 3 := by
  rw [h.axes.1, h.axes.2]
  unfold setArcAxis
  rw [if_neg (by rw [ha]; decide)]
  exact ⟨rfl, rfl⟩

/-- With offsets. -/
theorem Motion.offsets {p : Parser} {m m' : SimplifiedMotion} (h : Motion p m m') (ho : p.block.hasOffset = true) :
    m'.trajectory.arcCenter0 = num (p.state.currentPosition m'.trajectory.arcAxis0 +
      p.inMm (p.state.letterValue (offsetLetter m'.trajectory.arcAxis0))) ∧
    m'.trajectory.arcCenter1 = num (p.state.currentPosition m'.trajectory.arcAxis1 +
      p.inMm (p.state.letterValue (offsetLetter m'.trajectory.arcAxis1))) ∧
    m'.trajectory.radius = fin (√((p.inMm (p.state.letterValue (offsetLetter m'.trajectory.arcAxis0)) : ℝ) ^ 2 +
      (p.inMm (p.state.letterValue (offsetLetter m'.trajectory.arcAxis1)) : ℝ) ^ 2)) := by
  obtain ⟨m1, h1, -, -, -, -, x0, x1, y0, y1, y2⟩ := h.parts
  obtain ⟨-, -, -, c4, c5⟩ := calcArcCenter_fields h1
  rw [← y0, ← y1, ← y2, ← x0, ← x1, c4, c5]
  unfold calcArcCenter at h1
  rw [if_pos (show p.setNext.block.hasOffset = true from ho)] at h1
  split_ifs at h1 with hc
  rw [← Except.ok.inj h1]
  generalize hm : p.setNext.setArcAxis (p.setNext.setDelta m) = n
  unfold centerFromOffsets
  simp only [num, fin_add, fin_sub, fin_mul]
  have hl : p.setNext.state.letterValue = p.state.letterValue := rfl
  have hi : ∀ x, p.setNext.inMm x = p.inMm x := fun _ => rfl
  simp only [setNext_current, hl, hi]
  refine ⟨by push_cast; rfl, by push_cast; rfl, ?_⟩
  rw [sqrt_fin (by rw [zero_add]; exact add_nonneg (mul_self_nonneg _) (mul_self_nonneg _))]
  congr 2
  ring

/-- With a radius. -/
theorem Motion.byRadius {p : Parser} {m m' : SimplifiedMotion} (h : Motion p m m') (ho : p.block.hasOffset = false)
    (hr : p.block.hasRadius = true) {d0 d1 r : ℝ} (hd0 : m'.trajectory.delta m'.trajectory.arcAxis0 = fin d0)
    (hd1 : m'.trajectory.delta m'.trajectory.arcAxis1 = fin d1) (hR : (p.inMm (p.state.letterValue .R) : ℝ) = r)
    (hpos : 0 < d0 ^ 2 + d1 ^ 2) (hle : d0 ^ 2 + d1 ^ 2 ≤ 4 * r ^ 2) :
    let k := (if m.type = .feedHelicalCW then -1 else 1) * (if r < 0 then -1 else 1) *
      (√(4 * r * r - d0 * d0 - d1 * d1) * (1 / 2) / √(d0 * d0 + d1 * d1))
    m'.trajectory.arcCenter0 = fin ((p.state.currentPosition m'.trajectory.arcAxis0 : ℝ) + (d0 * (1 / 2) - d1 * k)) ∧
    m'.trajectory.arcCenter1 = fin ((p.state.currentPosition m'.trajectory.arcAxis1 : ℝ) + (d1 * (1 / 2) + d0 * k)) ∧
    m'.trajectory.radius = fin |r| := by
  intro k
  obtain ⟨m1, h1, -, t, dl, -, x0, x1, y0, y1, y2⟩ := h.parts
  obtain ⟨c1, c2, -, c4, c5⟩ := calcArcCenter_fields h1
  rw [← dl, ← x0, c2, c4] at hd0
  rw [← dl, ← x1, c2, c5] at hd1
  rw [← y0, ← y1, ← y2, ← x0, ← x1, c4, c5]
  have ht := c1.symm.trans t
  unfold calcArcCenter at h1
  rw [if_neg (show ¬ p.setNext.block.hasOffset = true by show ¬ p.block.hasOffset = true; rw [ho]; decide),
    if_pos (show p.setNext.block.hasRadius = true from hr)] at h1
  split_ifs at h1 with hc
  rw [← Except.ok.inj h1]
  generalize p.setNext.setArcAxis (p.setNext.setDelta m) = n at *
  have hr' : num (p.setNext.inMm (p.setNext.state.letterValue .R)) = fin r := by rw [← hR]; rfl
  unfold centerFromRadius
  simp only [hd0, hd1, hr', fin_mul, fin_add, fin_sub, setNext_current, lt_fin, decide_eq_true_eq]
  rw [sqrt_fin (by nlinarith), sqrt_fin (by nlinarith)]
  have hD : √(d0 * d0 + d1 * d1) ≠ 0 := by
    rw [Real.sqrt_ne_zero (by nlinarith)]; nlinarith
  simp only [fin_mul, fin_div hD, fin_neg, ht]
  have hk : (if r < 0 then -(if m.type = .feedHelicalCW then fin (-(√(4 * r * r - d0 * d0 - d1 * d1) * (1 / 2) / √(d0 * d0 + d1 * d1)))
      else fin (√(4 * r * r - d0 * d0 - d1 * d1) * (1 / 2) / √(d0 * d0 + d1 * d1)))
      else (if m.type = .feedHelicalCW then fin (-(√(4 * r * r - d0 * d0 - d1 * d1) * (1 / 2) / √(d0 * d0 + d1 * d1)))
      else fin (√(4 * r * r - d0 * d0 - d1 * d1) * (1 / 2) / √(d0 * d0 + d1 * d1)))) = fin k := by
    show _ = fin (_ * _ * _)
    split_ifs <;> simp
  rw [hk]
  simp only [num, fin_mul, fin_sub, fin_add]
  refine ⟨trivial, trivial, ?_⟩
  split_ifs with hneg
  · rw [abs_of_neg hneg]
  · rw [abs_of_nonneg (not_lt.1 hneg)]

/-- Without offsets and radius the centre is the one of the motion before. -/
theorem Motion.stale {p : Parser} {m m' : SimplifiedMotion} (h : Motion p m m') (ho : p.block.hasOffset = false)
    (hr : p.block.hasRadius = false) : m'.trajectory.arcCenter0 = m.trajectory.arcCenter0 ∧
    m'.trajectory.arcCenter1 = m.trajectory.arcCenter1 ∧ m'.trajectory.radius = m.trajectory.radius := by
  obtain ⟨m1, h1, -, t, dl, -, x0, x1, y0, y1, y2⟩ := h.parts
  rw [← y0, ← y1, ← y2]
  unfold calcArcCenter at h1
  rw [if_neg (show ¬ p.setNext.block.hasOffset = true by show ¬ p.block.hasOffset = true; rw [ho]; decide),
    if_neg (show ¬ p.setNext.block.hasRadius = true by show ¬ p.block.hasRadius = true; rw [hr]; decide)] at h1
  rw [← Except.ok.inj h1]
  unfold setArcAxis
  split_ifs
  · cases p.setNext.state.modal.plane <;> exact ⟨rfl, rfl, rfl⟩
  · exact ⟨rfl, rfl, rfl⟩

/-- The radius is always a number. -/
theorem Motion.finite {p : Parser} {m m' : SimplifiedMotion} (h : Motion p m m') (hm : ∃ r : ℝ, m.trajectory.radius = fin r) :
    ∃ r : ℝ, m'.trajectory.radius = fin r := by
  rcases ho : p.block.hasOffset with _ | _
  · rcases hr : p.block.hasRadius with _ | _
    · rw [(h.stale ho hr).2.2]; exact hm
    · obtain ⟨m1, h1, -, t, dl, -, x0, x1, y0, y1, y2⟩ := h.parts
      rw [← y2]
      unfold calcArcCenter at h1
      rw [if_neg (show ¬ p.setNext.block.hasOffset = true by show ¬ p.block.hasOffset = true; rw [ho]; decide),
        if_pos (show p.setNext.block.hasRadius = true from hr)] at h1
      split_ifs at h1 with hc
      rw [← Except.ok.inj h1]
      unfold centerFromRadius
      simp only [num, fin_neg]
      exact ⟨_, ite_fin _ _ _⟩
  · exact ⟨_, (h.offsets ho).2.2⟩

/-- The angles of an arc. -/
theorem Motion.angles {p : Parser} {m m' : SimplifiedMotion} (h : Motion p m m') (ha : isArc m = true) {c0 c1 : ℝ}
    (h0 : m'.trajectory.arcCenter0 = fin c0) (h1 : m'.trajectory.arcCenter1 = fin c1) :
    let a0 := m'.trajectory.arcAxis0
    let a1 := m'.trajectory.arcAxis1
    let θ := Complex.arg ⟨(p.state.currentPosition a0 : ℝ) - c0, (p.state.currentPosition a1 : ℝ) - c1⟩
    let η := Complex.arg ⟨(p.nextOf a0 : ℝ) - c0, (p.nextOf a1 : ℝ) - c1⟩
    m'.trajectory.startAngle = fin θ ∧ m'.trajectory.deltaAngle = fin (Arc.sweep (decide (m.type = .feedHelicalCW)) θ η) := by
  intro a0 a1 θ η
  obtain ⟨m1, -, h2, t, -, -, x0, x1, y0, y1, -⟩ := h.parts
  have ha1 : isArc m1 = true := by unfold isArc at ha ⊢; rw [t]; exact ha
  obtain ⟨e0, e1⟩ := h.axes_arc ha
  obtain ⟨l0, l1, -⟩ := arcAxes_lt p.state.modal.plane
  rw [← e0] at l0
  rw [← e1] at l1
  have n0 : p.setNext.state.nextPosition a0 = p.nextOf a0 := if_pos l0
  have n1 : p.setNext.state.nextPosition a1 = p.nextOf a1 := if_pos l1
  have e : (p.setNext.calcArcAngles m1).trajectory.startAngle = fin θ ∧
      (p.setNext.calcArcAngles m1).trajectory.deltaAngle = fin (Arc.sweep (decide (m.type = .feedHelicalCW)) θ η) := by
    unfold calcArcAngles
    rw [if_pos ha1]
    simp only [x0, x1, y0, y1, h0, h1, setNext_current, show m'.trajectory.arcAxis0 = a0 from rfl, show m'.trajectory.arcAxis1 = a1 from rfl,
      n0, n1, num, fin_sub, Num.atan2, le_fin, fin_add, ite_fin, t, decide_eq_true_eq, Arc.sweep]
    exact ⟨rfl, rfl⟩
  rw [h2]
  exact e

theorem Motion.angles_straight {p : Parser} {m m' : SimplifiedMotion} (h : Motion p m m') (ha : isArc m = false) :
    m'.trajectory.startAngle = fin 0 ∧ m'.trajectory.deltaAngle = fin 0 := by
  obtain ⟨m1, -, h2, t, -⟩ := h.parts
  have ha1 : isArc m1 = false := by unfold isArc at ha ⊢; rw [t]; exact ha
  rw [h2]
  show (p.setNext.calcArcAngles m1).trajectory.startAngle = _ ∧ (p.setNext.calcArcAngles m1).trajectory.deltaAngle = _
  unfold calcArcAngles
  rw [if_neg (by rw [ha1]; decide)]
  exact ⟨rfl, rfl⟩

/-- The length of the path. -/
theorem Motion.length {p : Parser} {m m' : SimplifiedMotion} (h : Motion p m m') {r φ : ℝ} {δ : Nat → ℝ}
    (hr : m'.trajectory.radius = fin r) (hφ : m'.trajectory.deltaAngle = fin φ) (hδ : ∀ i, i < 3 → m'.trajectory.delta i = fin (δ i)) :
    m'.trajectory.length = fin (√((r * |φ|) ^ 2 + ((List.range 3).filter
      (fun i => decide (i ≠ m'.trajectory.arcAxis0 ∧ i ≠ m'.trajectory.arcAxis1))).foldl (fun s i => s + δ i ^ 2) 0)) := by
  obtain ⟨m1, -, h2, -⟩ := h.parts
  have key : ∀ n : SimplifiedMotion, n.trajectory.radius = fin r → n.trajectory.deltaAngle = fin φ →
      (∀ i, i < 3 → n.trajectory.delta i = fin (δ i)) → (calcLength n).trajectory.length =
      fin (√((r * |φ|) ^ 2 + ((List.range 3).filter
      (fun i => decide (i ≠ n.trajectory.arcAxis0 ∧ i ≠ n.trajectory.arcAxis1))).foldl (fun s i => s + δ i ^ 2) 0)) := by
    intro n n1 n2 n3
    unfold calcLength
    have hl : ∀ (l : List Nat) (x : ℝ), (∀ i ∈ l, i < 3) → l.foldl (fun acc i =>
        if i ≠ n.trajectory.arcAxis0 ∧ i ≠ n.trajectory.arcAxis1 then acc + n.trajectory.delta i * n.trajectory.delta i else acc) (fin x) =
        fin (x + (l.filter (fun i => decide (i ≠ n.trajectory.arcAxis0 ∧ i ≠ n.trajectory.arcAxis1))).foldl (fun s i => s + δ i ^ 2) 0) := by
      intro l
      induction l with
      | nil => intro x _; simp
      | cons i l ih =>
        intro x hl
        have hsum : ∀ (l : List Nat) (y : ℝ), l.foldl (fun s i => s + δ i ^ 2) y = y + l.foldl (fun s i => s + δ i ^ 2) 0 := by
          intro l
          induction l with
          | nil => simp
          | cons j l ih => intro y; rw [List.foldl_cons, ih, List.foldl_cons, ih (0 + _)]; ring
        rw [List.foldl_cons]
        by_cases hc : i ≠ n.trajectory.arcAxis0 ∧ i ≠ n.trajectory.arcAxis1
        · rw [if_pos hc, n3 i (hl i (by simp)), fin_mul, fin_add, ih _ fun j hj => hl j (by simp [hj]),
            List.filter_cons_of_pos (by simpa using hc), List.foldl_cons, hsum _ (0 + _)]
          congr 1; ring
        · rw [if_neg hc, ih _ fun j hj => hl j (by simp [hj]), List.filter_cons_of_neg (by simpa using hc)]
    simp only [n1, n2, abs_fin, fin_mul]
    rw [show nAxis = 3 from rfl, hl _ _ (fun i hi => List.mem_range.1 hi), sqrt_fin]
    · show fin _ = fin _
      rw [pow_two]
    · have hnn : ∀ (l : List Nat) (y : ℝ), 0 ≤ y → 0 ≤ l.foldl (fun s i => s + δ i ^ 2) y := by
        intro l
        induction l with
        | nil => intro y hy; exact hy
        | cons j l ih => intro y hy; exact ih _ (by positivity)
      have := hnn ((List.range 3).filter (fun i => decide (i ≠ n.trajectory.arcAxis0 ∧ i ≠ n.trajectory.arcAxis1))) 0 le_rfl
      nlinarith [mul_self_nonneg (r * |φ|)]
  rw [h2] at hr hφ hδ ⊢
  exact key (p.setNext.calcArcAngles m1) hr hφ hδ

/-! ## Accesses outside the arrays -/

/-- A block without offsets and radius, or an arc, reads nothing outside the arrays. -/
theorem parse_inside {p : Parser} (m : SimplifiedMotion) (hr : Rest p)
    (h : (p.block.hasOffset = false ∧ p.block.hasRadius = false) ∨ (¬ IsDwell p.block.words ∧
      (∀ k ∈ [0, 10, 530], ¬ HasCode p.block.words 'G' k) ∧
      (HasCode p.block.words 'G' 20 ∨ HasCode p.block.words 'G' 30 ∨ p.state.modal.motion = .G2 ∨ p.state.modal.motion = .G3))) :
    ∃ p' m', p.parseBlock m = .ok (p', m') := by
  rcases parse_split p m with ⟨-, e⟩ | ⟨-, -, e⟩ | ⟨h1, h2, -⟩
  · exact ⟨_, _, e⟩
  · exact ⟨_, _, e⟩
  · by_cases hd : IsDwell p.block.words
    · obtain ⟨q, x, i, j, hk, -, -, -, -, -, -, e⟩ := parse_dwell m hr rfl h1 h2 hd
      rw [e]
      have ho : q.block.hasOffset = false ∧ q.block.hasRadius = false := by
        rcases h with h | ⟨h, -⟩
        · rw [hk.counts]; exact h
        · exact absurd hd h
      obtain ⟨r, e'⟩ := moveThen_total ({ q.setLetter .P x with result := .okContextUpdateAndMotion } : Parser)
        { m with type := .none } .pauseAndResume (fun p => (p.removeWord i).removeWord j) (.inr ho)
      exact ⟨r.1, r.2, e'⟩
    · obtain ⟨q, hk, hq, e⟩ := parse_ready hr rfl h1 h2 hd m
      rw [e]
      obtain ⟨r, e'⟩ := execute_total q { m with type := .none } (by
        rcases h with h | ⟨-, hn, hc⟩
        · left; rw [hk.counts]; exact h
        · right
          have n := fun k hk' hki => mt (keeps_codes (k := k) hk hki).1 (hn k hk')
          refine ⟨n 530 (by decide) (by decide), n 0 (by decide) (by decide), n 10 (by decide) (by decide), ?_⟩
          rcases hc with hc | hc | hc
          · exact .inl ((keeps_codes hk (by decide)).2 hc)
          · exact .inr (.inl ((keeps_codes hk (by decide)).2 hc))
          · right; right
            rw [hq.modal]; exact hc)
      exact ⟨r.1, r.2, e'⟩

theorem calcMotion_outside (p : Parser) (m : SimplifiedMotion) (ha : isArc m = false)
    (h : p.block.hasOffset = true ∨ p.block.hasRadius = true) : p.calcMotion m = .error .axisOutOfBounds := by
  unfold calcMotion
  have hc : p.setNext.calcArcCenter (p.setNext.setArcAxis (p.setNext.setDelta m)) = .error .axisOutOfBounds := by
    unfold calcArcCenter
    have hx : ¬ ((p.setNext.setArcAxis (p.setNext.setDelta m)).trajectory.arcAxis0 < nAxis ∧
        (p.setNext.setArcAxis (p.setNext.setDelta m)).trajectory.arcAxis1 < nAxis) := by
      unfold setArcAxis
      rw [if_neg (show ¬ isArc (p.setNext.setDelta m) = true by show ¬ isArc m = true; rw [ha]; decide)]
      simp [nAxis]
    rw [if_neg hx, if_neg hx]
    by_cases ho : p.setNext.block.hasOffset = true
    · rw [if_pos ho]
    · rw [if_neg ho]
      rcases h with h | h
      · exact absurd h ho
      · rw [if_pos (show p.setNext.block.hasRadius = true from h)]
  simp only [hc]

theorem moveThen_outside (p : Parser) (m : SimplifiedMotion) {t : MotionType} (f : Parser → Parser)
    (ht : t ≠ .feedHelicalCW ∧ t ≠ .feedHelicalCCW)
    (h : p.block.hasOffset = true ∨ p.block.hasRadius = true) : p.moveThen m t f = .error .axisOutOfBounds := by
  unfold moveThen
  rw [calcMotion_outside p _ (by unfold isArc; simp [ht.1, ht.2]) h]
  rfl

/-- Every other block without collisions, if it makes a motion at all, reads outside the arrays. -/
theorem parse_outside {p : Parser} (m : SimplifiedMotion) (hr : Rest p) (ho : p.block.hasOffset = true ∨ p.block.hasRadius = true)
    (h1 : p.block.hasModalGroupViolation = false) (h2 : p.block.hasLetterWordViolation = false)
    (h : IsDwell p.block.words ∨ HasCode p.block.words 'G' 0 ∨ HasCode p.block.words 'G' 530) :
    p.parseBlock m = .error .axisOutOfBounds := by
  by_cases hd : IsDwell p.block.words
  · obtain ⟨q, x, i, j, hk, -, -, -, -, -, -, e⟩ := parse_dwell m hr rfl h1 h2 hd
    rw [e]
    have ho' : q.block.hasOffset = true ∨ q.block.hasRadius = true := by rw [hk.counts]; exact ho
    exact moveThen_outside ({ q.setLetter .P x with result := .okContextUpdateAndMotion } : Parser) _ _ (by decide) ho'
  · obtain ⟨q, hk, hq, e⟩ := parse_ready hr rfl h1 h2 hd m
    rw [e]
    have ho' : q.block.hasOffset = true ∨ q.block.hasRadius = true := by rw [hk.counts]; exact ho
    have n : ∀ k, k = 0 ∨ k = 530 → HasCode p.block.words 'G' k → HasCode q.block.words 'G' k := by
      intro k hk' hc
      exact (keeps_codes hk (by rcases hk' with rfl | rfl <;> decide)).2 hc
    unfold execute
    rcases h53 : q.block.search2 'G' 530 with _ | i
    · simp only
      have h0 : HasCode q.block.words 'G' 0 := by
        rcases h with h | h | h
        · exact absurd h hd
        · exact n 0 (.inl rfl) h
        · exact absurd (n 530 (.inr rfl) h) (search2_none.1 h53)
      unfold modalMove
      rcases h0' : q.block.search2 'G' 0 with _ | i
      · exact absurd h0 (search2_none.1 h0')
      · exact moveThen_outside _ _ _ (by decide) ho'
    · simp only
      have hm : q.machineMove { m with type := .none } i = .error .axisOutOfBounds := by
        unfold machineMove
        simp only
        split
        · exact moveThen_outside _ _ _ (by decide) ho'
        · split
          · exact moveThen_outside _ _ _ (by decide) ho'
          · exact moveThen_outside _ _ _ (by decide) ho'
      rw [hm]
      rfl

end Moovr.GCode
