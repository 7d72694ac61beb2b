import Verif.Props.GCodeExecute
import Verif.Props.SingleQueue
/-!
# Property C99: from G-code text to the motors, with the controller in single precision

The interpreter of C83 (exact numbers) and the queue of C98 (`float` arithmetic).
-/
namespace Moovr.Props
open GCode Parser Num MotionSpec MotionCtrl ExecSpec

/-! ## Specification -/

/-- The speed that a motion asks for: 30 mm/s without a feed rate or with a higher one; on an arc, at most the speed at which the
acceleration towards the centre is 200 mm/s². -/
noncomputable def speedOf (q : ℝ) (r : SimplifiedMotion) : ℝ :=
  let g := match r.vFeed with
    | fin f => min (f * q) 30
    | _ => 30
  if r.type = .feedHelicalCW ∨ r.type = .feedHelicalCCW then min g √(200 * val r.trajectory.radius) else g

/-- The block programs a straight motion, at least 1/128 mm long in some axis, inside of 300 mm on either side of the origin; an axis
moves not at all or by at least 2^-100 mm. -/
structure LineBlock32 (e : Parser × Parser × SimplifiedMotion) : Prop where
  type : e.2.2.type = .traverse ∨ e.2.2.type = .feedLinear
  far : ∃ i, i < 3 ∧ 1 / 128 ≤ |at_ e.2.1 i - at_ e.1 i|
  close : ∀ i, i < 3 → |at_ e.1 i| ≤ 300 ∧ |at_ e.2.1 i| ≤ 300 ∧ |at_ e.2.1 i - at_ e.1 i| ≤ 300
  seen : ∀ i, i < 3 → at_ e.2.1 i = at_ e.1 i ∨ 1 / 2 ^ 100 ≤ |at_ e.2.1 i - at_ e.1 i|

/-- The block programs an arc with start and end on the circle, with a radius from 1/64 to 100 mm, between 1/128 and 420 mm long and inside
of 300 mm on either side of the origin; the third axis moves not at all or by at least 2^-100 mm, and the arc turns by at least that angle. -/
structure ArcBlock32 (e : Parser × Parser × SimplifiedMotion) : Prop where
  type : IsArc e.2.2
  proper : ProperArc e.2.2 e.1.state.currentPosition e.2.1.state.currentPosition
  size : 1 / 64 ≤ val e.2.2.trajectory.radius ∧ val e.2.2.trajectory.radius ≤ 100
  long : 1 / 128 ≤ val e.2.2.trajectory.length ∧ val e.2.2.trajectory.length ≤ 420
  turn : 1 / 2 ^ 100 ≤ |val e.2.2.trajectory.deltaAngle|
  inside : ∀ i, i < 3 → ∀ s, 0 ≤ s → s ≤ val e.2.2.trajectory.length → |place e.2.2 i s| ≤ 300
  span : ∀ i, i < 3 → i ≠ e.2.2.trajectory.arcAxis0 → i ≠ e.2.2.trajectory.arcAxis1 → |at_ e.2.1 i - at_ e.1 i| ≤ 300
  seen : ∀ i, i < 3 → i ≠ e.2.2.trajectory.arcAxis0 → i ≠ e.2.2.trajectory.arcAxis1 →
    at_ e.2.1 i = at_ e.1 i ∨ 1 / 2 ^ 100 ≤ |at_ e.2.1 i - at_ e.1 i|

/-- The block programs such a line or arc. A feed rate, if there is one, gives at least 0.1 mm/s, and the motion would take 85 s at most. -/
structure Block32 (q : ℝ) (e : Parser × Parser × SimplifiedMotion) : Prop where
  path : LineBlock32 e ∨ ArcBlock32 e
  feed : e.2.2.vFeed = posInf ∨ ∃ f, e.2.2.vFeed = fin f ∧ 1 / 10 ≤ f * q
  brief : val e.2.2.trajectory.length ≤ 85 * speedOf q e.2.2

/-- The point is on the path that the block programs: on the line from the position of the interpreter before to the one after the block,
or on the arc of its centre and radius between these. -/
def OnPath (e : Parser × Parser × SimplifiedMotion) (X : Nat → ℝ) : Prop :=
  (¬ IsArc e.2.2 ∧ ∃ u : ℝ, 0 ≤ u ∧ u ≤ 1 ∧ ∀ i, i < 3 → X i = at_ e.1 i + u * (at_ e.2.1 i - at_ e.1 i)) ∨
  (IsArc e.2.2 ∧ ∃ c0 c1 ρ θ φ u : ℝ, 0 ≤ u ∧ u ≤ 1 ∧
    e.2.2.trajectory.arcCenter0 = fin c0 ∧ e.2.2.trajectory.arcCenter1 = fin c1 ∧ e.2.2.trajectory.radius = fin ρ ∧
    (e.2.2.type = .feedHelicalCW → -(2 * Real.pi) ≤ φ ∧ φ < 0) ∧ (e.2.2.type = .feedHelicalCCW → 0 < φ ∧ φ ≤ 2 * Real.pi) ∧
    let k0 := e.2.2.trajectory.arcAxis0
    let k1 := e.2.2.trajectory.arcAxis1
    at_ e.1 k0 = c0 + ρ * Real.cos θ ∧ at_ e.1 k1 = c1 + ρ * Real.sin θ ∧
    at_ e.2.1 k0 = c0 + ρ * Real.cos (θ + φ) ∧ at_ e.2.1 k1 = c1 + ρ * Real.sin (θ + φ) ∧
    X k0 = c0 + ρ * Real.cos (θ + u * φ) ∧ X k1 = c1 + ρ * Real.sin (θ + u * φ) ∧
    ∀ i, i < 3 → i ≠ k0 → i ≠ k1 → X i = at_ e.1 i + u * (at_ e.2.1 i - at_ e.1 i))

/-- The blocks that are reported as motions. -/
def motions (log : List (Parser × Parser × SimplifiedMotion)) : List (Parser × Parser × SimplifiedMotion) :=
  log.filter fun e => decide (Reported e.2.1.result)

/-- Where the interpreter is after these blocks, coming from the origin. -/
def reached (es : List (Parser × Parser × SimplifiedMotion)) (i : Nat) : ℝ :=
  match es.getLast? with
  | none => 0
  | some e => at_ e.2.1 i

/-! ## Proof -/

private noncomputable def pieceOf (q : ℝ) (e : Parser × Parser × SimplifiedMotion) : Piece :=
  ⟨e.2.2, at_ e.1, fun i => at_ e.2.1 i - at_ e.1 i, val e.2.2.trajectory.length, speedOf q e.2.2⟩

private theorem speed_asked {q : ℝ} (hq : 0 < q) (hq4 : q ≤ 4) {r : SimplifiedMotion} (hL : 0 ≤ val r.trajectory.length)
    (hb : val r.trajectory.length ≤ 85 * speedOf q r)
    (h : r.vFeed = posInf ∨ ∃ f, r.vFeed = fin f ∧ 1 / 10 ≤ f * q) : ∃ g, Asked r (val r.trajectory.length) q g ∧
      speedOf q r = if r.type = .feedHelicalCW ∨ r.type = .feedHelicalCCW then min g √(200 * val r.trajectory.radius) else g := by
  rcases h with h | ⟨f, h, hf⟩
  · refine ⟨30, .inl ⟨h, hq, rfl⟩, ?_⟩
    unfold speedOf; rw [h]
  · have e : speedOf q r = if r.type = .feedHelicalCW ∨ r.type = .feedHelicalCCW then
        min (min (f * q) 30) √(200 * val r.trajectory.radius) else min (f * q) 30 := by unfold speedOf; rw [h]
    have hle : speedOf q r ≤ min (f * q) 30 := by
      rw [e]; split
      · exact min_le_left _ _
      · exact le_rfl
    have hg : 1 / 10 ≤ min (f * q) 30 := le_min hf (by norm_num)
    refine ⟨min (f * q) 30, .inr ⟨f, h, hq, hq4, hf, rfl, ?_⟩, e⟩
    generalize min (f * q) 30 = g at *
    have k1 := pow_le_pow_left₀ hL (hb.trans (mul_le_mul_of_nonneg_left hle (by norm_num))) 2
    have k2 := mul_le_mul_of_nonneg_left hg (sq_nonneg g)
    nlinarith

private theorem line_ok {q : ℝ} (hq : 0 < q) (hq4 : q ≤ 4) {p p' : Parser} {m m' : SimplifiedMotion} (hr : GCode.Rest p)
    (h : p.parseBlock m = .ok (p', m')) (hrep : Reported p'.result) (hl : LineBlock32 (p, p', m')) (hb : Block32 q (p, p', m'))
    (hrho : ∃ rho : ℝ, m.trajectory.radius = fin rho) :
    (pieceOf q (p, p', m')).Ok q ∧ ∀ s, 0 ≤ s → s ≤ val m'.trajectory.length → OnPath (p, p', m') fun i => place m' i s := by
  obtain ⟨rho, hrho⟩ := hrho
  have hna : ¬ IsArc m' := by unfold IsArc; rcases hl.type with t | t <;> rw [t] <;> simp
  have tm : m'.type.moves = true := by rcases hl.type with t | t <;> rw [t] <;> rfl
  have hne : ∃ i, i < 3 ∧ p'.state.currentPosition i ≠ p.state.currentPosition i := by
    obtain ⟨i, hi, hf⟩ := hl.far
    refine ⟨i, hi, fun he => ?_⟩
    unfold at_ at hf
    rw [he] at hf
    norm_num at hf
  obtain ⟨b1, b2, b3, b4, b5⟩ := straight_executable hr h ⟨reported_ne hrep, tm⟩ hna hrho hne
  have hpos := b1.moves.pos
  have hsq : val m'.trajectory.length ^ 2 = (at_ p' 0 - at_ p 0) ^ 2 + (at_ p' 1 - at_ p 1) ^ 2 + (at_ p' 2 - at_ p 2) ^ 2 := by
    rw [b5, Real.sq_sqrt (by positivity)]
  have hlong : 1 / 128 ≤ val m'.trajectory.length := by
    obtain ⟨i, hi, hf⟩ := hl.far
    refine le_trans hf (abs_le_of_sq_le_sq ?_ hpos.le)
    rw [hsq]
    have := sq_nonneg (at_ p' 0 - at_ p 0); have := sq_nonneg (at_ p' 1 - at_ p 1); have := sq_nonneg (at_ p' 2 - at_ p 2)
    interval_cases i <;> (dsimp only; linarith)
  have hfin : m'.trajectory.length = fin (val m'.trajectory.length) := b1.moves.length
  have hline : LineRequest m' (at_ p) (fun i => at_ p' i - at_ p i) (val m'.trajectory.length) := by
    refine ⟨⟨hsq, le_trans (by norm_num) hlong, fun i hi => (hl.close i hi).1, fun i hi => ?_, fun i hi => (hl.close i hi).2.2⟩, hl.type,
      ⟨b2.ge, b3.ge⟩, fun i hi => (b4 i hi).1, fun i hi => (b4 i hi).2, hfin, fun i hi => ?_⟩
    · show |at_ p i + (at_ p' i - at_ p i)| ≤ 300
      rw [add_sub_cancel]; exact (hl.close i hi).2.1
    · rcases hl.seen i hi with h | h
      · exact .inl (sub_eq_zero.2 h)
      · exact .inr h
  obtain ⟨g, hg, e⟩ := speed_asked hq hq4 hpos.le hb.brief hb.feed
  rw [if_neg (show ¬ (m'.type = .feedHelicalCW ∨ m'.type = .feedHelicalCCW) from hna)] at e
  refine ⟨⟨.inl ⟨hline, ?_⟩, hlong, hb.brief⟩, fun s s0 s1 => .inl ⟨hna, s / val m'.trajectory.length, div_nonneg s0 hpos.le, ?_, fun i hi => ?_⟩⟩
  · show Asked m' (val m'.trajectory.length) q (speedOf q m')
    rw [show speedOf q m' = g from e]; exact hg
  · rw [div_le_one hpos]; exact s1
  · show place m' i s = _
    rw [hline.place_eq hi, mul_comm]

private theorem arc_ok {q : ℝ} (hq : 0 < q) (hq4 : q ≤ 4) {p p' : Parser} {m m' : SimplifiedMotion} (hr : GCode.Rest p)
    (h : p.parseBlock m = .ok (p', m')) (hrep : Reported p'.result) (hl : ArcBlock32 (p, p', m')) (hb : Block32 q (p, p', m')) :
    (pieceOf q (p, p', m')).Ok q ∧ ∀ s, 0 ≤ s → s ≤ val m'.trajectory.length → OnPath (p, p', m') fun i => place m' i s := by
  have ha : IsArc m' := hl.type
  have tm : m'.type.moves = true := by rcases ha with t | t <;> rw [t] <;> rfl
  have hm : Moved p' m' := ⟨reported_ne hrep, tm⟩
  have hx := arc_executable hr h hm ha hl.proper
  have hprop : ProperArc m' p.state.currentPosition p'.state.currentPosition := hl.proper
  obtain ⟨c0, c1, rho, h0, h1, hrho, hpos, hs, he⟩ := hprop
  obtain ⟨q', mi, mo, ty, tr, cur, nx, -⟩ := moved_motion hr h hm
  obtain ⟨-, -, -, hne, l0, l1⟩ := arc_plane_partial hr h hm ha
  obtain ⟨θ, φ, hθ, hφ, w1, w2, w3, w4, w5, w6, -⟩ := arc_angles hr h hm ha h0 h1 rfl rfl rfl rfl
  have ha' : isArc mi = true := by rw [isArc_iff]; unfold IsArc; rw [ty]; exact ha
  obtain ⟨hθ', -⟩ := mo.angles ha' h0 h1
  have hang : |θ| ≤ 4 := by
    rw [hθ] at hθ'
    rw [Num.fin.inj hθ']
    exact (Complex.abs_arg_le_pi _).trans Real.pi_lt_four.le
  rw [show (√(((p.state.currentPosition m'.trajectory.arcAxis0 : ℝ) - c0) ^ 2 + ((p.state.currentPosition m'.trajectory.arcAxis1 : ℝ) - c1) ^ 2)) = rho by
    rw [hs]; exact Real.sqrt_sq hpos.le] at w3 w4
  rw [show (√(((p'.state.currentPosition m'.trajectory.arcAxis0 : ℝ) - c0) ^ 2 + ((p'.state.currentPosition m'.trajectory.arcAxis1 : ℝ) - c1) ^ 2)) = rho by
    rw [he]; exact Real.sqrt_sq hpos.le] at w5 w6
  have hδ : ∀ i, i < 3 → m'.trajectory.delta i = fin (at_ p' i - at_ p i) := by
    intro i hi
    rw [mo.delta i hi, nx i hi, cur]
    unfold num at_; push_cast; rfl
  have hst : ∀ i, i < 3 → m'.trajectory.startPosition i = fin (at_ p i) := by
    intro i hi
    rw [mo.start i hi, cur]; rfl
  have hvr : val m'.trajectory.radius = rho := by rw [hrho]; rfl
  have hL0 := hx.moves.pos
  have hlen : m'.trajectory.length = fin (val m'.trajectory.length) := hx.moves.length
  set L := val m'.trajectory.length with hLdef
  have hpl : ∀ i s, place m' i s = if i = m'.trajectory.arcAxis0 then c0 + rho * Real.cos (θ + φ / L * s)
      else if i = m'.trajectory.arcAxis1 then c1 + rho * Real.sin (θ + φ / L * s)
      else val (m'.trajectory.startPosition i) + val (m'.trajectory.delta i) / L * s := by
    intro i s
    unfold place
    simp only [h0, h1, hrho, hθ, hφ]
    rfl
  have hLu : ∀ u : ℝ, φ / L * (u * L) = φ * u := by intro u; field_simp
  have hin : ∀ i, i < 3 → ∀ u : ℝ, 0 ≤ u → u ≤ 1 → |place m' i (u * L)| ≤ 300 := fun i hi u u0 u1 =>
    hl.inside i hi _ (by positivity) (by show u * L ≤ L; nlinarith)
  have hin0 : ∀ u : ℝ, 0 ≤ u → u ≤ 1 → |c0 + rho * Real.cos (θ + φ * u)| ≤ 300 := by
    intro u u0 u1
    have := hin _ l0 u u0 u1
    rw [hpl, if_pos rfl, hLu] at this
    exact this
  have hin1 : ∀ u : ℝ, 0 ≤ u → u ≤ 1 → |c1 + rho * Real.sin (θ + φ * u)| ≤ 300 := by
    intro u u0 u1
    have := hin _ l1 u u0 u1
    rw [hpl, if_neg (Ne.symm hne), if_pos rfl, hLu] at this
    exact this
  have hr100 : rho ≤ 100 := by have := hl.size.2; dsimp only at this; rwa [hvr] at this
  have hr64 : 1 / 64 ≤ rho := by have := hl.size.1; dsimp only at this; rwa [hvr] at this
  have hφ2 : |φ| ≤ 7 := by
    have hpi : Real.pi ≤ 3.15 := Real.pi_lt_d2.le
    rw [abs_le]
    rcases ha with t | t
    · have := w1 t; constructor <;> linarith
    · have := w2 t; constructor <;> linarith
  have hchord : rho * |φ| ≤ L := by
    obtain ⟨-, -, -, -, -, hc⟩ := hx.arc (.inl l0)
    rw [hrho, hφ] at hc
    exact hc
  have hplace : ∀ i, i < 3 → place m' i 0 = at_ p i ∧ place m' i L = at_ p' i := by
    refine fun i hi => ⟨?_, ?_⟩
    · rw [hpl, mul_zero, add_zero]
      split_ifs with e0 e1
      · rw [e0]; exact w3.symm
      · rw [e1]; exact w4.symm
      · rw [hst i hi]; show at_ p i + _ = _; ring
    · have e : φ / L * L = φ := by field_simp
      rw [hpl, e]
      split_ifs with e0 e1
      · rw [e0]; exact w5.symm
      · rw [e1]; exact w6.symm
      · rw [hst i hi, hδ i hi]
        show at_ p i + (at_ p' i - at_ p i) / L * L = _
        rw [div_mul_cancel₀ _ hL0.ne']; ring
  have hspan : ∀ i, i < 3 → i ≠ m'.trajectory.arcAxis0 → i ≠ m'.trajectory.arcAxis1 → |at_ p' i - at_ p i| ≤ L := by
    intro i hi n0 n1
    have hlen' := mo.length hrho hφ hδ
    have hLs : L = _ := (hLdef.trans (congrArg val hlen'))
    rw [hLs]
    apply Real.le_sqrt_of_sq_le
    have hsub : ∀ (l : List Nat) (z : ℝ), 0 ≤ z → z ≤ l.foldl (fun s i => s + (at_ p' i - at_ p i) ^ 2) z := by
      intro l
      induction l with
      | nil => intro y hy; exact le_rfl
      | cons j l ih => intro y hy; exact le_trans (by have := sq_nonneg (at_ p' j - at_ p j); linarith) (ih _ (by positivity))
    have hmem : ∀ (l : List Nat) (z : ℝ), 0 ≤ z → i ∈ l → (at_ p' i - at_ p i) ^ 2 ≤ l.foldl (fun s i => s + (at_ p' i - at_ p i) ^ 2) z := by
      intro l
      induction l with
      | nil => intro y hy h; cases h
      | cons j l ih =>
        intro y hy h
        rw [List.foldl_cons]
        rcases List.mem_cons.1 h with rfl | h
        · exact le_trans (by linarith) (hsub l _ (by positivity))
        · exact ih _ (by positivity) h
    have := hmem ((List.range 3).filter (fun i => decide (i ≠ m'.trajectory.arcAxis0 ∧ i ≠ m'.trajectory.arcAxis1))) 0 le_rfl
      (List.mem_filter.2 ⟨List.mem_range.2 hi, by simp [n0, n1]⟩)
    rw [sq_abs]
    have hsq : 0 ≤ (rho * |φ|) ^ 2 := by positivity
    linarith
  have hcen : ∀ {c x : ℝ}, |c + rho * x| ≤ 300 → |x| ≤ 1 → |c| ≤ 400 := by
    intro c x h1 h2
    rw [abs_le] at *
    constructor <;> nlinarith
  have harc : ArcRequest m' ⟨m'.trajectory.arcAxis0, m'.trajectory.arcAxis1, c0, c1, θ, φ, rho⟩ (at_ p) (fun i => at_ p' i - at_ p i) L := by
    refine ⟨⟨⟨l0, l1, hne⟩, le_trans (by norm_num) hl.long.1, hl.long.2, ⟨hr64, hr100⟩, hang, hφ2, hchord,
      ⟨hcen (hin0 0 le_rfl zero_le_one) (Real.abs_cos_le_one _), hcen (hin1 0 le_rfl zero_le_one) (Real.abs_sin_le_one _)⟩,
      fun i hi _ _ => ?_, fun i hi _ _ => ?_, fun i hi n0 n1 => ⟨hl.span i hi n0 n1, hspan i hi n0 n1⟩, fun u u0 u1 => ⟨hin0 u u0 u1, hin1 u u0 u1⟩⟩,
      ha, rfl, rfl, h0, h1, hθ, hφ, hrho, fun i hi _ _ => hst i hi, fun i hi _ _ => hδ i hi, hlen, ?_, fun i hi n0 n1 => ?_, ⟨w3, w4⟩, ?_⟩
    · have := hin i hi 0 le_rfl zero_le_one
      rw [zero_mul, (hplace i hi).1] at this
      exact this
    · have := hin i hi 1 zero_le_one le_rfl
      rw [one_mul, (hplace i hi).2] at this
      show |at_ p i + (at_ p' i - at_ p i)| ≤ 300
      rwa [add_sub_cancel]
    · have := hl.turn
      dsimp only at this
      rwa [hφ] at this
    · rcases hl.seen i hi n0 n1 with h | h
      · exact .inl (sub_eq_zero.2 h)
      · exact .inr h
    · show at_ p _ + (at_ p' _ - at_ p _) = _ ∧ at_ p _ + (at_ p' _ - at_ p _) = _
      rw [add_sub_cancel, add_sub_cancel]
      exact ⟨w5, w6⟩
  obtain ⟨g, hg, e⟩ := speed_asked hq hq4 hL0.le hb.brief hb.feed
  rw [if_pos (show m'.type = .feedHelicalCW ∨ m'.type = .feedHelicalCCW from ha)] at e
  refine ⟨⟨.inr ⟨_, g, harc, hg, ?_⟩, hl.long.1, hb.brief⟩, fun s s0 s1 => .inr ⟨ha, c0, c1, rho, θ, φ, s / L, div_nonneg s0 hL0.le, ?_,
    h0, h1, hrho, w1, w2, w3, w4, w5, w6, ?_, ?_, fun i hi n0 n1 => ?_⟩⟩
  · show speedOf q m' = min g √(200 * rho)
    rw [← hvr]; exact e
  · rw [div_le_one hL0]; exact s1
  · show place m' m'.trajectory.arcAxis0 s = _
    rw [hpl, if_pos rfl]
    congr 3; ring
  · show place m' m'.trajectory.arcAxis1 s = _
    rw [hpl, if_neg (Ne.symm hne), if_pos rfl]
    congr 3; ring
  · show place m' i s = _
    rw [hpl, if_neg n0, if_neg n1, hst i hi, hδ i hi]
    show at_ p i + (at_ p' i - at_ p i) / L * s = _
    ring

private theorem piece_ok {q : ℝ} (hq : 0 < q) (hq4 : q ≤ 4) {p p' : Parser} {m m' : SimplifiedMotion} (hr : GCode.Rest p)
    (h : p.parseBlock m = .ok (p', m')) (hrep : Reported p'.result) (hb : Block32 q (p, p', m')) (hrho : ∃ rho : ℝ, m.trajectory.radius = fin rho) :
    (pieceOf q (p, p', m')).Ok q ∧ ∀ s, 0 ≤ s → s ≤ val m'.trajectory.length → OnPath (p, p', m') fun i => place m' i s := by
  rcases hb.path with h' | h'
  · exact line_ok hq hq4 hr h hrep h' hb hrho
  · exact arc_ok hq hq4 hr h hrep h' hb

private theorem motions_snoc (log : List (Parser × Parser × SimplifiedMotion)) (e) : motions (log ++ [e]) =
    if Reported e.2.1.result then motions log ++ [e] else motions log := by
  unfold motions
  split
  · rw [List.filter_append, List.filter_cons_of_pos (by simpa), List.filter_nil]
  · rw [List.filter_append, List.filter_cons_of_neg (by simpa), List.filter_nil, List.append_nil]

/-- The motions of a program follow one another and lead to its end. -/
private theorem program_pieces {q : ℝ} (hq : 0 < q) (hq4 : q ≤ 4) {p : Parser} {m : SimplifiedMotion} {log}
    (h : Run .reset (.fresh 3) log p m)
    (hl : ∀ e ∈ log, ¬ HasCode e.1.block.words 'G' 530 ∧ (Reported e.2.1.result → Block32 q e)) :
    (∀ e ∈ motions log, (pieceOf q e).Ok q ∧ ∀ s, 0 ≤ s → s ≤ val e.2.2.trajectory.length → OnPath e fun i => place e.2.2 i s) ∧ Chain (fun _ => 0) ((motions log).map (pieceOf q)) ∧
      (∀ i, after (fun _ => 0) ((motions log).map (pieceOf q)) i = reached (motions log) i) ∧ ∀ i, reached (motions log) i = at_ p i := by
  induction h with
  | start =>
    refine ⟨by simp [motions], trivial, fun i => by simp [motions, after, reached], fun i => ?_⟩
    show (0 : ℝ) = ((0 : ℚ) : ℝ); simp
  | line t _ hb ih =>
    have : at_ _ = at_ _ := congrArg (fun s : State => fun i => (s.currentPosition i : ℝ)) (getBlock_ok hb).2
    rw [this]
    exact ih hl
  | @parse log p m p' m' hrun hp ih =>
    obtain ⟨i1, i2, i3, i4⟩ := ih fun e he => hl e (List.mem_append_left _ he)
    obtain ⟨h53, hb⟩ := hl (p, p', m') (by simp)
    rw [motions_snoc]
    by_cases hrep : Reported p'.result
    · rw [if_pos hrep]
      refine ⟨fun a ha => ?_, ?_, fun i => ?_, fun i => by simp [reached]⟩
      · rw [List.mem_append] at ha
        rcases ha with ha | ha
        · exact i1 a ha
        · rw [List.mem_singleton] at ha
          rw [ha]
          exact piece_ok hq hq4 (run_rest hrun).1.1 hp hrep (hb hrep) (radius_finite hrun ⟨0, rfl⟩)
      · rw [List.map_append]
        refine (chain_append _).2 ⟨i2, fun i _ => ?_, trivial⟩
        show at_ p i = _
        rw [i3, i4]
      · rw [List.map_append, after_append, List.map_cons, List.map_nil, after_cons, after_nil]
        show after _ _ i + (at_ p' i - at_ p i) = _
        rw [i3, i4]
        simp [reached]
    · rw [if_neg hrep]
      rcases parse_position hp with ⟨c, -⟩ | ⟨-, ⟨-, h | h⟩ | ⟨-, h, -⟩⟩
      · have : at_ p' = at_ p := by unfold at_; rw [c]
        rw [this]
        exact ⟨i1, i2, i3, i4⟩
      · exact absurd h h53
      · exact absurd h hrep
      · exact absurd h hrep

/-! ## C99 -/

/-- **C99** A G-code program of straight motions and arcs, interpreted from reset, whose motions are given to the motion controller of the cnc3axis
machine (with `float` arithmetic) in any order of appending, starting and calculating: at any time the controller has executed a first part
of the motions and holds the rest; when stopped, every motor is within one step of the position at which the interpreter was after the
first part, otherwise of a point of the line or arc that the next block programs. If the machine runs, it stops after a bounded number of further
calculations within one step of the final position of the interpreter. -/
theorem gcode_single {fpu : Fpu} {q : ℝ} (hq : 0 < q) (hq4 : q ≤ 4) {p : Parser} {m : SimplifiedMotion} {blocks}
    (hrun : Run .reset (.fresh 3) blocks p m)
    (hl : ∀ e ∈ blocks, ¬ HasCode e.1.block.words 'G' 530 ∧ (Reported e.2.1.result → Block32 q e))
    {c c' : MotionCtrl (cnc3axis32.kit32 fpu)} (hc : Idle32 width32 c) (ho : c.overrides.feedOverride = fin q)
    (hm : ∀ i, i < 3 → c.machinePosition i = 0)
    {ks : List (Call (cnc3axis32.kit32 fpu).Req (cnc3axis32.kit32 fpu).Time (cnc3axis32.kit32 fpu).Ovr)} {log}
    (hks : Orderly c ks) (ha : appendedRequests ks = handed blocks) (h : c.run ks = some (c', log)) :
    ∃ done todo, motions blocks = done ++ todo ∧ c'.buffer.level = todo.length ∧
      (c'.state = .stopped → ∀ i, i < 3 → |200 * reached done i - c'.machinePosition i| ≤ 1) ∧
      (c'.state ≠ .stopped → ∃ e l, todo = e :: l ∧ ∃ X, OnPath e X ∧
        ∀ i, i < 3 → |200 * X i - c'.machinePosition i| ≤ 1) ∧
      (c'.state ≠ .stopped → ∀ (n : Nat) c'' log',
        (todo.map fun e => 61500 * (val e.2.2.trajectory.length / speedOf q e.2.2) + 150000).sum ≤ n →
        c'.run (List.replicate n .calculate) = some (c'', log') →
        c''.state = .stopped ∧ c''.buffer.level = 0 ∧ ∀ i, i < 3 → |200 * at_ p i - c''.machinePosition i| ≤ 1) := by
  obtain ⟨p1, p2, p3, p4⟩ := program_pieces hq hq4 hrun hl
  have ha' : appendedRequests ks = ((motions blocks).map (pieceOf q)).map Piece.r := by
    refine ha.trans ?_
    rw [List.map_map]
    rfl
  obtain ⟨done, todo, e, h1, h2, h3, h4⟩ := queue_single hc ho (x := fun _ => 0) (fun i hi => by rw [hm i hi]; norm_num)
    (fun a ha => by obtain ⟨e, he, rfl⟩ := List.mem_map.1 ha; exact (p1 e he).1) p2 hks ha' h
  obtain ⟨done', todo', e', rfl, rfl⟩ := List.map_eq_append_iff.1 e
  rw [e] at p2
  have hdone : ∀ i, i < 3 → after (fun _ => 0) (done'.map (pieceOf q)) i = reached done' i := by
    intro i hi
    have hch := ((chain_append _).1 p2).1
    rcases List.eq_nil_or_concat done' with rfl | ⟨l, b, rfl⟩
    · simp [after, reached]
    · rw [List.concat_eq_append, List.map_append] at hch ⊢
      have hx := ((chain_append _).1 hch).2.1 i hi
      rw [after_append, List.map_cons, List.map_nil, after_cons, after_nil]
      show after _ _ i + (at_ b.2.1 i - at_ b.1 i) = _
      rw [show at_ b.1 i = _ from hx]
      simp [reached]
  refine ⟨done', todo', e', by rw [h1, List.length_map], fun hs i hi => ?_, fun hs => ?_, fun hs n c'' log' hn hr => ?_⟩
  · rw [← hdone i hi]; exact h2 hs i hi
  · obtain ⟨a, l, hl', s, s0, s1, hp⟩ := h3 hs
    cases todo' with
    | nil => cases hl'
    | cons b l =>
      cases hl'
      exact ⟨b, l, rfl, _, (p1 b (by rw [e']; simp)).2 s s0 s1, hp⟩
  · obtain ⟨i1, i2⟩ := h4 hs n c'' log' (by rw [List.map_map]; exact hn) hr
    refine ⟨i1.state, i1.level, fun i hi => ?_⟩
    have := i2 i hi
    rwa [p3, p4] at this

/-! ## Example -/

private theorem start_running {K : MotionKit} {c : MotionCtrl K} (h : c.buffer.level ≠ 0) : c.start.state = .running := by
  unfold MotionCtrl.start
  rw [if_pos (by simp [MotionBuffer.isEmpty]; omega)]
  exact (sameButProf_optimize _).state

private theorem append_level {K : MotionKit} {c : MotionCtrl K} (h : c.buffer.level < 31) (r : K.Req) :
    (c.append r).buffer.level = c.buffer.level + 1 := by
  unfold MotionCtrl.append
  rw [if_pos (by simp [MotionBuffer.isFull, MotionBuffer.length]; omega)]
  show u32add c.buffer.level 1 = _
  unfold u32add; omega

private theorem begin_running {K : MotionKit} {c c' : MotionCtrl K} {r1 r2 : K.Req} {log} (h : c.buffer.level = 0)
    (h1 : c.run [.append r1, .append r2, .start] = some (c', log)) : c'.state = .running := by
  simp only [run, call, Option.map_some, Option.some.injEq, Prod.mk.injEq] at h1
  obtain ⟨rfl, -⟩ := h1
  have e1 := append_level (c := c) (by omega) r1
  apply start_running
  rw [append_level (by omega), e1]; omega

/-- C99: the lines "G0 X10" and "G1 Y5 F600" (C83): 351250 calculations (5.9 s) after the start, the motors are within a step of 2000,
1000 and 0 steps. -/
example (fpu : Fpu) (n : Nat) (hn : 351250 ≤ n) : ∃ blocks p m, Run .reset (.fresh 3) blocks p m ∧ at_ p 0 = 10 ∧ at_ p 1 = 5 ∧
    ∃ r1 r2, handed blocks = [r1, r2] ∧
    ∃ c' log, (fresh (cnc3axis32.kit32 fpu)).run (.configure 375 (Single.num width32) ::
      .append r1 :: .append r2 :: .start :: List.replicate n .calculate) = some (c', log) ∧
      c'.state = .stopped ∧ c'.buffer.level = 0 ∧ |(2000 : ℝ) - c'.machinePosition 0| ≤ 1 ∧ |(1000 : ℝ) - c'.machinePosition 1| ≤ 1 ∧
      |(0 : ℝ) - c'.machinePosition 2| ≤ 1 := by
  obtain ⟨blocks, p, m, hrun, a0, a1, a2, hl, r1, r2, hh, v1, v2, L1, L2, hpos⟩ := two_lines
  refine ⟨blocks, p, m, hrun, a0, a1, r1, r2, hh, ?_⟩
  obtain ⟨c', log, hr, -⟩ := motion_history_returns (K := cnc3axis32.kit32 fpu) (.configure 375 (Single.num width32) ::
      .append r1 :: .append r2 :: .start :: List.replicate n .calculate)
  refine ⟨c', log, hr, ?_⟩
  obtain ⟨c₁, k₁, k₂, hc, hr', -⟩ := run_split (K := cnc3axis32.kit32 fpu) [.configure 375 (Single.num width32)]
    (.append r1 :: .append r2 :: .start :: List.replicate n .calculate) hr
  simp only [run, call, Option.map_some, Option.some.injEq, Prod.mk.injEq] at hc
  obtain ⟨rfl, -⟩ := hc
  obtain ⟨i1, i2, i3⟩ := idle_configured_single fpu 375
  obtain ⟨c₂, k₃, k₄, h1, h2, -⟩ := run_split (K := cnc3axis32.kit32 fpu) [.append r1, .append r2, .start] (List.replicate n .calculate) hr'
  have hsp : speedOf 1 r1 = 30 ∧ speedOf 1 r2 = 10 := by
    have ht : ∀ r ∈ [r1, r2], ¬ (r.type = .feedHelicalCW ∨ r.type = .feedHelicalCCW) := by
      intro r hr
      rw [← hh] at hr
      obtain ⟨e, he, rfl⟩ := List.mem_map.1 hr
      obtain ⟨he, hrep⟩ := List.mem_filter.1 he
      rcases ((hl e he).2 (by simpa using hrep)).type with t | t <;> rw [t] <;> simp
    unfold speedOf; rw [v1, v2, if_neg (ht r1 (by simp)), if_neg (ht r2 (by simp))]; norm_num
  have hb : ∀ e ∈ blocks, ¬ HasCode e.1.block.words 'G' 530 ∧ (Reported e.2.1.result → Block32 1 e) := by
    intro e he
    refine ⟨(hl e he).1, fun hrep => ?_⟩
    have hs := (hl e he).2 hrep
    rcases hpos e he with ⟨er, x0, x1, x2, y0, y1, y2⟩ | ⟨er, x0, x1, x2, y0, y1, y2⟩
    · refine ⟨.inl ⟨hs.type, ⟨0, by norm_num, by rw [x0, y0]; norm_num⟩, fun i hi => ?_, fun i hi => ?_⟩, .inl (by rw [er, v1]), ?_⟩
      · interval_cases i
        · rw [x0, y0]; norm_num
        · rw [x1, y1]; norm_num
        · rw [x2, y2]; norm_num
      · interval_cases i
        · rw [x0, y0]; norm_num
        · rw [x1, y1]; norm_num
        · rw [x2, y2]; norm_num
      · rw [er, L1, hsp.1]; norm_num
    · refine ⟨.inl ⟨hs.type, ⟨1, by norm_num, by rw [x1, y1]; norm_num⟩, fun i hi => ?_, fun i hi => ?_⟩,
        .inr ⟨10, by rw [er, v2], by norm_num⟩, ?_⟩
      · interval_cases i
        · rw [x0, y0]; norm_num
        · rw [x1, y1]; norm_num
        · rw [x2, y2]; norm_num
      · interval_cases i
        · rw [x0, y0]; norm_num
        · rw [x1, y1]; norm_num
        · rw [x2, y2]; norm_num
      · rw [er, L2, hsp.2]; norm_num
  obtain ⟨done, todo, e, -, -, -, hend⟩ := gcode_single (q := 1) one_pos (by norm_num) hrun hb i1 i3 (fun i _ => i2 i)
    (orderly_begin i1.state i1.level r1 r2 0) (by rw [hh]; rfl) h1
  have hst : c₂.state ≠ .stopped := by rw [begin_running i1.level h1]; simp
  have hm : (motions blocks).map (fun e => 61500 * (val e.2.2.trajectory.length / speedOf 1 e.2.2) + 150000) = [170500, 180750] := by
    have : (motions blocks).map (fun e => e.2.2) = [r1, r2] := hh
    have e2 := congrArg (List.map fun r : SimplifiedMotion => 61500 * (val r.trajectory.length / speedOf 1 r) + 150000) this
    rw [List.map_map] at e2
    refine e2.trans ?_
    simp only [List.map_cons, List.map_nil, L1, L2, hsp.1, hsp.2]
    norm_num
  have hsum : (todo.map fun e => 61500 * (val e.2.2.trajectory.length / speedOf 1 e.2.2) + 150000).sum ≤ n := by
    have hn' : (351250 : ℝ) ≤ n := by exact_mod_cast hn
    rw [e, List.map_append] at hm
    have hs := congrArg List.sum hm
    rw [List.sum_append] at hs
    have h0 : ∀ z ∈ done.map (fun e => 61500 * (val e.2.2.trajectory.length / speedOf 1 e.2.2) + 150000), (0 : ℝ) ≤ z := by
      intro z hz
      have : z ∈ ([170500, 180750] : List ℝ) := by rw [← hm]; exact List.mem_append_left _ hz
      simp only [List.mem_cons, List.not_mem_nil, or_false] at this
      rcases this with rfl | rfl <;> norm_num
    have := List.sum_nonneg h0
    have hv : ([170500, 180750] : List ℝ).sum = 351250 := by norm_num
    rw [hv] at hs
    linarith
  obtain ⟨g1, g2, g3⟩ := hend hst n c' _ hsum h2
  have q0 := g3 0 (by decide)
  have q1 := g3 1 (by decide)
  have q2 := g3 2 (by decide)
  rw [a0] at q0; rw [a1] at q1; rw [a2] at q2
  norm_num at q0 q1 q2 ⊢
  exact ⟨g1, g2, q0, q1, q2⟩

private theorem orderly_once {K : MotionKit} {c : MotionCtrl K} (hs : c.state = .stopped) (hl : c.buffer.level = 0) (r : K.Req) (n : Nat) :
    Orderly c (.append r :: .start :: List.replicate n .calculate) := by
  refine ⟨by show c.buffer.level < 32; omega, fun c₁ _ e => ?_⟩
  simp only [call, Option.some.injEq, Prod.mk.injEq] at e
  obtain ⟨rfl, -⟩ := e
  exact ⟨by show (c.append r).state = _; rw [tail_append_state, hs], fun c₁ _ _ => orderly_calculates n c₁⟩

private theorem once_running {K : MotionKit} {c c' : MotionCtrl K} {r : K.Req} {log} (h : c.buffer.level = 0)
    (h1 : c.run [.append r, .start] = some (c', log)) : c'.state = .running := by
  simp only [run, call, Option.map_some, Option.some.injEq, Prod.mk.injEq] at h1
  obtain ⟨rfl, -⟩ := h1
  apply start_running
  rw [append_level (by omega)]; omega

private theorem appended_once {R T O : Type} (r : R) (n : Nat) :
    appendedRequests (R := R) (T := T) (O := O) (.append r :: .start :: List.replicate n .calculate) = [r] := by
  have : ∀ n, appendedRequests (R := R) (T := T) (O := O) (List.replicate n .calculate) = [] := by
    intro n
    induction n with
    | zero => rfl
    | succ n ih => rw [List.replicate_succ]; exact ih
  exact congrArg (fun l => r :: l) (this n)

/-- The line "G3 X10 Y10 R10 F600" from reset. -/
private theorem one_arc : ∃ blocks p m, Run .reset (.fresh 3) blocks p m ∧ at_ p 0 = 10 ∧ at_ p 1 = 10 ∧ at_ p 2 = 0 ∧
    (∀ e ∈ blocks, ¬ HasCode e.1.block.words 'G' 530 ∧ (Reported e.2.1.result → Block32 1 e)) ∧
    ∃ r : SimplifiedMotion, handed blocks = [r] ∧ (∀ e ∈ blocks, e.2.2 = r ∧ IsArc r ∧ r.trajectory.arcAxis0 = 0 ∧ r.trajectory.arcAxis1 = 1) ∧
      r.trajectory.radius = fin 10 ∧ speedOf 1 r = 10 ∧ val r.trajectory.length ≤ 10 * Real.pi := by
  obtain ⟨p1, p', m', hg, hw, hs, hr, e, he, ht, ha, hm⟩ := runs_arc .reset (t := "G3 X10 Y10 R10 F600")
    (ws := [⟨71, 3, 30⟩, ⟨88, 10, 0⟩, ⟨89, 10, 0⟩, ⟨82, 10, 0⟩, ⟨70, 600, 0⟩]) (by decide +kernel) (by decide +kernel) (by decide +kernel)
    (by decide +kernel) (k := 30) (mode := .G3) (by decide) (by decide +kernel) (by decide +kernel) (.fresh 3)
  have hrep := (arc_of hr.rest e he (by rw [hw]; decide +kernel) (k := 30) (mode := .G3) (by decide) (by rw [hw]; decide +kernel)
    (by rw [hw]; decide +kernel)).2.2.2
  have ax := fun {i} (hi : i < 3) => axis_at hr.rest e hm hs (by rw [hw]; decide +kernel) (i := i) hi
  have x0 := (ax (i := 0) (by decide)).1 10 (by rw [hw]; decide +kernel)
  have x1 := (ax (i := 1) (by decide)).1 10 (by rw [hw]; decide +kernel)
  have x2 := (ax (i := 2) (by decide)).2.1 (by rw [hw]; decide +kernel)
  have hu := (ax (i := 0) (by decide)).2.2
  have b := (modal_settings_partial hr.rest e he (by rw [hw]; decide +kernel))
  have hpl : p'.state.modal.plane = .G17 := by
    have b := b.2.1.plane
    rw [hw] at b
    rw [b.kept (by decide +kernel), hs]; rfl
  have hfr : p'.state.modal.feedRate = .G94 := by
    have b := b.1.feed
    rw [hw] at b
    rw [b.kept (by decide +kernel), hs]; rfl
  obtain ⟨a0, a1⟩ := (arc_plane_partial hr.rest e hm ha).1 hpl
  have s0 : (0 : ℝ) = p1.state.currentPosition m'.trajectory.arcAxis0 := by
    rw [hs]; show (0 : ℝ) = ((0 : ℚ) : ℝ); norm_num
  have s1 : (0 : ℝ) = p1.state.currentPosition m'.trajectory.arcAxis1 := by
    rw [hs]; show (0 : ℝ) = ((0 : ℚ) : ℝ); norm_num
  have e0 : (10 : ℝ) = p'.state.currentPosition m'.trajectory.arcAxis0 := by rw [a0, x0]; norm_num
  have e1 : (10 : ℝ) = p'.state.currentPosition m'.trajectory.arcAxis1 := by rw [a1, x1]; norm_num
  have hR : HasVal p1.block.words 'R' 10 := by rw [hw]; decide +kernel
  have hno : ∀ l ∈ ['I', 'J', 'K'], ¬ HasLetter p1.block.words l := by rw [hw]; decide +kernel
  have hr1 : (10 : ℝ) = mm p'.state.modal.unit 10 := by rw [hu]; show (10 : ℝ) = ((10 : ℚ) : ℝ); norm_num
  obtain ⟨c0, c1, k0, k1, k2, g1, g2, -⟩ := arc_center_radius hr e hm ha hR hno s0 s1 e0 e1 hr1 (by norm_num) (by norm_num)
  rw [abs_of_pos (by norm_num : (0 : ℝ) < 10)] at k2
  obtain ⟨φ, hφ, f1, -⟩ := arc_short_long hr e hm ha hR hno s0 s1 e0 e1 hr1 (by norm_num) (by norm_num)
  have f1 := f1 (by norm_num)
  obtain ⟨θ, φ', hθ, hφ', -, -, w1, -, w2, -⟩ := arc_angles hr.rest e hm ha k0 k1 s0 s1 e0 e1
  have : φ' = φ := fin_injective (hφ'.symm.trans hφ)
  subst this
  rw [g1, Real.sqrt_sq (by norm_num)] at w1
  rw [g2, Real.sqrt_sq (by norm_num)] at w2
  have hturn : 1 ≤ |φ'| := by
    have h1 := Real.abs_cos_sub_cos_le (θ + φ') θ
    rw [add_sub_cancel_left] at h1
    have h2 := le_abs_self (Real.cos (θ + φ') - Real.cos θ)
    linarith
  have hprop : ProperArc m' p1.state.currentPosition p'.state.currentPosition :=
    ⟨c0, c1, 10, k0, k1, k2, by norm_num, by rw [← s0, ← s1]; exact g1, by rw [← e0, ← e1]; exact g2⟩
  have hx := arc_executable hr.rest e hm ha hprop
  obtain ⟨q, mi, mo, ty, tr, cur, nx, -⟩ := moved_motion hr.rest e hm
  have hδ : ∀ i, i < 3 → m'.trajectory.delta i = fin (at_ p' i - at_ p1 i) := by
    intro i hi
    rw [mo.delta i hi, nx i hi, cur]
    unfold num at_; push_cast; rfl
  have hst : ∀ i, i < 3 → m'.trajectory.startPosition i = fin (at_ p1 i) := by
    intro i hi
    rw [mo.start i hi, cur]; rfl
  have A1 : ∀ i, at_ p1 i = 0 := by intro i; unfold at_; rw [hs]; show ((0 : ℚ) : ℝ) = 0; simp
  have A2 : at_ p' 2 = 0 := by unfold at_; rw [x2]; simp
  have hlen : val m'.trajectory.length = 10 * |φ'| := by
    rw [mo.length k2 hφ hδ, a0, a1]
    show √((10 * |φ'|) ^ 2 + (0 + (at_ p' 2 - at_ p1 2) ^ 2)) = _
    rw [A1, A2]
    norm_num
  have hv : m'.vFeed = fin 10 := by
    have hf : FeedBy p1.block.words (p1.state.letterValue .F) 600 := by
      have hv : HasVal p1.block.words 'F' 600 := by rw [hw]; decide +kernel
      refine ⟨fun x hx _ => ?_, fun hn => absurd (hn 600 hv) (by norm_num), fun hn => absurd (hn 600 hv) (by norm_num)⟩
      rw [hw] at hv hx
      exact val_unique (l := .F) (by decide +kernel) (by simp) hv hx
    rw [(feed_speed hr.rest e hm (.inr ha) hf).1 hfr, hu]
    show fin (((600 : ℚ) : ℝ) / 60) = _
    norm_num
  have hsp : speedOf 1 m' = 10 := by
    unfold speedOf
    rw [hv, k2, if_pos (show m'.type = .feedHelicalCW ∨ m'.type = .feedHelicalCCW from ha)]
    show min (min ((10 : ℝ) * 1) 30) √(200 * 10) = 10
    rw [show min ((10 : ℝ) * 1) 30 = 10 by norm_num, min_eq_left]
    exact Real.le_sqrt_of_sq_le (by norm_num)
  have hpi : Real.pi ≤ 3.15 := Real.pi_lt_d2.le
  have hcen : ∀ {c x : ℝ}, c ^ 2 ≤ 10 ^ 2 → |x| ≤ 1 → |c + 10 * x| ≤ 300 := by
    intro c x h1 h2
    have h1 := abs_le_of_sq_le_sq' h1 (by norm_num)
    rw [abs_le] at *
    constructor <;> linarith
  have hc0 : c0 ^ 2 ≤ 10 ^ 2 := by have := sq_nonneg c1; ring_nf at g1 this ⊢; linarith
  have hc1 : c1 ^ 2 ≤ 10 ^ 2 := by have := sq_nonneg c0; ring_nf at g1 this ⊢; linarith
  have hrun : Run .reset (.fresh 3) [(p1, p', m')] p' m' := .parse (.line _ .start hg) e
  refine ⟨_, p', m', hrun, by unfold at_; rw [x0]; norm_num, by unfold at_; rw [x1]; norm_num, A2, ?_, m', ?_, ?_, k2, hsp, ?_⟩
  · intro b hb
    rw [List.mem_singleton] at hb
    subst hb
    refine ⟨by show ¬ HasCode p1.block.words _ _; rw [hw]; decide +kernel, fun _ => ⟨.inr ⟨ha, hprop, ?_, ?_, ?_, ?_, ?_, ?_⟩,
      .inr ⟨10, hv, by norm_num⟩, ?_⟩⟩
    · show 1 / 64 ≤ val m'.trajectory.radius ∧ val m'.trajectory.radius ≤ 100
      rw [k2]; show 1 / 64 ≤ (10 : ℝ) ∧ (10 : ℝ) ≤ 100; norm_num
    · show 1 / 128 ≤ val m'.trajectory.length ∧ val m'.trajectory.length ≤ 420
      rw [hlen]; constructor <;> linarith
    · show _ ≤ |val m'.trajectory.deltaAngle|
      rw [hφ]; show _ ≤ |φ'|
      refine le_trans ?_ hturn; norm_num
    · intro i hi s _ _
      show |place m' i s| ≤ 300
      unfold place
      simp only [a0, a1, k0, k1, k2]
      interval_cases i
      · exact hcen hc0 (Real.abs_cos_le_one _)
      · exact hcen hc1 (Real.abs_sin_le_one _)
      · rw [hst 2 (by norm_num), hδ 2 (by norm_num), A1, A2]
        show |(0 : ℝ) + (0 - 0) / _ * s| ≤ 300
        norm_num
    · intro i hi n0 n1
      have n0 : i ≠ m'.trajectory.arcAxis0 := n0
      have n1 : i ≠ m'.trajectory.arcAxis1 := n1
      have : i = 2 := by omega
      subst this
      show |at_ p' 2 - at_ p1 2| ≤ 300
      rw [A1, A2]; norm_num
    · intro i hi n0 n1
      have n0 : i ≠ m'.trajectory.arcAxis0 := n0
      have n1 : i ≠ m'.trajectory.arcAxis1 := n1
      have : i = 2 := by omega
      subst this
      left; show at_ p' 2 = at_ p1 2
      rw [A1, A2]
    · show val m'.trajectory.length ≤ 85 * speedOf 1 m'
      rw [hsp, hlen]; linarith
  · unfold handed
    rw [List.filter_cons_of_pos (by simpa using hrep)]
    rfl
  · intro b hb
    rw [List.mem_singleton] at hb
    subst hb
    exact ⟨rfl, ha, a0, a1⟩
  · rw [hlen]; linarith

/-- C99: the line "G3 X10 Y10 R10 F600" from the origin: while the machine moves, the first two motors are within a step of a point at
10 mm from the centre of the arc; 344000 calculations (5.7 s) after the start, the motors are within a step of 2000, 2000 and 0 steps. -/
example (fpu : Fpu) (n : Nat) : ∃ blocks p m r, Run .reset (.fresh 3) blocks p m ∧ handed blocks = [r] ∧
    ∃ c' log, (fresh (cnc3axis32.kit32 fpu)).run (.configure 375 (Single.num width32) ::
      .append r :: .start :: List.replicate n .calculate) = some (c', log) ∧
      (c'.state ≠ .stopped → ∃ X Y c0 c1 : ℝ, r.trajectory.arcCenter0 = fin c0 ∧ r.trajectory.arcCenter1 = fin c1 ∧
        (X - c0) ^ 2 + (Y - c1) ^ 2 = 10 ^ 2 ∧ |200 * X - c'.machinePosition 0| ≤ 1 ∧ |200 * Y - c'.machinePosition 1| ≤ 1) ∧
      (344000 ≤ n → c'.state = .stopped ∧ c'.buffer.level = 0 ∧ |(2000 : ℝ) - c'.machinePosition 0| ≤ 1 ∧
        |(2000 : ℝ) - c'.machinePosition 1| ≤ 1 ∧ |(0 : ℝ) - c'.machinePosition 2| ≤ 1) := by
  obtain ⟨blocks, p, m, hrun, a0, a1, a2, hb, r, hh, hall, hrad, hsp, hlen⟩ := one_arc
  refine ⟨blocks, p, m, r, hrun, hh, ?_⟩
  obtain ⟨c', log, hr, -⟩ := motion_history_returns (K := cnc3axis32.kit32 fpu) (.configure 375 (Single.num width32) ::
      .append r :: .start :: List.replicate n .calculate)
  refine ⟨c', log, hr, ?_⟩
  obtain ⟨c₁, k₁, k₂, hc, hr', -⟩ := run_split (K := cnc3axis32.kit32 fpu) [.configure 375 (Single.num width32)]
    (.append r :: .start :: List.replicate n .calculate) hr
  simp only [run, call, Option.map_some, Option.some.injEq, Prod.mk.injEq] at hc
  obtain ⟨rfl, -⟩ := hc
  obtain ⟨i1, i2, i3⟩ := idle_configured_single fpu 375
  constructor
  · intro hst
    obtain ⟨done, todo, e, -, -, hmove, -⟩ := gcode_single (q := 1) one_pos (by norm_num) hrun hb i1 i3 (fun i _ => i2 i)
      (orderly_once i1.state i1.level r n) (by rw [hh]; exact appended_once r n) hr'
    obtain ⟨b, l, rfl, X, hX, hn⟩ := hmove hst
    have hbm : b ∈ blocks := by
      have : b ∈ motions blocks := by rw [e]; simp
      exact (List.mem_filter.1 this).1
    obtain ⟨rfl, ha, x0, x1⟩ := hall b hbm
    rcases hX with ⟨hna, -⟩ | ⟨-, c0, c1, ρ, θ, φ, u, -, -, h0, h1, h2, -, -, -, -, -, -, h3, h4, -⟩
    · exact absurd ha hna
    · have : ρ = 10 := Num.fin.inj (h2.symm.trans hrad)
      subst this
      rw [x0] at h3; rw [x1] at h4
      refine ⟨X 0, X 1, c0, c1, h0, h1, ?_, hn 0 (by norm_num), hn 1 (by norm_num)⟩
      rw [h3, h4]
      nlinarith [Real.sin_sq_add_cos_sq (θ + u * φ)]
  · intro hn
    obtain ⟨c₂, k₃, k₄, h1, h2, -⟩ := run_split (K := cnc3axis32.kit32 fpu) [.append r, .start] (List.replicate n .calculate) hr'
    obtain ⟨done, todo, e, -, -, -, hend⟩ := gcode_single (q := 1) one_pos (by norm_num) hrun hb i1 i3 (fun i _ => i2 i)
      (orderly_once i1.state i1.level r 0) (by rw [hh]; rfl) h1
    have hst : c₂.state ≠ .stopped := by rw [once_running i1.level h1]; simp
    have hm : (motions blocks).map (fun e => 61500 * (val e.2.2.trajectory.length / speedOf 1 e.2.2) + 150000) =
        [61500 * (val r.trajectory.length / 10) + 150000] := by
      have : (motions blocks).map (fun e => e.2.2) = [r] := hh
      have e2 := congrArg (List.map fun r : SimplifiedMotion => 61500 * (val r.trajectory.length / speedOf 1 r) + 150000) this
      rw [List.map_map] at e2
      refine e2.trans ?_
      simp only [List.map_cons, List.map_nil, hsp]
    have hpi := Real.pi_lt_d2
    have hn' : (344000 : ℝ) ≤ n := by exact_mod_cast hn
    have hsum : (todo.map fun e => 61500 * (val e.2.2.trajectory.length / speedOf 1 e.2.2) + 150000).sum ≤ n := by
      rw [e, List.map_append] at hm
      cases done with
      | nil =>
        rw [List.map_nil, List.nil_append] at hm
        rw [hm, List.sum_singleton]; linarith
      | cons b l =>
        rw [List.map_cons, List.cons_append, List.cons.injEq] at hm
        rw [(List.append_eq_nil_iff.1 hm.2).2]
        simp
    obtain ⟨g1, g2, g3⟩ := hend hst n c' _ hsum h2
    have q0 := g3 0 (by decide)
    have q1 := g3 1 (by decide)
    have q2 := g3 2 (by decide)
    rw [a0] at q0; rw [a1] at q1; rw [a2] at q2
    norm_num at q0 q1 q2 ⊢
    exact ⟨g1, g2, q0, q1, q2⟩

end Moovr.Props
