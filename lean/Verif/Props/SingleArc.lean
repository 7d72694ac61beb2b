import Mathlib.Analysis.Real.Pi.Bounds
import Verif.Lemmas.ArcCourse32
import Verif.Props.SingleRun
/-!
# Property C100: arcs in single precision

Positions and limits of the motions along arcs (with a straight motion in the third axis), computed with `float` arithmetic and any
`cosf` and `sinf` that are accurate to `2⁻²³`.
-/
namespace Moovr.Props
open Num Float32 Single MotionSpec

/-- A request for a motion along the arc `A` from `x` by `d` (in mm); the path has the length `L`. Neither the sweep nor the
displacement of the third axis is so small that it disappears. -/
structure ArcRequest (r : SimplifiedMotion) (A : Curve) (x d : Nat → ℝ) (L : ℝ) : Prop extends Arc32 A x d L where
  type : r.type = .feedHelicalCW ∨ r.type = .feedHelicalCCW
  axis0 : r.trajectory.arcAxis0 = A.i0
  axis1 : r.trajectory.arcAxis1 = A.i1
  centre0 : r.trajectory.arcCenter0 = fin A.c0
  centre1 : r.trajectory.arcCenter1 = fin A.c1
  angle_ : r.trajectory.startAngle = fin A.θ
  sweep_ : r.trajectory.deltaAngle = fin A.φ
  radius_ : r.trajectory.radius = fin A.ρ
  from_ : ∀ i, i < 3 → i ≠ A.i0 → i ≠ A.i1 → r.trajectory.startPosition i = fin (x i)
  by_ : ∀ i, i < 3 → i ≠ A.i0 → i ≠ A.i1 → r.trajectory.delta i = fin (d i)
  length : r.trajectory.length = fin L
  turns : 1 / 2 ^ 100 ≤ |A.φ|
  seen : ∀ i, i < 3 → i ≠ A.i0 → i ≠ A.i1 → d i = 0 ∨ 1 / 2 ^ 100 ≤ |d i|
  begins : x A.i0 = A.c0 + A.ρ * Real.cos A.θ ∧ x A.i1 = A.c1 + A.ρ * Real.sin A.θ
  ends : x A.i0 + d A.i0 = A.c0 + A.ρ * Real.cos (A.θ + A.φ) ∧ x A.i1 + d A.i1 = A.c1 + A.ρ * Real.sin (A.θ + A.φ)

/-! ## Proof -/

section
variable {r : SimplifiedMotion} {A : Curve} {x d : Nat → ℝ} {L : ℝ} {i : Nat}

theorem ArcRequest.place_eq (h : ArcRequest r A x d L) (hi : i < 3) (s : ℝ) : ExecSpec.place r i s = Arc32.point A x d L i s := by
  unfold ExecSpec.place Arc32.point
  simp only [h.axis0, h.axis1, h.centre0, h.centre1, h.angle_, h.sweep_, h.radius_, h.length]
  split_ifs with e0 e1
  · rfl
  · rfl
  · rw [h.from_ i hi e0 e1, h.by_ i hi e0 e1]; rfl

theorem ArcRequest.place_zero (h : ArcRequest r A x d L) (hi : i < 3) : ExecSpec.place r i 0 = x i := by
  rw [h.place_eq hi]
  unfold Arc32.point
  split_ifs with e0 e1
  · rw [e0, h.begins.1]; simp
  · rw [e1, h.begins.2]; simp
  · simp

theorem ArcRequest.place_end (h : ArcRequest r A x d L) (hi : i < 3) : ExecSpec.place r i L = x i + d i := by
  have hL := h.toArc32.L_pos
  rw [h.place_eq hi]
  unfold Arc32.point
  rw [div_mul_cancel₀ _ hL.ne']
  split_ifs with e0 e1
  · rw [e0, h.ends.1]
  · rw [e1, h.ends.2]
  · rw [div_mul_cancel₀ _ hL.ne']

theorem ArcRequest.position_eq (h : ArcRequest r A x d L) (hi : i < 3) (fpu : Fpu) (s : ℝ) :
    (Trajectory32.ofReq r.trajectory).position fpu i (num s) = num (Arc32.spot fpu A x d L i s) := by
  have hL := h.toArc32.L_pos
  have e0 : (Trajectory32.ofReq r.trajectory).arcAxis0 = A.i0 := h.axis0
  have e1 : (Trajectory32.ofReq r.trajectory).arcAxis1 = A.i1 := h.axis1
  have c0 : (Trajectory32.ofReq r.trajectory).arcCenter0 = num (rnd A.c0) := by
    show ofNum r.trajectory.arcCenter0 = _; rw [h.centre0]; rfl
  have c1 : (Trajectory32.ofReq r.trajectory).arcCenter1 = num (rnd A.c1) := by
    show ofNum r.trajectory.arcCenter1 = _; rw [h.centre1]; rfl
  have cθ : (Trajectory32.ofReq r.trajectory).startAngle = num (rnd A.θ) := by
    show ofNum r.trajectory.startAngle = _; rw [h.angle_]; rfl
  have cρ : (Trajectory32.ofReq r.trajectory).radius = num (rnd A.ρ) := by
    show ofNum r.trajectory.radius = _; rw [h.radius_]; rfl
  have hd : (Trajectory32.ofReq r.trajectory).deltaRealTime i =
      if i = A.i0 ∨ i = A.i1 then num (rnd (A.φ / L)) else num (rnd (d i / L)) := by
    show (if i = r.trajectory.arcAxis0 ∨ i = r.trajectory.arcAxis1 then ofNum (r.trajectory.deltaAngle / r.trajectory.length) else
      ofNum (r.trajectory.delta i / r.trajectory.length)) = _
    rw [h.axis0, h.axis1, h.length, h.sweep_, fin_div hL.ne']
    split_ifs with hc
    · rfl
    · push Not at hc
      rw [h.by_ i hi hc.1 hc.2, fin_div hL.ne']; rfl
  unfold Trajectory32.position Arc32.spot
  rw [e0, e1, c0, c1, cθ, cρ, hd]
  split_ifs with g0 g1 g2 g3 g4
  · rw [mulAdd_num]
    show mulAdd fpu _ (num (fpu.cos _)) _ = _
    rw [mulAdd_num]
  · exact absurd (.inl g0) g1
  · rw [mulAdd_num]
    show mulAdd fpu _ (num (fpu.sin _)) _ = _
    rw [mulAdd_num]
  · exact absurd (.inr g2) g3
  · exact absurd g4 (by tauto)
  · have : (Trajectory32.ofReq r.trajectory).startPosition i = num (rnd (x i)) := by
      show ofNum (r.trajectory.startPosition i) = _
      rw [h.from_ i hi g0 g2]; rfl
    rw [this, mulAdd_num]

theorem rnd_ne_zero {e L : ℝ} (hL : 0 < L) (hL2 : L ≤ 420) (he : 1 / 2 ^ 100 ≤ |e|) : rnd (e / L) ≠ 0 := by
  have key : ∀ e : ℝ, 1 / 2 ^ 100 ≤ e → 0 < rnd (e / L) := by
    intro e he
    have h2 : rnd ((2 : ℝ) ^ (-120 : ℤ)) = 2 ^ (-120 : ℤ) := rnd_pow (by norm_num)
    have h3 : (2 : ℝ) ^ (-120 : ℤ) ≤ rnd (e / L) := by
      rw [← h2]
      refine rnd_mono ?_
      rw [le_div_iff₀ hL]
      have : (2 : ℝ) ^ (-120 : ℤ) * L ≤ 2 ^ (-120 : ℤ) * 420 := mul_le_mul_of_nonneg_left hL2 (by positivity)
      refine this.trans (le_trans ?_ he)
      rw [zpow_neg]; norm_num
    exact lt_of_lt_of_le (by positivity) h3
  rcases le_total 0 e with h | h
  · rw [abs_of_nonneg h] at he
    exact (key e he).ne'
  · rw [abs_of_nonpos h] at he
    have := key _ he
    rw [neg_div, rnd_neg] at this
    intro h0
    rw [h0] at this
    norm_num at this

/-- An axis that is not moved has nowhere to go. -/
theorem ArcRequest.still (h : ArcRequest r A x d L) (hi : i < 3) (hm : (Trajectory32.ofReq r.trajectory).isMoving i = false) :
    d i = 0 ∧ ∀ s, ExecSpec.place r i s = x i := by
  have hL := h.toArc32.L_pos
  have hd : (Trajectory32.ofReq r.trajectory).deltaRealTime i =
      if i = A.i0 ∨ i = A.i1 then num (rnd (A.φ / L)) else num (rnd (d i / L)) := by
    show (if i = r.trajectory.arcAxis0 ∨ i = r.trajectory.arcAxis1 then ofNum (r.trajectory.deltaAngle / r.trajectory.length) else
      ofNum (r.trajectory.delta i / r.trajectory.length)) = _
    rw [h.axis0, h.axis1, h.length, h.sweep_, fin_div hL.ne']
    split_ifs with hc
    · rfl
    · push Not at hc
      rw [h.by_ i hi hc.1 hc.2, fin_div hL.ne']; rfl
  unfold Trajectory32.isMoving at hm
  rw [hd] at hm
  split_ifs at hm with hc
  · rw [eq_num] at hm
    exact absurd (by simpa using hm) (rnd_ne_zero hL h.short h.turns)
  · push Not at hc
    have h0 : d i = 0 := by
      rcases h.seen i hi hc.1 hc.2 with h1 | h1
      · exact h1
      · rw [eq_num] at hm
        exact absurd (by simpa using hm) (rnd_ne_zero hL h.short h1)
    refine ⟨h0, fun s => ?_⟩
    rw [h.place_eq hi]
    unfold Arc32.point
    rw [if_neg hc.1, if_neg hc.2, h0]; simp

/-- The speed allowed by the radius, as computed. -/
noncomputable def turning (ρ : ℝ) : ℝ := rnd √(rnd (200 * rnd ρ))

theorem turning_near {ρ : ℝ} (h0 : 1 / 64 ≤ ρ) : 9999 / 10000 * √(200 * ρ) ≤ turning ρ ∧ turning ρ ^ 2 ≤ 200 * ρ * (1 + 1 / 2 ^ 21) := by
  have hn := tiny_pos
  have ht := Straight32.tiny_small
  norm_num at ht
  have n1 : Near (101 / 100) (rnd ρ) ρ := by
    have := (Near.refl ρ).round le_rfl (by norm_num) (by norm_num at *; linarith)
    simpa using this
  have n2 : Near (101 / 100) (200 * rnd ρ) (200 * ρ) := by
    have := n1.mul_right (c := 200) (by norm_num)
    rwa [mul_comm (rnd ρ), mul_comm ρ] at this
  have n3 := n2.round (by norm_num) (by norm_num) (by norm_num at *; linarith)
  have n4 := n3.root (by norm_num) (by norm_num) (by norm_num at *; linarith)
  have hp : 0 < 200 * ρ := by linarith
  have hw : 0 ≤ turning ρ := rnd_nonneg (Real.sqrt_nonneg _)
  have a := n4.ge
  have b := n4.le
  change _ ≤ turning ρ ^ 2 at a
  change turning ρ ^ 2 ≤ _ at b
  constructor
  · refine abs_le_of_sq_le_sq' ?_ hw |>.2
    rw [mul_pow, Real.sq_sqrt hp.le]
    refine le_trans ?_ a
    unfold eps
    norm_num
    linarith
  · refine b.trans ?_
    unfold eps
    norm_num at *
    linarith

theorem ArcRequest.limit_eq (h : ArcRequest r A x d L) (p : Profile32) :
    Profile32.Tight 30 (turning A.ρ) 200 (p.limit cnc3axis32 (.ofReq r.trajectory)) ∧
      (p.limit cnc3axis32 (.ofReq r.trajectory)).jMax = num 600 := by
  have hL := h.toArc32.L_pos
  have f30 : rnd (30 : ℝ) = 30 := by have := rnd_int (m := 30) (by norm_num); simpa using this
  have f200 : rnd (200 : ℝ) = 200 := by have := rnd_int (m := 200) (by norm_num); simpa using this
  have cρ : (Trajectory32.ofReq r.trajectory).radius = num (rnd A.ρ) := by
    show ofNum r.trajectory.radius = _; rw [h.radius_]; rfl
  refine Profile32.limit_arc (M := cnc3axis32) (u := fun i => rnd (d i / L)) (by norm_num) (by norm_num) f30 f200 ?_ ?_ ?_ cρ
    (rnd_nonneg h.toArc32.ρ_pos.le) (fun _ _ => rfl) (fun _ _ => rfl) (fun _ _ => rfl)
  · show r.trajectory.arcAxis0 < 3
    rw [h.axis0]; exact h.axes.1
  · intro i _ hc
    show (if i = r.trajectory.arcAxis0 ∨ i = r.trajectory.arcAxis1 then num 1 else _) = _
    exact if_pos hc
  · intro i hi g0 g1
    have g0' : i ≠ A.i0 := by rw [← h.axis0]; exact g0
    have g1' : i ≠ A.i1 := by rw [← h.axis1]; exact g1
    constructor
    · show (if i = r.trajectory.arcAxis0 ∨ i = r.trajectory.arcAxis1 then num 1 else ofNum (r.trajectory.delta i / r.trajectory.length)) = _
      rw [if_neg (by rw [h.axis0, h.axis1]; tauto), h.by_ i hi g0' g1', h.length, fin_div hL.ne']; rfl
    · have h1 : |d i / L| ≤ 1 := by
        rw [abs_div, abs_of_pos hL, div_le_one hL]; exact (h.span i hi g0' g1').2
      have f1 : rnd (1 : ℝ) = 1 := by have := rnd_int (m := 1) (by norm_num); simpa using this
      have := abs_le.1 h1
      rw [abs_le]
      have a := rnd_mono this.1
      have b := rnd_mono this.2
      rw [rnd_neg, f1] at a
      rw [f1] at b
      exact ⟨a, b⟩

end

/-! ## C100 -/

/-- **C100** The position computed along an arc, for any distance between the start and the end (and up to 1/1000 mm before or beyond): a finite
number within 4300/2^24 mm (0.05 steps) of the exact position on the arc. -/
theorem arc_position_single {r : SimplifiedMotion} {A : Curve} {x d : Nat → ℝ} {L : ℝ} (h : ArcRequest r A x d L) (fpu : Fpu) {i : Nat}
    (hi : i < 3) {s : ℝ} (hs : |s| ≤ L + 1 / 1000) :
    ∃ y, (Trajectory32.ofReq r.trajectory).position fpu i (num s) = num y ∧ |y - ExecSpec.place r i s| ≤ 4300 / 2 ^ 24 :=
  ⟨_, h.position_eq hi fpu s, by rw [h.place_eq hi]; exact h.toArc32.spot_near hi hs⟩

/-- **C100** The computed point stays on the circle, but for 1/2500 mm: its distance from the centre differs from the radius by no more. -/
theorem arc_radius_single {r : SimplifiedMotion} {A : Curve} {x d : Nat → ℝ} {L : ℝ} (h : ArcRequest r A x d L) (fpu : Fpu) {s : ℝ}
    (hs : |s| ≤ L + 1 / 1000) {y0 y1 : ℝ} (h0 : (Trajectory32.ofReq r.trajectory).position fpu A.i0 (num s) = num y0)
    (h1 : (Trajectory32.ofReq r.trajectory).position fpu A.i1 (num s) = num y1) :
    |√((y0 - A.c0) ^ 2 + (y1 - A.c1) ^ 2) - A.ρ| ≤ 1 / 2500 := by
  obtain ⟨z0, e0, n0⟩ := arc_position_single h fpu h.axes.1 hs
  obtain ⟨z1, e1, n1⟩ := arc_position_single h fpu h.axes.2.1 hs
  rw [h0] at e0
  rw [h1] at e1
  have e0 : y0 = z0 := Num.fin.inj (congrArg Single.val e0)
  have e1 : y1 = z1 := Num.fin.inj (congrArg Single.val e1)
  subst e0 e1
  rw [h.place_eq h.axes.1] at n0
  rw [h.place_eq h.axes.2.1] at n1
  unfold Arc32.point at n0 n1
  rw [if_pos rfl] at n0
  rw [if_neg (Ne.symm h.axes.2.2), if_pos rfl] at n1
  have hcs := Real.cos_sq_add_sin_sq (A.θ + A.φ / L * s)
  have hρ := h.toArc32.ρ_pos
  have hc := Real.abs_cos_le_one (A.θ + A.φ / L * s)
  have hsn := Real.abs_sin_le_one (A.θ + A.φ / L * s)
  generalize Real.cos (A.θ + A.φ / L * s) = C at *
  generalize Real.sin (A.θ + A.φ / L * s) = K at *
  have n0 : |y0 - A.c0 - A.ρ * C| ≤ 26 / 100000 := by
    rw [show y0 - A.c0 - A.ρ * C = y0 - (A.c0 + A.ρ * C) by ring]; refine n0.trans (by norm_num)
  have n1 : |y1 - A.c1 - A.ρ * K| ≤ 26 / 100000 := by
    rw [show y1 - A.c1 - A.ρ * K = y1 - (A.c1 + A.ρ * K) by ring]; refine n1.trans (by norm_num)
  generalize y0 - A.c0 = u at *
  generalize y1 - A.c1 = w at *
  have n0 := abs_le.1 n0
  have n1 := abs_le.1 n1
  have q : (u - A.ρ * C) ^ 2 + (w - A.ρ * K) ^ 2 ≤ (1 / 2500) ^ 2 := by nlinarith
  -- the triangle inequality, in the plane
  have cs : (u * C + w * K) ^ 2 ≤ u ^ 2 + w ^ 2 := by nlinarith [sq_nonneg (u * K - w * C)]
  have hs0 := Real.sqrt_nonneg (u ^ 2 + w ^ 2)
  have hss := Real.sq_sqrt (show 0 ≤ u ^ 2 + w ^ 2 by positivity)
  generalize √(u ^ 2 + w ^ 2) = R at *
  have hle : u * C + w * K ≤ R := abs_le_of_sq_le_sq (by rw [hss]; exact cs) hs0 |> (le_abs_self _).trans
  refine abs_le_of_sq_le_sq ?_ (by norm_num)
  refine le_trans ?_ q
  have := mul_le_mul_of_nonneg_left hle hρ.le
  rw [show (u - A.ρ * C) ^ 2 + (w - A.ρ * K) ^ 2 = u ^ 2 + w ^ 2 - 2 * (A.ρ * (u * C + w * K)) + A.ρ ^ 2 * (C ^ 2 + K ^ 2) by ring, hcs, ← hss]
  rw [show (R - A.ρ) ^ 2 = R ^ 2 - 2 * (A.ρ * R) + A.ρ ^ 2 by ring]
  linarith

/-- **C100** The speed limit computed for an arc: that of the axes (30 mm/s), lowered so that the acceleration towards the centre `v²/ρ` stays
within the limit of the axes (200 mm/s²), but for a relative error of 2^-21; not lowered by more than 1/10000 below that. The limits of
acceleration and deceleration are those of the axes. -/
theorem arc_limit_single {r : SimplifiedMotion} {A : Curve} {x d : Nat → ℝ} {L : ℝ} (h : ArcRequest r A x d L) (p : Profile32) :
    ∃ v, (p.limit cnc3axis32 (.ofReq r.trajectory)).vMax = num v ∧ v ≤ 30 ∧ v ^ 2 / A.ρ ≤ 200 * (1 + 1 / 2 ^ 21) ∧
      9999 / 10000 * min (√(200 * A.ρ)) 30 ≤ v ∧
      (p.limit cnc3axis32 (.ofReq r.trajectory)).aMax = num 200 ∧ (p.limit cnc3axis32 (.ofReq r.trajectory)).dMax = num (-200) := by
  obtain ⟨t, -⟩ := h.limit_eq p
  obtain ⟨n1, n2⟩ := turning_near h.radius.1
  have hρ := h.toArc32.ρ_pos
  have hw : 0 ≤ turning A.ρ := rnd_nonneg (Real.sqrt_nonneg _)
  refine ⟨_, t.vMax, min_le_right _ _, ?_, ?_, t.aMax, t.dMax⟩
  · rw [div_le_iff₀ hρ]
    have : min (turning A.ρ) 30 ^ 2 ≤ turning A.ρ ^ 2 := pow_le_pow_left₀ (le_min hw (by norm_num)) (min_le_left _ _) 2
    linarith
  · refine le_min ?_ ?_
    · have := min_le_left √(200 * A.ρ) 30
      linarith
    · have := min_le_right √(200 * A.ρ) 30
      linarith

/-! ## Example -/

/-- The half circle from the origin to (20, 0, 0) mm around (10, 0), clockwise. -/
noncomputable def bow : Curve := ⟨0, 1, 10, 0, Real.pi, -Real.pi, 10⟩

/-- A request for it, at 10 mm/s. -/
noncomputable def bowRequest : SimplifiedMotion :=
  { SimplifiedMotion.fresh 3 with
    type := .feedHelicalCW
    trajectory := { (SimplifiedMotion.fresh 3).trajectory with
      delta := fun i => if i = 0 then fin 20 else fin 0
      arcAxis0 := 0
      arcAxis1 := 1
      arcCenter0 := fin 10
      arcCenter1 := fin 0
      startAngle := fin Real.pi
      deltaAngle := fin (-Real.pi)
      radius := fin 10
      length := fin (10 * Real.pi) }
    vFeed := fin 10 }

theorem bow_arc : ArcRequest bowRequest bow (fun _ => 0) (fun i => if i = 0 then 20 else 0) (10 * Real.pi) where
  axes := by decide
  long := by have := Real.pi_gt_three; linarith
  short := by have := Real.pi_lt_four; linarith
  radius := by norm_num [bow]
  angle := by show |Real.pi| ≤ 4; rw [abs_of_pos Real.pi_pos]; exact Real.pi_lt_four.le
  sweep := by show |-Real.pi| ≤ 7; rw [abs_neg, abs_of_pos Real.pi_pos]; have := Real.pi_lt_four; linarith
  chord := by show 10 * |-Real.pi| ≤ _; rw [abs_neg, abs_of_pos Real.pi_pos]
  centre := by norm_num [bow]
  start i _ _ _ := by norm_num
  stop i _ _ _ := by split_ifs <;> norm_num
  span i _ h0 _ := by
    have h0 : i ≠ 0 := h0
    rw [if_neg h0]
    have := Real.pi_pos
    simp; linarith
  inside u _ _ := by
    have h1 := abs_le.1 (Real.abs_cos_le_one (bow.θ + bow.φ * u))
    have h2 := abs_le.1 (Real.abs_sin_le_one (bow.θ + bow.φ * u))
    show |10 + 10 * _| ≤ _ ∧ |0 + 10 * _| ≤ _
    rw [abs_le, abs_le]
    refine ⟨⟨?_, ?_⟩, ?_, ?_⟩ <;> linarith
  type := .inl rfl
  axis0 := rfl
  axis1 := rfl
  centre0 := rfl
  centre1 := rfl
  angle_ := rfl
  sweep_ := rfl
  radius_ := rfl
  from_ i _ _ _ := rfl
  by_ i _ h _ := by
    have h : i ≠ 0 := h
    show (if _ then _ else _) = _
    rw [if_neg h, if_neg h]
  length := rfl
  turns := by
    show 1 / 2 ^ 100 ≤ |-Real.pi|
    rw [abs_neg, abs_of_pos Real.pi_pos]
    have := Real.pi_gt_three
    norm_num at *
    linarith
  seen i _ h _ := by
    have h : i ≠ 0 := h
    exact .inl (if_neg h)
  begins := by norm_num [bow]
  ends := by norm_num [bow]

/-- Half way along it, both coordinates are computed to within 0.0003 mm of (10, 10). -/
example (fpu : Fpu) : ∃ y0 y1, (Trajectory32.ofReq bowRequest.trajectory).position fpu 0 (num (5 * Real.pi)) = num y0 ∧
    (Trajectory32.ofReq bowRequest.trajectory).position fpu 1 (num (5 * Real.pi)) = num y1 ∧
    |y0 - 10| ≤ 3 / 10000 ∧ |y1 - 10| ≤ 3 / 10000 := by
  have hs : |5 * Real.pi| ≤ 10 * Real.pi + 1 / 1000 := by
    have := Real.pi_pos
    rw [abs_of_pos (by positivity)]; linarith
  obtain ⟨y0, e0, n0⟩ := arc_position_single bow_arc fpu (i := 0) (by norm_num) hs
  obtain ⟨y1, e1, n1⟩ := arc_position_single bow_arc fpu (i := 1) (by norm_num) hs
  have ha : Real.pi + -Real.pi / (10 * Real.pi) * (5 * Real.pi) = Real.pi / 2 := by
    have := Real.pi_pos.ne'
    field_simp; ring
  have p0 : ExecSpec.place bowRequest 0 (5 * Real.pi) = 10 := by
    show 10 + 10 * Real.cos (Real.pi + -Real.pi / (10 * Real.pi) * (5 * Real.pi)) = 10
    rw [ha]; simp
  have p1 : ExecSpec.place bowRequest 1 (5 * Real.pi) = 10 := by
    show 0 + 10 * Real.sin (Real.pi + -Real.pi / (10 * Real.pi) * (5 * Real.pi)) = 10
    rw [ha]; simp
  rw [p0] at n0
  rw [p1] at n1
  exact ⟨y0, y1, e0, e1, n0.trans (by norm_num), n1.trans (by norm_num)⟩

end Moovr.Props
