import Verif.Lemmas.PlanExample
import Mathlib.Analysis.SpecialFunctions.Trigonometric.Deriv
/-!
# Properties of trajectories and axis limits (C39, C40, C41, C69)
-/
namespace Moovr.Props
open Num AccDec

/-- No axis of the machine belongs to an arc. -/
def Straight (n : Nat) (r : SimplifiedMotion) : Prop := n ≤ r.trajectory.arcAxis0 ∧ n ≤ r.trajectory.arcAxis1

/-- **C39** For a straight motion by `δ` over length `L`: if the path speed `v` is within the computed limit then every axis'
speed is within its own limit, and the computed limit is the largest number with this property; the same for speeding up and
for slowing down. -/
theorem axis_limits {M : Machine} (hM : M.Ok) {r : SimplifiedMotion} {L : ℝ} (h : Moves M.n r L) (hs : Straight M.n r)
    {δ : Nat → ℝ} (hδ : ∀ i, i < M.n → r.trajectory.delta i = fin (δ i)) (p : Profile) :
    let q := p.limit M (.ofReq r.trajectory)
    (∀ v : ℝ, 0 ≤ v → ((fin v).le q.vMax = true ↔ ∀ i, i < M.n → |v * (δ i / L)| ≤ M.vMax i)) ∧
    (∀ a : ℝ, 0 ≤ a → ((fin a).le q.aMax = true ↔ ∀ i, i < M.n → |a * (δ i / L)| ≤ M.aMax i)) ∧
    (∀ a : ℝ, a ≤ 0 → (q.dMax.le (fin a) = true ↔ ∀ i, i < M.n → |a * (δ i / L)| ≤ -M.dMax i)) ∧
    q.jMax = fin M.jMax := by
  intro q
  obtain ⟨rho, hr, hd⟩ := h.dirs
  obtain ⟨hl, hj⟩ := limit_spec hM hd p
  have hdir : ∀ i, i < M.n → r.direction i = δ i / L := by
    intro i hi
    unfold SimplifiedMotion.direction
    rw [if_neg (by have := hs.1; have := hs.2; omega), hδ i hi, h.length]
  have harc : ∀ i, i < M.n → ¬ (i = (Trajectory.ofReq r.trajectory).arcAxis0 ∨ i = (Trajectory.ofReq r.trajectory).arcAxis1) := by
    intro i hi
    have h1 := hs.1; have h2 := hs.2
    show ¬ (i = r.trajectory.arcAxis0 ∨ i = r.trajectory.arcAxis1)
    omega
  refine ⟨?_, ?_, ?_, hj⟩
  · intro v hv
    have := hl.v
    change UpLim _ _ _ q.vMax at this
    have habs : ∀ i, i < M.n → |v * (δ i / L)| = v * |r.direction i| := by
      intro i hi; rw [abs_mul, abs_of_nonneg hv, hdir i hi]
    generalize q.vMax = x at this
    cases this with
    | inf hf =>
      refine ⟨fun _ i hi => ?_, fun _ => rfl⟩
      rw [habs i hi, (hf i hi).1]; simpa using (hM.vMax i hi).le
    | val x hx hok hatt =>
      rw [le_fin, decide_eq_true_eq]
      constructor
      · intro hvx i hi
        rw [habs i hi]
        exact (mul_le_mul_of_nonneg_right hvx (abs_nonneg _)).trans (hok.1 i hi)
      · intro hall
        rcases hatt with ⟨i, hi, hne, e⟩ | ⟨i, hi, ha, -⟩
        · have := hall i hi
          rw [habs i hi, ← e] at this
          exact le_of_mul_le_mul_right this (abs_pos.2 hne)
        · exact absurd ha (harc i hi)
  · intro v hv
    have := hl.a
    change UpLim _ _ _ q.aMax at this
    have habs : ∀ i, i < M.n → |v * (δ i / L)| = v * |r.direction i| := by
      intro i hi; rw [abs_mul, abs_of_nonneg hv, hdir i hi]
    generalize q.aMax = x at this
    cases this with
    | inf hf =>
      refine ⟨fun _ i hi => ?_, fun _ => rfl⟩
      rw [habs i hi, hf i hi]; simpa using (hM.aMax i hi).le
    | val x hx hok hatt =>
      rw [le_fin, decide_eq_true_eq]
      constructor
      · intro hvx i hi
        rw [habs i hi]
        exact (mul_le_mul_of_nonneg_right hvx (abs_nonneg _)).trans (hok i hi)
      · intro hall
        obtain ⟨i, hi, hne, e⟩ := hatt
        have := hall i hi
        rw [habs i hi, ← e] at this
        exact le_of_mul_le_mul_right this (abs_pos.2 hne)
  · intro v hv
    have := hl.d
    change UpLim _ _ _ (-q.dMax) at this
    have habs : ∀ i, i < M.n → |v * (δ i / L)| = -v * |r.direction i| := by
      intro i hi; rw [abs_mul, abs_of_nonpos hv, hdir i hi]
    rcases hx : q.dMax with x | _ | _ | _
    · rw [hx, fin_neg] at this
      cases this with
      | val _ hx hok hatt =>
        rw [le_fin, decide_eq_true_eq]
        constructor
        · intro hvx i hi
          rw [habs i hi]
          exact (mul_le_mul_of_nonneg_right (neg_le_neg hvx) (abs_nonneg _)).trans (hok i hi)
        · intro hall
          obtain ⟨i, hi, hne, e⟩ := hatt
          have := hall i hi
          rw [habs i hi, ← e] at this
          have := le_of_mul_le_mul_right this (abs_pos.2 hne)
          linarith
    · rw [hx] at this; cases this
    · rw [hx] at this
      cases this with
      | inf hf =>
        refine ⟨fun _ i hi => ?_, fun _ => rfl⟩
        rw [habs i hi, hf i hi]
        simp only [abs_zero, mul_zero]; linarith [hM.dMax i hi]
    · rw [hx] at this; cases this

/-- **C40** The position of an axis that does not belong to an arc at distance `s`. -/
theorem straight_path {r : SimplifiedMotion} {L : ℝ} (hL : r.trajectory.length = fin L) (hpos : 0 < L) {axis : Nat}
    (ha : axis ≠ r.trajectory.arcAxis0 ∧ axis ≠ r.trajectory.arcAxis1) {x0 δ : ℝ}
    (hx : r.trajectory.startPosition axis = fin x0) (hδ : r.trajectory.delta axis = fin δ) :
    let t := Trajectory.ofReq r.trajectory
    (∀ s : ℝ, t.position axis (fin s) = fin (x0 + δ * s / L)) ∧
    t.position axis (fin 0) = fin x0 ∧ t.position axis (fin L) = fin (x0 + δ) ∧ (t.isMoving axis = true ↔ δ ≠ 0) := by
  intro t
  have hd : t.deltaRealTime axis = fin (δ / L) := by
    show (if axis = r.trajectory.arcAxis0 ∨ axis = r.trajectory.arcAxis1 then _ else _) = _
    rw [if_neg (by tauto), hδ, hL, fin_div hpos.ne']
  have key : ∀ s : ℝ, t.position axis (fin s) = fin (x0 + δ * s / L) := by
    intro s
    unfold Trajectory.position
    rw [if_neg (show axis ≠ t.arcAxis0 from ha.1), if_neg (show axis ≠ t.arcAxis1 from ha.2), hd]
    rw [show t.startPosition axis = fin x0 from hx, fin_mul, fin_add]
    congr 1; ring
  refine ⟨key, ?_, ?_, ?_⟩
  · rw [key]; simp
  · rw [key]; congr 1; field_simp
  · unfold Trajectory.isMoving
    rw [hd, eq_fin]
    simp [hpos.ne', div_eq_zero_iff]

/-- **C41** An arc: with both arc axes different, every point of the path has exactly the radius as distance to the centre, it
is the point at angle `startAngle + deltaAngle * s / L`, so at distance 0 the point at the start angle and at distance `L` the
point at the start angle plus the arc angle; other axes move linearly (`straight_path`). -/
theorem arc_path {r : SimplifiedMotion} {L c0 c1 rho θ φ : ℝ} (hL : r.trajectory.length = fin L) (hpos : 0 < L)
    (hne : r.trajectory.arcAxis0 ≠ r.trajectory.arcAxis1)
    (h0 : r.trajectory.arcCenter0 = fin c0) (h1 : r.trajectory.arcCenter1 = fin c1)
    (hr : r.trajectory.radius = fin rho) (hθ : r.trajectory.startAngle = fin θ) (hφ : r.trajectory.deltaAngle = fin φ) :
    let t := Trajectory.ofReq r.trajectory
    ∃ x y : ℝ → ℝ, (∀ s, t.position r.trajectory.arcAxis0 (fin s) = fin (x s)) ∧
      (∀ s, t.position r.trajectory.arcAxis1 (fin s) = fin (y s)) ∧
      (∀ s, (x s - c0) ^ 2 + (y s - c1) ^ 2 = rho ^ 2) ∧
      (∀ s, x s = c0 + rho * Real.cos (θ + φ * s / L) ∧ y s = c1 + rho * Real.sin (θ + φ * s / L)) ∧
      x 0 = c0 + rho * Real.cos θ ∧ y 0 = c1 + rho * Real.sin θ ∧
      x L = c0 + rho * Real.cos (θ + φ) ∧ y L = c1 + rho * Real.sin (θ + φ) := by
  intro t
  have hd0 : t.deltaRealTime r.trajectory.arcAxis0 = fin (φ / L) := by
    show (if _ then _ else _) = _
    rw [if_pos (Or.inl rfl), hφ, hL, fin_div hpos.ne']
  have hd1 : t.deltaRealTime r.trajectory.arcAxis1 = fin (φ / L) := by
    show (if _ then _ else _) = _
    rw [if_pos (Or.inr rfl), hφ, hL, fin_div hpos.ne']
  refine ⟨fun s => c0 + rho * Real.cos (θ + φ * s / L), fun s => c1 + rho * Real.sin (θ + φ * s / L), ?_, ?_, ?_,
    fun _ => ⟨rfl, rfl⟩, by simp, by simp, ?_, ?_⟩
  · intro s
    unfold Trajectory.position
    rw [if_pos (show r.trajectory.arcAxis0 = t.arcAxis0 from rfl), hd0, show t.arcCenter0 = fin c0 from h0,
      show t.radius = fin rho from hr, show t.startAngle = fin θ from hθ, fin_mul, fin_add, cos_fin, fin_mul, fin_add,
      show φ / L * s = φ * s / L by ring]
  · intro s
    unfold Trajectory.position
    rw [if_neg (show r.trajectory.arcAxis1 ≠ t.arcAxis0 from hne.symm),
      if_pos (show r.trajectory.arcAxis1 = t.arcAxis1 from rfl), hd1, show t.arcCenter1 = fin c1 from h1,
      show t.radius = fin rho from hr, show t.startAngle = fin θ from hθ, fin_mul, fin_add, sin_fin, fin_mul, fin_add,
      show φ / L * s = φ * s / L by ring]
  · intro s
    have := Real.sin_sq_add_cos_sq (θ + φ * s / L)
    simp only [add_sub_cancel_left]
    linear_combination rho ^ 2 * this
  · simp only [mul_div_assoc, div_self hpos.ne', mul_one]
  · simp only [mul_div_assoc, div_self hpos.ne', mul_one]

/-- **C69** Axis limits on arcs: at a path speed within the computed limit, the speed of each arc axis is within its own
limit, and the acceleration towards the centre is within the acceleration limit of both arc axes; for any arc that is not
longer than the trajectory. (`s` is the distance travelled at time `t`, `v` its rate of change.) -/
theorem arc_limits {M : Machine} (hM : M.Ok) {r : SimplifiedMotion} {L rho φ : ℝ} (h : Moves M.n r L)
    (hr : r.trajectory.radius = fin rho) (hφ : r.trajectory.deltaAngle = fin φ)
    (harc : rho * |φ| ≤ L) {axis : Nat} (hax : axis < M.n)
    (hin : axis = r.trajectory.arcAxis0 ∨ axis = r.trajectory.arcAxis1) (hne : r.trajectory.arcAxis0 ≠ r.trajectory.arcAxis1)
    {c0 c1 θ : ℝ} (h0 : r.trajectory.arcCenter0 = fin c0) (h1 : r.trajectory.arcCenter1 = fin c1)
    (hθ : r.trajectory.startAngle = fin θ) (p : Profile) {v : ℝ} (hv0 : 0 ≤ v)
    (hv : (fin v).le (p.limit M (.ofReq r.trajectory)).vMax = true) {S : ℝ → ℝ} {u : ℝ} (hS : HasDerivAt S v u) :
    ∃ (P : ℝ → ℝ) (w : ℝ), (∀ s, (Trajectory.ofReq r.trajectory).position axis (fin s) = fin (P s)) ∧
      HasDerivAt (fun t => P (S t)) w u ∧ |w| ≤ M.vMax axis ∧ v ^ 2 / rho ≤ M.aMax axis := by
  obtain ⟨rho', hr', hd⟩ := h.dirs
  have : rho' = rho := fin_injective (hr'.symm.trans hr)
  subst this
  obtain ⟨hl, -⟩ := limit_spec hM hd p
  have hrho : 0 < rho' := hd.pos axis hax hin
  have hL := h.pos
  have hdir : r.direction axis = 1 := by unfold SimplifiedMotion.direction; rw [if_pos hin]
  have hlim : v ≤ M.vMax axis ∧ v ^ 2 ≤ M.aMax axis * rho' := by
    have hv1 := hl.v
    generalize (p.limit M (.ofReq r.trajectory)).vMax = x at hv hv1
    cases hv1 with
    | inf hf => exact absurd (show axis = _ ∨ axis = _ from hin) (hf axis hax).2
    | val x hx hok _ =>
      rw [le_fin, decide_eq_true_eq] at hv
      have a1 := hok.1 axis hax
      have a2 := hok.2 axis hax hin
      rw [hdir, abs_one, mul_one] at a1
      exact ⟨hv.trans a1, (pow_le_pow_left₀ hv0 hv 2).trans a2⟩
  have hk : rho' * |φ / L| ≤ 1 := by
    rw [abs_div, abs_of_pos hL, ← mul_div_assoc, div_le_one hL]; exact harc
  obtain ⟨x, y, hx, hy, -, hxy, -⟩ := arc_path h.length hL hne h0 h1 hr hθ hφ
  have hcent : v ^ 2 / rho' ≤ M.aMax axis := by rw [div_le_iff₀ hrho]; exact hlim.2
  have hin' : HasDerivAt (fun t => θ + φ * S t / L) (φ * v / L) u := by
    have := ((hS.const_mul φ).div_const L).const_add θ
    exact this
  have bound : ∀ z : ℝ, |z| ≤ 1 → |rho' * (z * (φ * v / L))| ≤ M.vMax axis := by
    intro z hz
    refine le_trans ?_ hlim.1
    rw [show rho' * (z * (φ * v / L)) = z * (rho' * (φ / L)) * v by ring, abs_mul, abs_mul, abs_mul, abs_of_nonneg hv0,
      abs_of_pos hrho]
    have h2 : |z| * (rho' * |φ / L|) ≤ 1 := by
      have h3 : 0 ≤ rho' * |φ / L| := by positivity
      nlinarith [abs_nonneg z]
    nlinarith
  rcases hin with rfl | rfl
  · refine ⟨x, rho' * (-Real.sin (θ + φ * S u / L) * (φ * v / L)), hx, ?_, ?_, hcent⟩
    · have e : (fun t => x (S t)) = fun t => c0 + rho' * Real.cos (θ + φ * S t / L) := funext fun t => (hxy (S t)).1
      rw [e]
      exact (hin'.cos.const_mul rho').const_add c0
    · exact bound _ (by rw [abs_neg]; exact Real.abs_sin_le_one _)
  · refine ⟨y, rho' * (Real.cos (θ + φ * S u / L) * (φ * v / L)), hy, ?_, ?_, hcent⟩
    · have e : (fun t => y (S t)) = fun t => c1 + rho' * Real.sin (θ + φ * S t / L) := funext fun t => (hxy (S t)).2
      rw [e]
      exact (hin'.sin.const_mul rho').const_add c1
    · exact bound _ (Real.abs_cos_le_one _)

/-! ## Examples -/

open Example in
/-- The example request goes straight from 0 to 1. -/
example : (Trajectory.ofReq request.trajectory).position 0 (fin (1 / 4)) = fin (1 / 4) := by
  have h := (straight_path (r := request) (L := 1) (axis := 0) (x0 := 0) (δ := 1) rfl one_pos (by decide) rfl rfl).1 (1 / 4)
  rw [h]; norm_num

open Example in
/-- Path speed 11 would violate the axis' limit of 10. -/
example : (fin 11).le (Profile.zero.limit machine (.ofReq request.trajectory)).vMax = false := by
  have h := (axis_limits machine_ok request_moves ⟨le_rfl, le_rfl⟩ (δ := fun _ => 1) (fun _ _ => rfl) .zero).1 11 (by norm_num)
  rw [← Bool.not_eq_true, h]
  intro hc
  have := hc 0 (by decide)
  norm_num [machine] at this

/-- A quarter circle of radius 2 around (3, 4). -/
noncomputable def exArc : SimplifiedMotion :=
  { SimplifiedMotion.fresh 3 with
    type := .feedHelicalCCW
    trajectory := ⟨fin Real.pi, fun _ => fin 0, fun _ => fin 0, 0, 1, fin 3, fin 4, fin 2, fin 0, fin (Real.pi / 2)⟩ }

/-- It ends straight above the centre. -/
example : (Trajectory.ofReq exArc.trajectory).position 0 (fin Real.pi) = fin 3 ∧
    (Trajectory.ofReq exArc.trajectory).position 1 (fin Real.pi) = fin 6 := by
  obtain ⟨x, y, hx, hy, -, -, -, -, h1, h2⟩ := arc_path (r := exArc) (L := Real.pi) (c0 := 3) (c1 := 4) (rho := 2) (θ := 0)
    (φ := Real.pi / 2) rfl Real.pi_pos (by decide) rfl rfl rfl rfl rfl
  refine ⟨(hx _).trans ?_, (hy _).trans ?_⟩
  · rw [h1]; simp
  · rw [h2]; norm_num

/-- The hypotheses of `arc_limits` hold for it: the arc is exactly as long as the trajectory. -/
example : Moves 2 exArc Real.pi ∧ 2 * |Real.pi / 2| ≤ Real.pi := by
  refine ⟨⟨rfl, rfl, Real.pi_pos, fun _ _ => ⟨0, rfl⟩, ⟨2, rfl, fun _ _ _ => two_pos⟩, ⟨0, by omega, Or.inl rfl⟩⟩, ?_⟩
  rw [abs_of_pos (by positivity)]; linarith

end Moovr.Props
