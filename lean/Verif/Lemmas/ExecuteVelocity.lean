import Verif.Lemmas.ExecuteAll
import Mathlib.Analysis.SpecialFunctions.Trigonometric.Deriv
/-!
# Axis velocities of executed motions
-/
namespace Moovr
open Num ExecSpec Set

/-! ## One motion -/

/-- Rate of change of the position of an axis along the path. -/
noncomputable def slope (r : SimplifiedMotion) (axis : Nat) (s : ℝ) : ℝ :=
  let t := r.trajectory
  if axis = t.arcAxis0 then
    val t.radius * (-Real.sin (val t.startAngle + val t.deltaAngle / val t.length * s) * (val t.deltaAngle / val t.length))
  else if axis = t.arcAxis1 then
    val t.radius * (Real.cos (val t.startAngle + val t.deltaAngle / val t.length * s) * (val t.deltaAngle / val t.length))
  else val (t.delta axis) / val t.length

theorem place_deriv (r : SimplifiedMotion) (axis : Nat) (s : ℝ) : HasDerivAt (place r axis) (slope r axis s) s := by
  have hin : ∀ a b : ℝ, HasDerivAt (fun s : ℝ => a + b * s) b s := fun a b => by
    simpa using ((hasDerivAt_id s).const_mul b).const_add a
  unfold slope
  have e : place r axis = fun s => place r axis s := rfl
  rw [e]
  unfold place
  simp only
  split
  · exact ((hin _ _).cos.const_mul _).const_add _
  · split
    · exact ((hin _ _).sin.const_mul _).const_add _
    · exact hin _ _

/-- The angle along the path, per unit of length, times the radius is at most one. -/
theorem arc_rate {n : Nat} {r : SimplifiedMotion} (h : Executable n r) {axis : Nat} (ha : axis < n)
    (hc : axis = r.trajectory.arcAxis0 ∨ axis = r.trajectory.arcAxis1) :
    0 < val r.trajectory.radius ∧ val r.trajectory.radius * |val r.trajectory.deltaAngle / val r.trajectory.length| ≤ 1 := by
  have hL := h.moves.pos
  obtain ⟨x, hx, hpos⟩ := h.moves.radius
  refine ⟨by rw [hx]; exact hpos axis ha hc, ?_⟩
  obtain ⟨-, -, -, -, -, h6⟩ := h.arc (hc.imp (fun e => by omega) fun e => by omega)
  rw [abs_div, abs_of_pos hL, ← mul_div_assoc, div_le_one hL]
  exact h6

theorem slope_le {n : Nat} {r : SimplifiedMotion} (h : Executable n r) {axis : Nat} (ha : axis < n) (s : ℝ) :
    |slope r axis s| ≤ |r.direction axis| := by
  by_cases hc : axis = r.trajectory.arcAxis0 ∨ axis = r.trajectory.arcAxis1
  · obtain ⟨hr, hk⟩ := arc_rate h ha hc
    have hd : r.direction axis = 1 := by unfold SimplifiedMotion.direction; rw [if_pos hc]
    have key : ∀ z : ℝ, |z| ≤ 1 → |val r.trajectory.radius * (z * (val r.trajectory.deltaAngle / val r.trajectory.length))| ≤ 1 := by
      intro z hz
      rw [abs_mul, abs_mul, abs_of_pos hr]
      have := mul_le_mul_of_nonneg_left hz
        (mul_nonneg hr.le (abs_nonneg (val r.trajectory.deltaAngle / val r.trajectory.length)))
      nlinarith
    rw [hd, abs_one]
    unfold slope
    simp only
    split
    · exact key _ (by rw [abs_neg]; exact Real.abs_sin_le_one _)
    · rename_i h0
      rw [if_pos (hc.resolve_left h0)]
      exact key _ (Real.abs_cos_le_one _)
  · obtain ⟨x, hx⟩ := h.moves.delta axis ha
    unfold slope SimplifiedMotion.direction
    have hl := h.moves.length
    rw [if_neg hc]
    simp only [if_neg (fun e => hc (.inl e)), if_neg (fun e => hc (.inr e))]
    rw [hx]
    generalize hL : r.trajectory.length = l at *
    rw [hl]
    exact le_rfl

/-- The slope changes slowly: it is constant on a line. -/
theorem slope_lipschitz {n : Nat} {r : SimplifiedMotion} (h : Executable n r) {axis : Nat} (ha : axis < n) (s s' : ℝ) :
    (¬ (axis = r.trajectory.arcAxis0 ∨ axis = r.trajectory.arcAxis1) → slope r axis s = slope r axis s') ∧
    ((axis = r.trajectory.arcAxis0 ∨ axis = r.trajectory.arcAxis1) →
      |slope r axis s - slope r axis s'| * val r.trajectory.radius ≤ |s - s'|) := by
  refine ⟨fun hc => ?_, fun hc => ?_⟩
  · unfold slope
    simp only [if_neg (fun e => hc (.inl e)), if_neg (fun e => hc (.inr e))]
  · obtain ⟨hr, hk⟩ := arc_rate h ha hc
    have cosl : ∀ x y : ℝ, |Real.cos x - Real.cos y| ≤ |x - y| := by
      intro x y
      have := Real.lipschitzWith_cos.dist_le_mul x y
      simpa [Real.dist_eq] using this
    have sinl : ∀ x y : ℝ, |Real.sin x - Real.sin y| ≤ |x - y| := by
      intro x y
      have := Real.lipschitzWith_sin.dist_le_mul x y
      simpa [Real.dist_eq] using this
    set k := val r.trajectory.deltaAngle / val r.trajectory.length with hkd
    have key : ∀ z z' : ℝ, |z - z'| ≤ |k * s - k * s'| →
        |val r.trajectory.radius * (z * k) - val r.trajectory.radius * (z' * k)| * val r.trajectory.radius ≤ |s - s'| := by
      intro z z' hz
      rw [show val r.trajectory.radius * (z * k) - val r.trajectory.radius * (z' * k) =
        val r.trajectory.radius * ((z - z') * k) by ring, abs_mul, abs_mul, abs_of_pos hr]
      rw [← mul_sub, abs_mul] at hz
      calc val r.trajectory.radius * (|z - z'| * |k|) * val r.trajectory.radius
          ≤ val r.trajectory.radius * (|k| * |s - s'| * |k|) * val r.trajectory.radius := by gcongr
        _ = (val r.trajectory.radius * |k|) ^ 2 * |s - s'| := by ring
        _ ≤ 1 * |s - s'| := by
            refine mul_le_mul_of_nonneg_right ?_ (abs_nonneg _)
            exact pow_le_one₀ (by positivity) hk
        _ = |s - s'| := one_mul _
    unfold slope
    simp only
    split
    · refine key _ _ ?_
      rw [show -Real.sin (val r.trajectory.startAngle + k * s) - -Real.sin (val r.trajectory.startAngle + k * s') =
        -(Real.sin (val r.trajectory.startAngle + k * s) - Real.sin (val r.trajectory.startAngle + k * s')) by ring, abs_neg]
      refine (sinl _ _).trans (le_of_eq ?_)
      congr 1; ring
    · rename_i h0
      have h1 := hc.resolve_left h0
      rw [if_pos h1, if_pos h1]
      refine key _ _ ((cosl _ _).trans (le_of_eq ?_))
      congr 1; ring

/-- Velocity of an axis. -/
noncomputable def _root_.Moovr.ExecSpec.Job.vel (j : Job) (axis : Nat) (t : ℝ) : ℝ := slope j.r axis (j.S t) * j.V t

theorem vel_start {M : Machine} {j : Job} (h : j.Sound M) (axis : Nat) : j.vel axis 0 = 0 := by
  unfold Job.vel; rw [h.atRest.1, mul_zero]

theorem vel_end {M : Machine} {j : Job} (h : j.Sound M) (axis : Nat) : j.vel axis j.T = 0 := by
  unfold Job.vel; rw [h.atRest.2, mul_zero]

/-- An axis that does not move has no velocity. -/
theorem vel_still {j : Job} {axis : Nat} (h : ∀ s s', place j.r axis s = place j.r axis s') (t : ℝ) : j.vel axis t = 0 := by
  have h1 := place_deriv j.r axis (j.S t)
  have h2 : HasDerivAt (place j.r axis) 0 (j.S t) := by
    have e : place j.r axis = fun _ => place j.r axis 0 := funext fun s => h s 0
    rw [e]; exact hasDerivAt_const _ _
  unfold Job.vel
  rw [h1.unique h2, zero_mul]

theorem continuous_place (r : SimplifiedMotion) (axis : Nat) : Continuous (place r axis) :=
  continuous_iff_continuousAt.2 fun s => (place_deriv r axis s).continuousAt

/-- A bound on the velocity bounds the distance. -/
theorem place_le_of_vel {M : Machine} {j : Job} (h : j.Sound M) (axis : Nat) {σ C a b : ℝ} (ha : 0 ≤ a) (hab : a ≤ b) (hb : b ≤ j.T)
    (hv : ∀ s, a ≤ s → s ≤ b → σ * j.vel axis s ≤ C) :
    σ * (place j.r axis (j.S b) - place j.r axis (j.S a)) ≤ C * (b - a) := by
  have hd : ∀ x ∈ interior (Icc a b), HasDerivAt (fun t => σ * place j.r axis (j.S t)) (σ * j.vel axis x) x := by
    rw [interior_Icc]
    intro x hx
    exact ((place_deriv j.r axis (j.S x)).comp x (h.rate x (by linarith [hx.1]) (by linarith [hx.2]))).const_mul σ
  have := (convex_Icc a b).image_sub_le_mul_sub_of_deriv_le (f := fun t => σ * place j.r axis (j.S t)) (C := C)
    ((continuous_const.mul ((continuous_place j.r axis).comp h.smooth)).continuousOn)
    (fun x hx => (hd x hx).differentiableAt.differentiableWithinAt)
    (fun x hx => by
      rw [(hd x hx).deriv]
      rw [interior_Icc] at hx
      exact hv x hx.1.le hx.2.le) a (left_mem_Icc.2 hab) b (right_mem_Icc.2 hab) hab
  linarith

theorem vel_lipschitz {M : Machine} (hM : M.Ok) {j : Job} (h : j.Sound M) (he : Executable M.n j.r) {axis : Nat} (hax : axis < M.n)
    {a b : ℝ} (ha : 0 ≤ a) (hab : a ≤ b) (hb : b ≤ j.T) : |j.vel axis b - j.vel axis a| ≤ M.accel axis * (b - a) := by
  have hA := hM.aMax axis hax
  have hba : 0 ≤ b - a := sub_nonneg.2 hab
  have e : j.vel axis b - j.vel axis a =
      slope j.r axis (j.S b) * (j.V b - j.V a) + (slope j.r axis (j.S b) - slope j.r axis (j.S a)) * j.V a := by
    unfold Job.vel; ring
  have h1 : |slope j.r axis (j.S b) * (j.V b - j.V a)| ≤ max (M.aMax axis) (-M.dMax axis) * (b - a) := by
    rw [abs_mul]
    have up := h.speedUp axis hax a b ha hab hb
    have down := h.slowDown axis hax a b ha hab hb
    have hs := slope_le he hax (j.S b)
    calc |slope j.r axis (j.S b)| * |j.V b - j.V a| ≤ |j.r.direction axis| * |j.V b - j.V a| :=
          mul_le_mul_of_nonneg_right hs (abs_nonneg _)
      _ ≤ max (M.aMax axis) (-M.dMax axis) * (b - a) := by
          rcases abs_cases (j.V b - j.V a) with ⟨e, -⟩ | ⟨e, -⟩
          · rw [e, mul_comm]
            exact up.trans (mul_le_mul_of_nonneg_right (le_max_left _ _) hba)
          · rw [e, mul_comm, neg_sub]
            exact down.trans (mul_le_mul_of_nonneg_right (le_max_right _ _) hba)
  have h2 : |(slope j.r axis (j.S b) - slope j.r axis (j.S a)) * j.V a| ≤ M.aMax axis * (b - a) := by
    by_cases hc : axis = j.r.trajectory.arcAxis0 ∨ axis = j.r.trajectory.arcAxis1
    · obtain ⟨hr, -⟩ := arc_rate he hax hc
      have hsl := (slope_lipschitz he hax (j.S b) (j.S a)).2 hc
      set rho := val j.r.trajectory.radius
      set w := Real.sqrt (M.aMax axis * rho)
      have hw : w ^ 2 = M.aMax axis * rho := Real.sq_sqrt (by positivity)
      have hw0 : 0 ≤ w := Real.sqrt_nonneg _
      have hV : ∀ t, 0 ≤ t → t ≤ j.T → |j.V t| ≤ w := fun t h0 h1 => by
        have := h.turn axis hax hc t h0 h1
        exact Real.abs_le_sqrt this
      have hS : |j.S b - j.S a| ≤ w * (b - a) := by
        rw [abs_of_nonneg (sub_nonneg.2 (h.forward a b ha hab hb))]
        exact (convex_Icc a b).image_sub_le_mul_sub_of_deriv_le (f := j.S) h.smooth.continuousOn
          (fun x hx => by
            rw [interior_Icc] at hx
            exact (h.rate x (by linarith [hx.1]) (by linarith [hx.2])).differentiableAt.differentiableWithinAt)
          (fun x hx => by
            rw [interior_Icc] at hx
            rw [(h.rate x (by linarith [hx.1]) (by linarith [hx.2])).deriv]
            exact (le_abs_self _).trans (hV x (by linarith [hx.1]) (by linarith [hx.2])))
          a (left_mem_Icc.2 hab) b (right_mem_Icc.2 hab) hab
      have hVa := hV a ha (hab.trans hb)
      rw [abs_mul]
      have h3 : |slope j.r axis (j.S b) - slope j.r axis (j.S a)| * |j.V a| * rho ≤ M.aMax axis * (b - a) * rho := by
        calc |slope j.r axis (j.S b) - slope j.r axis (j.S a)| * |j.V a| * rho
            = |slope j.r axis (j.S b) - slope j.r axis (j.S a)| * rho * |j.V a| := by ring
          _ ≤ w * (b - a) * w := by
              exact mul_le_mul (hsl.trans hS) hVa (abs_nonneg _) (by positivity)
          _ = w ^ 2 * (b - a) := by ring
          _ = M.aMax axis * (b - a) * rho := by rw [hw]; ring
      exact le_of_mul_le_mul_right h3 hr
    · rw [(slope_lipschitz he hax (j.S b) (j.S a)).1 hc, sub_self, zero_mul, abs_zero]
      positivity
  rw [e]
  refine (abs_add_le _ _).trans ?_
  unfold Machine.accel
  linarith

/-! ## Programs -/

/-- Velocity of an axis after time `t`. -/
noncomputable def velAt : List Job → ℝ → Nat → ℝ
  | [], _ => fun _ => 0
  | j :: js, t => if t ≤ j.T then fun axis => j.vel axis t else velAt js (t - j.T)

theorem velAt_rest {js : List Job} {t : ℝ} {j : Job} {js' : List Job} {u : ℝ}
    (h : rest js t = (j :: js', u)) : velAt js t = fun axis => j.vel axis u := by
  induction js generalizing t with
  | nil => simp [rest] at h
  | cons a js ih =>
    rw [rest] at h
    rw [velAt]
    split at h
    · rename_i ht
      simp only [Prod.mk.injEq, List.cons.injEq] at h
      rw [if_pos ht, h.1.1, h.2]
    · rename_i ht
      rw [if_neg ht]; exact ih h

theorem velAt_done {js : List Job} {t : ℝ} (h : (rest js t).1 = []) : velAt js t = fun _ => 0 := by
  induction js generalizing t with
  | nil => rfl
  | cons a js ih =>
    rw [rest] at h
    rw [velAt]
    split at h
    · simp at h
    · rename_i ht
      rw [if_neg ht]; exact ih h

theorem placeAt_zero {M : Machine} {d : Nat → ℝ} {js : List Job} (hok : ∀ j ∈ js, j.Sound M) (hc : Connected M.n d (js.map Job.r))
    {axis : Nat} (hax : axis < M.n) : placeAt d js 0 axis = d axis := by
  cases js with
  | nil => rfl
  | cons j js =>
    have hj := hok j List.mem_cons_self
    rw [placeAt, if_pos hj.pos.le]
    simp only [hj.start]
    exact hc.1 axis hax

theorem velAt_zero {M : Machine} {js : List Job} (hok : ∀ j ∈ js, j.Sound M) (axis : Nat) : velAt js 0 axis = 0 := by
  cases js with
  | nil => rfl
  | cons j js =>
    have hj := hok j List.mem_cons_self
    rw [velAt, if_pos hj.pos.le]
    exact vel_start hj axis

theorem placeAt_le_of_vel {M : Machine} {axis : Nat} (hax : axis < M.n) {σ C : ℝ} (js : List Job) :
    ∀ {d : Nat → ℝ}, (∀ j ∈ js, j.Sound M) → Connected M.n d (js.map Job.r) → ∀ {a b : ℝ}, 0 ≤ a → a ≤ b →
      (∀ s, a ≤ s → s ≤ b → σ * velAt js s axis ≤ C) →
      σ * (placeAt d js b axis - placeAt d js a axis) ≤ C * (b - a) := by
  induction js with
  | nil =>
    intro d _ _ a b _ hab hv
    have := hv a le_rfl hab
    simp only [velAt, mul_zero] at this
    simp only [placeAt, sub_self, mul_zero]
    exact mul_nonneg this (sub_nonneg.2 hab)
  | cons j js ih =>
    intro d hok hc a b ha hab hv
    have hj := hok j List.mem_cons_self
    have hok' : ∀ j ∈ js, j.Sound M := fun j' h => hok j' (List.mem_cons_of_mem _ h)
    have first : ∀ x y, 0 ≤ x → x ≤ y → y ≤ j.T → (∀ s, x ≤ s → s ≤ y → σ * velAt (j :: js) s axis ≤ C) →
        σ * (place j.r axis (j.S y) - place j.r axis (j.S x)) ≤ C * (y - x) := by
      intro x y hx hxy hy h
      refine place_le_of_vel hj axis hx hxy hy fun s h1 h2 => ?_
      have := h s h1 h2
      rw [velAt, if_pos (h2.trans hy)] at this
      exact this
    have second : ∀ x y, j.T ≤ x → x ≤ y → (∀ s, x ≤ s → s ≤ y → σ * velAt (j :: js) s axis ≤ C) →
        σ * (placeAt (fun axis => place j.r axis j.L) js (y - j.T) axis -
          placeAt (fun axis => place j.r axis j.L) js (x - j.T) axis) ≤ C * (y - x) := by
      intro x y hx hxy h
      have := ih (d := fun axis => place j.r axis j.L) hok' hc.2 (a := x - j.T) (b := y - j.T) (by linarith) (by linarith)
        (fun s h1 h2 => by
          have h3 := h (s + j.T) (by linarith) (by linarith)
          rw [velAt] at h3
          split at h3
          · rename_i hle
            have e1 : s = 0 := by linarith
            subst e1
            rw [zero_add] at h3
            simp only [vel_end hj, mul_zero] at h3
            rw [velAt_zero hok', mul_zero]; exact h3
          · rw [show s + j.T - j.T = s by ring] at h3; exact h3)
      rwa [show y - j.T - (x - j.T) = y - x by ring] at this
    by_cases hb : b ≤ j.T
    · rw [placeAt, if_pos hb, placeAt, if_pos (hab.trans hb)]
      exact first a b ha hab hb hv
    · rw [not_le] at hb
      rw [placeAt, if_neg (not_le.2 hb)]
      by_cases haT : a ≤ j.T
      · rw [placeAt, if_pos haT]
        have h1 := first a j.T ha haT le_rfl fun s h1 h2 => hv s h1 (h2.trans hb.le)
        have h2 := second j.T b le_rfl hb.le fun s h1 h2 => hv s (haT.trans h1) h2
        have h3 : placeAt (fun axis => place j.r axis j.L) js 0 axis = place j.r axis j.L := placeAt_zero hok' hc.2 hax
        rw [sub_self, h3] at h2
        rw [hj.finish] at h1
        linarith
      · rw [not_le] at haT
        rw [placeAt, if_neg (not_le.2 haT)]
        exact second a b haT.le hab hv

theorem velAt_lipschitz {M : Machine} (hM : M.Ok) {axis : Nat} (hax : axis < M.n) (js : List Job) (hok : ∀ j ∈ js, j.Sound M)
    (he : ∀ j ∈ js, Executable M.n j.r) : ∀ {a b : ℝ}, 0 ≤ a → a ≤ b →
      |velAt js b axis - velAt js a axis| ≤ M.accel axis * (b - a) := by
  have hB : 0 ≤ M.accel axis := by
    have := hM.aMax axis hax
    have := (le_max_left (M.aMax axis) (-M.dMax axis))
    unfold Machine.accel; linarith
  induction js with
  | nil =>
    intro a b _ hab
    simp only [velAt, sub_self, abs_zero]
    exact mul_nonneg hB (sub_nonneg.2 hab)
  | cons j js ih =>
    intro a b ha hab
    have hj := hok j List.mem_cons_self
    have hok' : ∀ j ∈ js, j.Sound M := fun j' h => hok j' (List.mem_cons_of_mem _ h)
    have hje := he j List.mem_cons_self
    have ih' := fun {a b : ℝ} => ih hok' (fun j' h => he j' (List.mem_cons_of_mem _ h)) (a := a) (b := b)
    by_cases hb : b ≤ j.T
    · rw [velAt, if_pos hb, velAt, if_pos (hab.trans hb)]
      exact vel_lipschitz hM hj hje hax ha hab hb
    · rw [not_le] at hb
      rw [velAt, if_neg (not_le.2 hb)]
      by_cases haT : a ≤ j.T
      · rw [velAt, if_pos haT]
        have h1 := vel_lipschitz hM hj hje hax ha haT le_rfl
        have h2 := ih' le_rfl (show 0 ≤ b - j.T by linarith)
        rw [velAt_zero hok'] at h2
        rw [vel_end hj] at h1
        rw [abs_le] at *
        constructor <;> linarith [h1.1, h1.2, h2.1, h2.2]
      · rw [not_le] at haT
        rw [velAt, if_neg (not_le.2 haT)]
        have := ih' (show 0 ≤ a - j.T by linarith) (show a - j.T ≤ b - j.T by linarith)
        rwa [show b - j.T - (a - j.T) = b - a by ring] at this

theorem placeAt_lipschitz {M : Machine} {axis : Nat} (hax : axis < M.n) {w : ℝ} (hw : 0 ≤ w) (js : List Job) :
    ∀ {d : Nat → ℝ}, (∀ j ∈ js, j.Sound M) → Connected M.n d (js.map Job.r) →
      (∀ j ∈ js, ∀ a b, 0 ≤ a → a ≤ b → b ≤ j.T → |place j.r axis (j.S b) - place j.r axis (j.S a)| ≤ w * (b - a)) →
      ∀ {a b : ℝ}, 0 ≤ a → a ≤ b → |placeAt d js b axis - placeAt d js a axis| ≤ w * (b - a) := by
  induction js with
  | nil =>
    intro d _ _ _ a b _ hab
    simp only [placeAt, sub_self, abs_zero]
    exact mul_nonneg hw (sub_nonneg.2 hab)
  | cons j js ih =>
    intro d hok hc hl a b ha hab
    have hj := hok j List.mem_cons_self
    have hok' : ∀ j ∈ js, j.Sound M := fun j' h => hok j' (List.mem_cons_of_mem _ h)
    have ih' := fun {a b : ℝ} => ih hok' hc.2 (fun j' h => hl j' (List.mem_cons_of_mem _ h)) (a := a) (b := b)
    by_cases hb : b ≤ j.T
    · rw [placeAt, if_pos hb, placeAt, if_pos (hab.trans hb)]
      exact hl j List.mem_cons_self a b ha hab hb
    · rw [not_le] at hb
      rw [placeAt, if_neg (not_le.2 hb)]
      by_cases haT : a ≤ j.T
      · rw [placeAt, if_pos haT]
        have h1 := hl j List.mem_cons_self a j.T ha haT le_rfl
        have h2 := ih' le_rfl (show 0 ≤ b - j.T by linarith)
        rw [placeAt_zero hok' hc.2 hax] at h2
        rw [hj.finish] at h1
        change |placeAt (fun axis => place j.r axis (val j.r.trajectory.length)) js (b - j.T) axis - place j.r axis j.L| ≤ _ at h2
        change |placeAt (fun axis => place j.r axis (val j.r.trajectory.length)) js (b - j.T) axis - place j.r axis (j.S a)| ≤ _
        rw [abs_le] at *
        constructor <;> linarith [h1.1, h1.2, h2.1, h2.2]
      · rw [not_le] at haT
        rw [placeAt, if_neg (not_le.2 haT)]
        have := ih' (show 0 ≤ a - j.T by linarith) (show a - j.T ≤ b - j.T by linarith)
        rwa [show b - j.T - (a - j.T) = b - a by ring] at this

end Moovr
