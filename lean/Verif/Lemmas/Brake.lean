import Verif.Lemmas.Execute
import Mathlib.Analysis.Calculus.FDeriv.Extend
/-!
# Time laws of motions that are stopped and resumed
-/
namespace Moovr
open Num AccDec Set ExecSpec Filter Topology

/-! ## One law after another -/

/-- `f` up to the time `c`, then `g`. -/
noncomputable def cut (c : ℝ) (f g : ℝ → ℝ) (t : ℝ) : ℝ := if t ≤ c then f t else g t

theorem cut_left {c : ℝ} {f g : ℝ → ℝ} {t : ℝ} (h : t ≤ c) : cut c f g t = f t := if_pos h

theorem cut_right {c : ℝ} {f g : ℝ → ℝ} (e : f c = g c) {t : ℝ} (h : c ≤ t) : cut c f g t = g t := by
  rcases lt_or_eq_of_le h with h | rfl
  · exact if_neg (not_le.2 h)
  · rw [cut_left le_rfl, e]

theorem continuous_cut {c : ℝ} {f g : ℝ → ℝ} (e : f c = g c) (hf : Continuous f) (hg : Continuous g) : Continuous (cut c f g) :=
  Continuous.if_le hf hg continuous_id continuous_const (fun x (hx : x = c) => by rw [hx, e])

/-- Bounds that add up. -/
theorem split_le {D : ℝ → ℝ → ℝ} {K a b c : ℝ} (tri : ∀ x y z, D x z ≤ D x y + D y z)
    (h1 : ∀ x y, a ≤ x → x ≤ y → y ≤ c → D x y ≤ K * (y - x)) (h2 : ∀ x y, c ≤ x → x ≤ y → y ≤ b → D x y ≤ K * (y - x)) :
    ∀ x y, a ≤ x → x ≤ y → y ≤ b → D x y ≤ K * (y - x) := by
  intro x y hx hxy hy
  rcases le_total y c with hc | hc
  · exact h1 x y hx hxy hc
  · rcases le_total c x with hc' | hc'
    · exact h2 x y hc' hxy hy
    · have := h1 x c hx hc' le_rfl; have := h2 c y le_rfl hc hy; have := tri x c y
      linarith

/-- The speed at the end of an interval is the derivative from the left. -/
theorem deriv_end {S V : ℝ → ℝ} {a c : ℝ} (hac : a < c) (hS : Continuous S) (hV : Continuous V)
    (h : ∀ t, a < t → t < c → HasDerivAt S (V t) t) : HasDerivWithinAt S (V c) (Iic c) c := by
  refine hasDerivWithinAt_Iic_of_tendsto_deriv (s := Ioo a c)
    (fun t ht => (h t ht.1 ht.2).differentiableAt.differentiableWithinAt) hS.continuousWithinAt (Ioo_mem_nhdsLT hac) ?_
  refine Tendsto.congr' ?_ (hV.continuousWithinAt (s := Iio c) (x := c))
  filter_upwards [Ioo_mem_nhdsLT hac] with t ht
  exact (h t ht.1 ht.2).deriv.symm

/-- The speed at the beginning of an interval is the derivative from the right. -/
theorem deriv_begin {S V : ℝ → ℝ} {b c : ℝ} (hcb : c < b) (hS : Continuous S) (hV : Continuous V)
    (h : ∀ t, c < t → t < b → HasDerivAt S (V t) t) : HasDerivWithinAt S (V c) (Ici c) c := by
  refine hasDerivWithinAt_Ici_of_tendsto_deriv (s := Ioo c b)
    (fun t ht => (h t ht.1 ht.2).differentiableAt.differentiableWithinAt) hS.continuousWithinAt (Ioo_mem_nhdsGT hcb) ?_
  refine Tendsto.congr' ?_ (hV.continuousWithinAt (s := Ioi c) (x := c))
  filter_upwards [Ioo_mem_nhdsGT hcb] with t ht
  exact (h t ht.1 ht.2).deriv.symm

/-- A law followed by another one that goes on from there. -/
theorem ExecSpec.Law.cut {M : Machine} {r : SimplifiedMotion} {f : Num} {S₁ V₁ S₂ V₂ : ℝ → ℝ} {a b c : ℝ}
    (h₁ : Law M r f S₁ V₁ a c) (h₂ : Law M r f S₂ V₂ c b) (eS : S₁ c = S₂ c) (eV : V₁ c = V₂ c) :
    Law M r f (Moovr.cut c S₁ S₂) (Moovr.cut c V₁ V₂) a b := by
  have l : ∀ {g₁ g₂ : ℝ → ℝ} {t : ℝ}, t ≤ c → Moovr.cut c g₁ g₂ t = g₁ t := fun h => cut_left h
  have rS : ∀ {t : ℝ}, c ≤ t → Moovr.cut c S₁ S₂ t = S₂ t := fun h => cut_right eS h
  have rV : ∀ {t : ℝ}, c ≤ t → Moovr.cut c V₁ V₂ t = V₂ t := fun h => cut_right eV h
  refine ⟨?_, continuous_cut eS h₁.smooth h₂.smooth, continuous_cut eV h₁.steady h₂.steady, ?_, ?_, ?_, ?_, ?_, ?_⟩
  · have := split_le (D := fun x y => Moovr.cut c S₁ S₂ x - Moovr.cut c S₁ S₂ y) (K := 0) (a := a) (b := b) (c := c)
      (fun x y z => by linarith) ?_ ?_
    · intro x y hx hxy hy
      have := this x y hx hxy hy
      linarith
    · intro x y hx hxy hy
      have := h₁.forward x y hx hxy hy
      simp only [l hy, l (hxy.trans hy)]; linarith
    · intro x y hx hxy hy
      have := h₂.forward x y hx hxy hy
      simp only [rS hx, rS (hx.trans hxy)]; linarith
  · intro axis ha
    refine split_le (D := fun x y => |place r axis (Moovr.cut c S₁ S₂ y) - place r axis (Moovr.cut c S₁ S₂ x)|) (c := c)
      (fun x y z => by rw [add_comm]; exact abs_sub_le _ _ _) ?_ ?_
    · intro x y hx hxy hy
      simp only [l hy, l (hxy.trans hy)]; exact h₁.speed axis ha x y hx hxy hy
    · intro x y hx hxy hy
      simp only [rS hx, rS (hx.trans hxy)]; exact h₂.speed axis ha x y hx hxy hy
  · intro z hz
    refine split_le (D := fun x y => Moovr.cut c S₁ S₂ y - Moovr.cut c S₁ S₂ x) (c := c) (fun x y z => by linarith) ?_ ?_
    · intro x y hx hxy hy
      simp only [l hy, l (hxy.trans hy)]; exact h₁.feed z hz x y hx hxy hy
    · intro x y hx hxy hy
      simp only [rS hx, rS (hx.trans hxy)]; exact h₂.feed z hz x y hx hxy hy
  · intro t ha hb
    rcases lt_trichotomy t c with h | h | h
    · rw [l h.le]
      refine (h₁.rate t ha h).congr_of_eventuallyEq ?_
      filter_upwards [Iio_mem_nhds h] with x hx
      exact l (le_of_lt hx)
    · subst h
      have e1 : HasDerivWithinAt (Moovr.cut t S₁ S₂) (V₁ t) (Iic t) t :=
        (deriv_end ha h₁.smooth h₁.steady h₁.rate).congr (fun x hx => l hx) (l le_rfl)
      have e2 : HasDerivWithinAt (Moovr.cut t S₁ S₂) (V₂ t) (Ici t) t :=
        (deriv_begin hb h₂.smooth h₂.steady h₂.rate).congr (fun x hx => rS hx) (rS le_rfl)
      rw [← eV] at e2
      have := e1.union e2
      rw [Iic_union_Ici] at this
      rw [l le_rfl]
      exact hasDerivWithinAt_univ.1 this
    · rw [rV h.le]
      refine (h₂.rate t h hb).congr_of_eventuallyEq ?_
      filter_upwards [Ioi_mem_nhds h] with x hx
      exact rS (le_of_lt hx)
  · intro axis ha
    refine split_le (D := fun x y => (Moovr.cut c V₁ V₂ y - Moovr.cut c V₁ V₂ x) * |r.direction axis|) (c := c)
      (fun x y z => by linarith) ?_ ?_
    · intro x y hx hxy hy
      simp only [l hy, l (hxy.trans hy)]; exact h₁.speedUp axis ha x y hx hxy hy
    · intro x y hx hxy hy
      simp only [rV hx, rV (hx.trans hxy)]; exact h₂.speedUp axis ha x y hx hxy hy
  · intro axis ha
    refine split_le (D := fun x y => (Moovr.cut c V₁ V₂ x - Moovr.cut c V₁ V₂ y) * |r.direction axis|) (c := c)
      (fun x y z => by linarith) ?_ ?_
    · intro x y hx hxy hy
      simp only [l hy, l (hxy.trans hy)]; exact h₁.slowDown axis ha x y hx hxy hy
    · intro x y hx hxy hy
      simp only [rV hx, rV (hx.trans hxy)]; exact h₂.slowDown axis ha x y hx hxy hy
  · intro axis ha harc t h0 h1
    rcases le_total t c with h | h
    · rw [l h]; exact h₁.turn axis ha harc t h0 h
    · rw [rV h]; exact h₂.turn axis ha harc t h h1

theorem ExecSpec.Law.mono {M : Machine} {r : SimplifiedMotion} {f : Num} {S V : ℝ → ℝ} {a b a' b' : ℝ} (h : Law M r f S V a b)
    (ha : a ≤ a') (hb : b' ≤ b) : Law M r f S V a' b' :=
  ⟨fun x y h1 h2 h3 => h.forward x y (ha.trans h1) h2 (h3.trans hb), h.smooth, h.steady,
    fun i hi x y h1 h2 h3 => h.speed i hi x y (ha.trans h1) h2 (h3.trans hb),
    fun z hz x y h1 h2 h3 => h.feed z hz x y (ha.trans h1) h2 (h3.trans hb),
    fun t h1 h2 => h.rate t (ha.trans_lt h1) (h2.trans_le hb),
    fun i hi x y h1 h2 h3 => h.speedUp i hi x y (ha.trans h1) h2 (h3.trans hb),
    fun i hi x y h1 h2 h3 => h.slowDown i hi x y (ha.trans h1) h2 (h3.trans hb),
    fun i hi hc t h1 h2 => h.turn i hi hc t (ha.trans h1) (h2.trans hb)⟩

/-- A larger feed rate is respected as well. -/
theorem ExecSpec.Law.faster {M : Machine} {r : SimplifiedMotion} {f f' : Num} {S V : ℝ → ℝ} {a b : ℝ} (h : Law M r f S V a b)
    (hf : ∀ z', f' = fin z' → ∃ z, f = fin z ∧ z ≤ z') : Law M r f' S V a b := by
  refine ⟨h.forward, h.smooth, h.steady, h.speed, fun z' hz' x y h1 h2 h3 => ?_, h.rate, h.speedUp, h.slowDown, h.turn⟩
  obtain ⟨z, hz, hle⟩ := hf z' hz'
  exact (h.feed z hz x y h1 h2 h3).trans (mul_le_mul_of_nonneg_right hle (by linarith))

/-- Standing still. -/
theorem law_still {M : Machine} (hM : M.Ok) {r : SimplifiedMotion} (hr : Executable M.n r) {f : Num} (hf : f.Pos) (s a b : ℝ) :
    Law M r f (fun _ => s) (fun _ => 0) a b := by
  refine ⟨fun _ _ _ _ _ => le_rfl, continuous_const, continuous_const, ?_, ?_, fun t _ _ => hasDerivAt_const t s, ?_, ?_, ?_⟩
  · intro axis ha x y _ hxy _
    rw [sub_self, abs_zero]
    exact mul_nonneg (hM.vMax axis ha).le (by linarith)
  · intro z hz x y _ hxy _
    rw [sub_self]
    have : 0 < z := by rw [hz] at hf; exact hf
    exact mul_nonneg this.le (by linarith)
  · intro axis ha x y _ hxy _
    rw [sub_self, zero_mul]
    exact mul_nonneg (hM.aMax axis ha).le (by linarith)
  · intro axis ha x y _ hxy _
    rw [sub_self, zero_mul]
    have := hM.dMax axis ha
    exact mul_nonneg (by linarith) (by linarith)
  · intro axis ha harc t _ _
    obtain ⟨x, hx, hpos⟩ := hr.moves.radius
    rw [hx]
    have := mul_nonneg (hM.aMax axis ha).le (hpos axis ha harc).le
    simpa [val] using this

/-! ## The phase in which a motion accelerates -/

theorem SCurve.Ok.v_lt {c : SCurve} (h : c.Ok) (hA : 0 ≤ c.A) (hJ : 0 < c.J) (hlt : c.vS < c.vE) {t : ℝ} (h0 : 0 ≤ t)
    (h1 : t < c.dur) : c.v t < c.vE := by
  have e := h.vE; have hd := h.d; have hd2 := h.d2
  have k0 : 0 ≤ c.A * c.d2 := mul_nonneg hA hd2
  have k1 : 0 ≤ c.J * c.d ^ 2 := by positivity
  unfold SCurve.dur at h1
  unfold SCurve.v
  split_ifs with c1 c2
  · have : c.J * t ^ 2 < c.J * c.d ^ 2 := mul_lt_mul_of_pos_left (by nlinarith) hJ
    linarith
  · have : 0 < c.J * (c.dur - t) ^ 2 := by unfold SCurve.dur; exact mul_pos hJ (by nlinarith)
    linarith
  · rw [not_lt] at c1 c2
    rcases hd.lt_or_eq with hp | hz
    · have : 0 < c.J * c.d ^ 2 := by positivity
      have : 0 ≤ c.A * (c.d + c.d2 - t) := mul_nonneg hA (by linarith)
      linarith
    · rw [← hz] at e h1 ⊢
      have hA' : 0 < c.A := by
        rcases hA.lt_or_eq with h | h
        · exact h
        · rw [← h] at e; exfalso; linarith
      have : 0 < c.A * (c.d2 - t) := mul_pos hA' (by linarith)
      linarith

theorem AccDec.Good.v_lt {q : AccDec ℝ} (h : q.Good) (hlt : q.vStart < q.vEnd) {t : ℝ} (h0 : 0 ≤ t) (h1 : t < q.duration) :
    q.v t < q.vEnd := by
  have e : q.curve = ⟨q.vStart, q.vEnd, q.d1d3, q.d2, q.aMax, q.jMax⟩ := by unfold curve; rw [if_pos hlt]
  have := h.ok.v_lt (by rw [e]; exact h.aMax) (by rw [e]; exact h.jMax) (by simpa using hlt) h0 (by rw [← h.duration]; exact h1)
  rw [h.v]; simpa using this

/-! ## Stopping -/

/-- The profile for stopping (or resuming) at time `u`. -/
theorem Base.rebase {M : Machine} {r : SimplifiedMotion} {i : PlanIn} {q : Profile} {l rr : AccDec ℝ} {w m : ℝ} (h : Base M r i q)
    (hp : Planned i q l rr w m) {u S V : ℝ} (hs : Snapshot i q u S V) (hl : q.PastLeft (fin u)) :
    Base M r (i.at u S V) (q.rebase (fin u)) :=
  h.next (hs.of h.of hp hl) (hs.feasible h.feasible h.vE) h.vE rfl rfl rfl rfl rfl

theorem Base.stop {M : Machine} {r : SimplifiedMotion} {i : PlanIn} {q : Profile} (h : Base M r i q) {ov : Num}
    (hov : (r.vFeed * ov).Pos) :
    ∃ l rr m, Planned i (q.plan r.trajectory.length ov M.minLengthSProfile .minimizeSpeed) l rr 0 m ∧
      Base M r i (q.plan r.trajectory.length ov M.minLengthSProfile .minimizeSpeed) := by
  have hf : (q.vFeed * ov).NonNeg := by rw [h.vFeed]; exact hov.nonNeg
  obtain ⟨l, rr, m, hp⟩ := stop_planned h.of h.feasible h.vE hf h.vMax.nonNeg M.minLengthSProfile
  obtain ⟨-, -, -, -, -, -, -, -, ef, ev⟩ := plan_planned h.of h.feasible hf h.vMax.nonNeg M.minLengthSProfile .minimizeSpeed
  exact ⟨l, rr, m, hp, h.next (hp.of h.of.length) h.feasible h.vE rfl rfl rfl ef ev⟩

/-- Distance and speed of a stopping motion: the first phase, then standing still. -/
noncomputable def stopS (i : PlanIn) (l : AccDec ℝ) : ℝ → ℝ :=
  cut (i.doneT + l.duration) (fun t => i.doneL + l.s (t - i.doneT)) (fun _ => i.doneL + l.length)
@[inherit_doc stopS] noncomputable def stopV (i : PlanIn) (l : AccDec ℝ) : ℝ → ℝ :=
  cut (i.doneT + l.duration) (fun t => l.v (t - i.doneT)) (fun _ => 0)

section
variable {M : Machine} {r : SimplifiedMotion} {i : PlanIn} {q : Profile} {l rr : AccDec ℝ} {m : ℝ}

theorem stopS_joint (h : Planned i q l rr 0 m) : i.doneL + l.s (i.doneT + l.duration - i.doneT) = i.doneL + l.length := by
  rw [add_sub_cancel_left, h.lOk.good.s_dur]

theorem stopV_joint (h : Planned i q l rr 0 m) : l.v (i.doneT + l.duration - i.doneT) = 0 := by
  rw [add_sub_cancel_left, h.lOk.good.v_dur, h.lOk.vEnd]

theorem stopS_start (h : Planned i q l rr 0 m) : stopS i l i.doneT = i.doneL := by
  unfold stopS
  rw [cut_left (by linarith [h.lOk.good.dur_nonneg]), sub_self, h.lOk.good.s_zero, add_zero]

theorem stopV_start (h : Planned i q l rr 0 m) : stopV i l i.doneT = i.vS := by
  unfold stopV
  rw [cut_left (by linarith [h.lOk.good.dur_nonneg]), sub_self, h.lOk.good.v_zero, h.lOk.vStart]

theorem stopS_after (h : Planned i q l rr 0 m) {t : ℝ} (ht : i.doneT + l.duration ≤ t) : stopS i l t = i.doneL + l.length :=
  cut_right (stopS_joint h) ht

theorem stopV_after (h : Planned i q l rr 0 m) {t : ℝ} (ht : i.doneT + l.duration ≤ t) : stopV i l t = 0 :=
  cut_right (stopV_joint h) ht

theorem stop_s_eq (h : Planned i q l rr 0 m) {t : ℝ} (h0 : i.doneT ≤ t) (hm : t ≤ i.doneT + l.duration ∨ 0 < m) :
    q.s (fin t) = fin (stopS i l t) := by
  by_cases ht : t ≤ i.doneT + l.duration
  · rw [h.s_left ht]
    unfold stopS
    rw [cut_left ht]
    split
    · rename_i h'
      have : t = i.doneT := le_antisymm h' h0
      rw [this, sub_self, h.lOk.good.s_zero, add_zero]
    · rfl
  · rw [(h.stopped (hm.resolve_left ht) (not_le.1 ht)).1, stopS_after h (not_le.1 ht).le]

theorem stop_v_eq (h : Planned i q l rr 0 m) {t : ℝ} (h0 : i.doneT ≤ t) (hm : t ≤ i.doneT + l.duration ∨ 0 < m) :
    q.v (fin t) = fin (stopV i l t) := by
  by_cases ht : t ≤ i.doneT + l.duration
  · rw [h.v_left ht]
    unfold stopV
    rw [cut_left ht]
    split
    · rename_i h'
      have : t = i.doneT := le_antisymm h' h0
      rw [this, sub_self, h.lOk.good.v_zero, h.lOk.vStart]
    · rfl
  · rw [(h.stopped (hm.resolve_left ht) (not_le.1 ht)).2, stopV_after h (not_le.1 ht).le]

/-- The law of a stopping motion. -/
theorem law_of_stop (hM : M.Ok) (hr : Executable M.n r) {f : Num} (hf : f.Pos) (h : Base M r i q) (hp : Planned i q l rr 0 m)
    (hwv : (fin i.vS).le q.vMax = true) (hwf : (fin i.vS).le f = true) (b : ℝ) :
    Law M r f (stopS i l) (stopV i l) i.doneT b := by
  have g := hp.lOk.good
  have hd := g.dur_nonneg
  have hvS := h.feasible.vS
  refine Law.mono (b := max b (i.doneT + l.duration)) (Law.cut ?_ (law_still hM hr hf _ _ _) (stopS_joint hp) (stopV_joint hp)) le_rfl
    (le_max_left _ _)
  have hvb : ∀ t, i.doneT ≤ t → t ≤ i.doneT + l.duration → 0 ≤ l.v (t - i.doneT) ∧ l.v (t - i.doneT) ≤ i.vS := by
    intro t h0 h1
    have := g.v_bounds (t := t - i.doneT) (by linarith) (by linarith)
    rw [hp.lOk.vStart, hp.lOk.vEnd, min_eq_right hvS, max_eq_left hvS] at this
    exact this
  have hder : ∀ t, HasDerivAt (fun t => i.doneL + l.s (t - i.doneT)) (l.v (t - i.doneT)) t := by
    intro t
    have := (g.deriv_s (t - i.doneT)).comp_sub_const t i.doneT
    exact this.const_add i.doneL
  have hmono : ∀ x y, i.doneT ≤ x → x ≤ y → y ≤ i.doneT + l.duration → l.s (x - i.doneT) ≤ l.s (y - i.doneT) := by
    intro x y hx hxy hy
    exact g.s_monotone ⟨by linarith, by linarith⟩ ⟨by linarith, by linarith⟩ (by linarith)
  have hlip : ∀ x y, i.doneT ≤ x → x ≤ y → y ≤ i.doneT + l.duration →
      (i.doneL + l.s (y - i.doneT)) - (i.doneL + l.s (x - i.doneT)) ≤ i.vS * (y - x) := by
    intro x y hx hxy hy
    refine (convex_Icc x y).image_sub_le_mul_sub_of_deriv_le (f := fun t => i.doneL + l.s (t - i.doneT)) (C := i.vS)
      (fun t _ => (hder t).continuousAt.continuousWithinAt) (fun t _ => (hder t).differentiableAt.differentiableWithinAt)
      (fun t ht => ?_) x (left_mem_Icc.2 hxy) y (right_mem_Icc.2 hxy) hxy
    rw [interior_Icc] at ht
    rw [(hder t).deriv]
    exact (hvb t (by linarith [ht.1]) (by linarith [ht.2])).2
  refine ⟨?_, ?_, ?_, ?_, ?_, fun t _ _ => hder t, ?_, ?_, ?_⟩
  · intro x y hx hxy hy
    have := hmono x y hx hxy hy
    linarith
  · exact continuous_iff_continuousAt.2 fun t => (hder t).continuousAt
  · exact g.continuous_v.comp (continuous_id.sub continuous_const)
  · intro axis hax x y hx hxy hy
    refine (place_lipschitz hr hax _ _).trans ?_
    have h1 := hmono x y hx hxy hy
    have h2 := h.speed i.vS hvS hwv axis hax
    rw [abs_of_nonneg (show 0 ≤ (i.doneL + l.s (y - i.doneT)) - (i.doneL + l.s (x - i.doneT)) by linarith)]
    calc |r.direction axis| * ((i.doneL + l.s (y - i.doneT)) - (i.doneL + l.s (x - i.doneT)))
        ≤ |r.direction axis| * (i.vS * (y - x)) := mul_le_mul_of_nonneg_left (hlip x y hx hxy hy) (abs_nonneg _)
      _ = i.vS * |r.direction axis| * (y - x) := by ring
      _ ≤ M.vMax axis * (y - x) := mul_le_mul_of_nonneg_right h2 (sub_nonneg.2 hxy)
  · intro z hz x y hx hxy hy
    refine (hlip x y hx hxy hy).trans (mul_le_mul_of_nonneg_right ?_ (sub_nonneg.2 hxy))
    rw [hz, le_fin, decide_eq_true_eq] at hwf
    exact hwf
  · intro axis hax x y hx hxy hy
    have h1 := (g.lip_v (t := x - i.doneT) (u := y - i.doneT) (by linarith) (by linarith) (by linarith)).2
    rw [sub_sub_sub_cancel_right] at h1
    calc (l.v (y - i.doneT) - l.v (x - i.doneT)) * |r.direction axis|
        ≤ i.a * (y - x) * |r.direction axis| :=
          mul_le_mul_of_nonneg_right (h1.trans (mul_le_mul_of_nonneg_right hp.lOk.aMax (by linarith))) (abs_nonneg _)
      _ = i.a * |r.direction axis| * (y - x) := by ring
      _ ≤ M.aMax axis * (y - x) := mul_le_mul_of_nonneg_right (h.speedUp axis hax) (sub_nonneg.2 hxy)
  · intro axis hax x y hx hxy hy
    have h1 := (g.lip_v (t := x - i.doneT) (u := y - i.doneT) (by linarith) (by linarith) (by linarith)).1
    rw [sub_sub_sub_cancel_right] at h1
    have h2 := mul_le_mul_of_nonneg_right hp.lOk.dMax (show 0 ≤ y - x by linarith)
    calc (l.v (x - i.doneT) - l.v (y - i.doneT)) * |r.direction axis|
        ≤ -i.d * (y - x) * |r.direction axis| := mul_le_mul_of_nonneg_right (by linarith) (abs_nonneg _)
      _ = -i.d * |r.direction axis| * (y - x) := by ring
      _ ≤ -M.dMax axis * (y - x) := mul_le_mul_of_nonneg_right (h.slowDown axis hax) (sub_nonneg.2 hxy)
  · intro axis hax harc t h0 h1
    obtain ⟨b0, b1⟩ := hvb t h0 h1
    exact (pow_le_pow_left₀ b0 b1 2).trans (h.turn i.vS hvS hwv axis hax harc)

/-- How long and how far. -/
theorem stop_facts (h : Base M r i q) (hp : Planned i q l rr 0 m) :
    0 ≤ l.duration ∧ 2 * l.length = i.vS * l.duration ∧ l.length + m ≤ i.L ∧ 0 ≤ l.length ∧
    ∀ v a, Allowed M r v a → l.duration ≤ 2 * max (√(i.vS / M.jMax)) (i.vS / a) := by
  have g := hp.lOk.good
  refine ⟨g.dur_nonneg, ?_, ?_, g.len_nonneg, ?_⟩
  · rw [g.length, g.duration]
    unfold SCurve.len SCurve.dur
    rw [curve_vS, curve_vE, hp.lOk.vStart, hp.lOk.vEnd]; ring
  · have := hp.total; have := hp.rOk.good.len_nonneg; linarith
  · intro v a hall
    have := hp.lOk.brief h.feasible.vS
    rw [sub_zero, h.jerk] at this
    obtain ⟨-, -, h3⟩ := h.allowed v a hall
    refine this.trans (mul_le_mul_of_nonneg_left (max_le_max le_rfl ?_) (by norm_num))
    exact div_le_div_of_nonneg_left h.feasible.vS hall.a0 h3

/-- Nothing of the path is left to the last phase. -/
theorem stops_end (hp : Planned i q l rr 0 m) (hv : i.vE = 0) : l.length + m = i.L := by
  have h := hp.rOk.good.length
  have e1 : rr.curve.vS = 0 := by rw [AccDec.curve]; split <;> simp [hp.rOk.vStart]
  have e2 : rr.curve.vE = 0 := by rw [AccDec.curve]; split <;> simp [hp.rOk.vEnd, hv]
  have : rr.length = 0 := by rw [h]; unfold SCurve.len; rw [e1, e2]; ring
  have := hp.total
  linarith

end

/-! ## When the acceleration is over -/

theorem ExecSpec.Law.v_le {M : Machine} {r : SimplifiedMotion} {f : Num} {S V : ℝ → ℝ} {a b z : ℝ} (h : Law M r f S V a b)
    (hf : f = fin z) (hz : 0 ≤ z) {t : ℝ} (h0 : a < t) (h1 : t < b) : V t ≤ z := by
  refine (le_abs_self _).trans (HasDerivAt.le_of_lip' (f := S) (x₀ := t) (h.rate t h0 h1) hz ?_)
  filter_upwards [Ioo_mem_nhds h0 h1] with x hx
  rw [Real.norm_eq_abs, Real.norm_eq_abs]
  rcases le_total x t with hxt | hxt
  · have := h.forward x t hx.1.le hxt h1.le
    have := h.feed z hf x t hx.1.le hxt h1.le
    rw [abs_of_nonpos (by linarith), abs_of_nonpos (by linarith)]; linarith
  · have := h.forward t x h0.le hxt hx.2.le
    have := h.feed z hf t x h0.le hxt hx.2.le
    rw [abs_of_nonneg (by linarith), abs_of_nonneg (by linarith)]; linarith

/-- Once there was time enough to speed up, a motion does not speed up any more. -/
theorem ExecSpec.Job.Ok.settled {M : Machine} {j : Job} (h : j.Ok M) {v acc z : ℝ} (hall : Allowed M j.r v acc) (hf : j.f = fin z)
    (hz : 0 ≤ z) (hj : 0 < M.jMax) {u : ℝ} (hu : 2 * max (√(z / M.jMax)) (z / acc) < u) : j.Settled u := by
  obtain ⟨a, b, h1, h2, h3, -, h5, h6, h7⟩ := h.shape
  refine .inr ⟨a, lt_of_le_of_lt ?_ hu, fun x y hx hxy hy => ?_⟩
  · have hV : j.V a ≤ z := by
      rcases h1.eq_or_lt with e | h1
      · rw [← e, h.atRest.1]; exact hz
      · rcases (h2.trans h3).eq_or_lt with e | h3
        · rw [e, h.atRest.2]; exact hz
        · exact h.toLaw.v_le hf hz h1 h3
    refine (h7 v acc hall).1.trans (mul_le_mul_of_nonneg_left (max_le_max (Real.sqrt_le_sqrt ?_) ?_) (by norm_num))
    · exact div_le_div_of_nonneg_right hV hj.le
    · exact div_le_div_of_nonneg_right hV hall.a0.le
  · rcases le_total y b with hyb | hyb
    · rw [h5 x hx (hxy.trans hyb), h5 y (hx.trans hxy) hyb]
    · rcases le_total x b with hxb | hxb
      · rw [h5 x hx hxb, ← h5 b h2 le_rfl]; exact h6 b y le_rfl hyb hy
      · exact h6 x y hxb hxy hy

end Moovr
