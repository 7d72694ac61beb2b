import Verif.Lemmas.Overflow
import Verif.Lemmas.Crowd
import Mathlib.Analysis.Calculus.MeanValue
/-!
# A traverse at full speed in two axes

60 mm in X and Y, with Y half a step off X: the example for which the step buffer of the shipped machine overflows.
-/
namespace Moovr.Props
open Num ExecSpec MotionCtrl MotionSpec PulseSpec StepQueueSpec Set

/-- From (0, 0.0025, 0) mm to (60, 60.0025, 0) mm at feed rate `f`. -/
noncomputable def diagonal (f : ℝ) : SimplifiedMotion :=
  { SimplifiedMotion.fresh 3 with
    type := .feedLinear
    vFeed := fin f
    trajectory := { (SimplifiedMotion.fresh 3).trajectory with
      length := fin (60 * √2)
      startPosition := fun i => fin (if i = 1 then 1 / 400 else 0)
      delta := fun i => fin (if i = 2 then 0 else 60) } }

/-- Where it starts. -/
noncomputable def corner (i : Nat) : ℝ := if i = 1 then 1 / 400 else 0

private theorem root : √2 * √2 = (2 : ℝ) ∧ 0 < √(2 : ℝ) ∧ √(2 : ℝ) < 3 / 2 ∧ 7 / 5 < √(2 : ℝ) := by
  refine ⟨Real.mul_self_sqrt (by norm_num), by positivity, ?_, ?_⟩
  · rw [Real.sqrt_lt' (by norm_num)]; norm_num
  · rw [Real.lt_sqrt (by norm_num)]; norm_num

theorem place_diagonal {f : ℝ} {axis : Nat} (ha : axis < 3) (s : ℝ) :
    place (diagonal f) axis s = corner axis + (if axis = 2 then 0 else s / √2) := by
  obtain ⟨r1, r2, -, -⟩ := root
  have h3 : ¬ axis = 3 := by omega
  simp only [place, diagonal, SimplifiedMotion.fresh, h3, if_false, val, corner]
  congr 1
  split
  · simp
  · field_simp

theorem direction_diagonal {f : ℝ} {axis : Nat} (ha : axis < 3) : |(diagonal f).direction axis| = if axis = 2 then 0 else 1 / √2 := by
  obtain ⟨r1, r2, -, -⟩ := root
  have h3 : ¬ axis = 3 := by omega
  simp only [SimplifiedMotion.direction, diagonal, SimplifiedMotion.fresh, h3, or_self, if_false]
  split
  · simp
  · rw [abs_of_pos (by positivity)]; field_simp

theorem slope_diagonal {f : ℝ} {axis : Nat} (ha : axis < 2) (s : ℝ) : slope (diagonal f) axis s = 1 / √2 := by
  obtain ⟨r1, r2, -, -⟩ := root
  have h3 : ¬ axis = 3 := by omega
  have h2 : ¬ axis = 2 := by omega
  simp only [slope, diagonal, SimplifiedMotion.fresh, h3, h2, if_false, val]
  field_simp

theorem executable_diagonal {f : ℝ} : Executable cnc3axis.n (diagonal f) where
  moves :=
    { type := rfl
      length := rfl
      pos := by show (0 : ℝ) < 60 * √2; have := root.2.1; positivity
      delta := fun _ _ => ⟨_, rfl⟩
      radius := ⟨0, rfl, fun i hi h => by
        have : cnc3axis.n = 3 := rfl
        simp [diagonal, SimplifiedMotion.fresh] at h; omega⟩
      some := ⟨0, by decide, Or.inr (Or.inr ⟨60, by norm_num, rfl⟩)⟩ }
  start _ _ := ⟨_, rfl⟩
  arc h := by simp [diagonal, SimplifiedMotion.fresh, cnc3axis] at h

theorem allowed_diagonal {f v : ℝ} (h0 : 0 < v) (hv : v ≤ 30 * √2) : Allowed cnc3axis (diagonal f) v (200 * √2) := by
  obtain ⟨r1, r2, -, -⟩ := root
  have hn : ∀ axis, axis < cnc3axis.n → axis < 3 := fun _ h => h
  refine ⟨h0, by positivity, ?_, ?_, ?_, ?_⟩
  · intro axis ha; rw [direction_diagonal (hn _ ha)]; show _ ≤ (30 : ℝ)
    split
    · norm_num
    · rw [mul_one_div, div_le_iff₀ r2]; exact hv
  · intro axis ha; rw [direction_diagonal (hn _ ha)]; show _ ≤ (200 : ℝ)
    split
    · norm_num
    · field_simp; exact le_rfl
  · intro axis ha; rw [direction_diagonal (hn _ ha)]; show _ ≤ -(-200 : ℝ)
    split
    · norm_num
    · rw [neg_neg]; field_simp; exact le_rfl
  · intro axis ha h
    have := hn _ ha
    simp [diagonal, SimplifiedMotion.fresh] at h
    omega

private theorem feed_diagonal {f : ℝ} : (diagonal f).vFeed * fin 1 = fin f := by
  show fin f * fin 1 = fin f
  rw [fin_mul, mul_one]

private theorem faster {f : ℝ} (hf : 20 ≤ f) : (fin 20).le ((diagonal f).vFeed * fin 1) = true := by
  rw [feed_diagonal, le_fin, decide_eq_true_eq]; exact hf

private theorem enough {f : ℝ} : (20 : ℝ) ^ 2 ≤ 200 * √2 * val (diagonal f).trajectory.length := by
  obtain ⟨r1, r2, r3, -⟩ := root
  show (20 : ℝ) ^ 2 ≤ 200 * √2 * (60 * √2)
  nlinarith

/-- The diagonal traverse on a new controller. -/
theorem performs_diagonal {f : ℝ} (hf : 20 ≤ f) (n : Nat) : ∃ c c' logp log,
    (fresh cnc3axis.kit).run [.configure 375 (fin (1 / 60000))] = some (c, logp) ∧ c.overrides.feedOverride = fin 1 ∧
    (∀ a, c.machinePosition a = 0) ∧
    Performs cnc3axis (1 / 60000) corner c [diagonal f] (List.replicate n .calculate) c' log := by
  obtain ⟨r1, r2, r3, r4⟩ := root
  obtain ⟨c', log, hrun, -⟩ := motion_history_returns (K := cnc3axis.kit)
    ([.configure 375 (fin (1 / 60000))] ++ (([diagonal f].map (push cnc3axis) ++ [.start]) ++ List.replicate n .calculate))
  obtain ⟨c₁, l₁, l₂, h1, h2, -⟩ := run_split (K := cnc3axis.kit) _ _ hrun
  obtain ⟨c₀, l₃, l₄, h3, h4, -⟩ := run_split (K := cnc3axis.kit) _ _ h2
  have h1' := h1
  simp only [run, call, Option.map_some, Option.some.injEq, Prod.mk.injEq] at h1'
  obtain ⟨rfl, rfl⟩ := h1'
  have hn : ∀ axis, axis < cnc3axis.n → axis < 3 := fun _ h => h
  have hfeed : (fresh cnc3axis.kit |>.configure 375 (fin (1 / 60000))).overrides.feedOverride = fin 1 := rfl
  have hpos : (fresh cnc3axis.kit |>.configure 375 (fin (1 / 60000))).machinePosition = fun _ => 0 := rfl
  have hprog : program (M := cnc3axis) (fin 1) [diagonal f] (List.replicate n .calculate) = [((diagonal f), (diagonal f).vFeed * fin 1)] := by
    show [((diagonal f), (diagonal f).vFeed * fin 1)] ++ requested (M := cnc3axis) _ _ = _
    rw [requested_calculate]; rfl
  refine ⟨_, c', _, l₄, h1, rfl, fun _ => rfl, by constructor <;> intros <;> norm_num [cnc3axis],
    ⟨by norm_num, by norm_num [cnc3axis], fun _ _ => by norm_num [cnc3axis],
    fun _ _ => by norm_num [travel, cnc3axis]⟩, idle_configured cnc3axis 375 (1 / 60000), by simp, by simp,
    by simpa using executable_diagonal, ?_, ?_, ⟨c₀, l₃, h3, feeds_calculate _ _, h4⟩, ?_, ?_⟩
  · intro r hr
    rw [List.mem_singleton.1 hr, hfeed, feed_diagonal]
    show (0 : ℝ) < f; linarith
  · intro axis ha; rw [hpos]
    unfold corner
    split <;> norm_num [cnc3axis, travel, abs_le]
  · rw [hfeed, hprog]
    refine ⟨fun axis ha => ?_, trivial⟩
    rw [place_diagonal (hn _ ha)]
    simp
  · rw [hfeed, hprog]
    intro x hx
    rw [List.mem_singleton.1 hx]
    refine ⟨⟨0, by decide, by norm_num [cnc3axis], 60 * √2, by positivity, le_rfl, ?_⟩, ⟨20, 200 * √2, allowed_diagonal (by norm_num) (by linarith), faster hf,
      enough, ?_⟩, ?_⟩
    · rw [place_diagonal (by decide), place_diagonal (by decide)]
      simp only [corner]
      norm_num [cnc3axis]
    · show 2 * (60 * √2) / 20 + 1 / 60000 < 2 ^ 32 * (1 / 60000)
      linarith
    · intro axis ha s h0 hs
      change s ≤ 60 * √2 at hs
      rw [place_diagonal (hn _ ha)]
      unfold Machine.InRange
      have hb : 0 ≤ s / √2 ∧ s / √2 ≤ 60 := ⟨by positivity, by rw [div_le_iff₀ r2]; exact hs⟩
      have hc : 0 ≤ corner axis ∧ corner axis ≤ 1 := by unfold corner; split <;> norm_num
      have he : cnc3axis.stepsPerMm axis = 200 := rfl
      have hh : cnc3axis.hysteresis = 1 / 20 := rfl
      rw [he, abs_le]
      obtain ⟨b1, b2⟩ := hb
      obtain ⟨c1, c2⟩ := hc
      split
      · constructor <;> norm_num [cnc3axis] <;> linarith
      · constructor <;> norm_num [cnc3axis] <;> linarith

/-- The traverse keeps its full speed for some time. -/
theorem cruise_diagonal {j : Job} (hj : j.Ok cnc3axis) (hr : j.r = diagonal 100) (hf : j.f = fin 100) :
    ∃ a b, 0 < a ∧ a ≤ 3 / 5 ∧ a + 4 / 5 ≤ b ∧ b ≤ j.T ∧ (∀ t, a ≤ t → t ≤ b → j.V t = 30 * √2) ∧
      ∀ t, a ≤ t → t ≤ b → j.S t = j.S a + 30 * √2 * (t - a) := by
  obtain ⟨r1, r2, r3, r4⟩ := root
  have hL : j.L = 60 * √2 := by unfold Job.L; rw [hr]; rfl
  have hlip : ∀ x y, 0 ≤ x → x ≤ y → y ≤ j.T → j.S y - j.S x ≤ 30 * √2 * (y - x) := by
    intro x y h0 hxy hy
    have h1 := hj.speed 0 (by decide) x y h0 hxy hy
    rw [hr, place_diagonal (by decide), place_diagonal (by decide)] at h1
    simp only [show ¬ (0 = 2) by decide, if_false, add_sub_add_left_eq_sub] at h1
    have h2 := (le_abs_self _).trans h1
    change _ ≤ (30 : ℝ) * (y - x) at h2
    rw [← sub_div, div_le_iff₀ r2] at h2
    linarith
  have hT : 2 ≤ j.T := by
    have h1 := hlip 0 j.T le_rfl hj.pos.le le_rfl
    rw [hj.finish, hj.start, hL] at h1
    by_contra hc
    have : 30 * √2 * (j.T - 0) < 30 * √2 * 2 := mul_lt_mul_of_pos_left (by linarith) (by positivity)
    linarith
  obtain ⟨a, b, h0, hab, hb, m1, m2, m3, m4⟩ := hj.shape
  obtain ⟨t, t0, t1, ht⟩ := hj.full
  have htop := ht (30 * √2) (200 * √2) (by rw [hr]; exact allowed_diagonal (by positivity) le_rfl)
    (by rw [hf, le_fin, decide_eq_true_eq]; linarith) (by
      rw [hL]; nlinarith)
  have hmax : j.V t ≤ j.V a := by
    rcases le_total t a with c | c
    · exact m1 t a t0 c le_rfl
    · rcases le_total t b with c' | c'
      · exact (m2 t c c').le
      · exact (m3 b t le_rfl c' t1).trans (m2 b hab le_rfl).le
  have hVa : 30 * √2 ≤ j.V a := htop.trans hmax
  have ha0 : 0 < a := by
    rcases h0.lt_or_eq with c | c
    · exact c
    · rw [← c, hj.atRest.1] at hVa; nlinarith
  have haT : a < j.T := by
    refine lt_of_le_of_ne (hab.trans hb) fun c => ?_
    rw [c, hj.atRest.2] at hVa; nlinarith
  have hVa' : j.V a ≤ 30 * √2 := by
    have hd := hj.rate a ha0 haT
    have := hd.le_of_lip' (C := 30 * √2) (by positivity) ?_
    · exact (Real.le_norm_self _).trans this
    · filter_upwards [Ioo_mem_nhds ha0 haT] with x hx
      rw [Real.norm_eq_abs, Real.norm_eq_abs]
      rcases le_total x a with c | c
      · have h1 := hlip x a hx.1.le c haT.le
        have h2 := hj.forward x a hx.1.le c haT.le
        rw [abs_of_nonpos (by linarith), abs_of_nonpos (by linarith)]; linarith
      · have h1 := hlip a x ha0.le c hx.2.le
        have h2 := hj.forward a x ha0.le c hx.2.le
        rw [abs_of_nonneg (by linarith), abs_of_nonneg (by linarith)]; exact h1
  have hV : j.V a = 30 * √2 := le_antisymm hVa' hVa
  obtain ⟨b1, b2⟩ := m4 (30 * √2) (200 * √2) (by rw [hr]; exact allowed_diagonal (by positivity) le_rfl)
  have hbound : 2 * max (√(j.V a / cnc3axis.jMax)) (j.V a / (200 * √2)) ≤ 3 / 5 := by
    rw [hV]
    have : max (√(30 * √2 / cnc3axis.jMax)) (30 * √2 / (200 * √2)) ≤ 3 / 10 := by
      refine max_le ?_ ?_
      · refine Real.sqrt_le_iff.2 ⟨by norm_num, ?_⟩
        show 30 * √2 / 600 ≤ (3 / 10 : ℝ) ^ 2
        linarith
      · rw [div_le_iff₀ (by positivity)]; linarith
    linarith
  refine ⟨a, b, ha0, b1.trans hbound, by linarith, hb, fun t h1 h2 => (m2 t h1 h2).trans hV, fun t h1 h2 => ?_⟩
  have hder : ∀ x ∈ interior (Icc a b), HasDerivAt j.S (30 * √2) x := by
    intro x hx
    rw [interior_Icc] at hx
    have := hj.rate x (by linarith [hx.1]) (by linarith [hx.2])
    rw [m2 x hx.1.le hx.2.le, hV] at this
    exact this
  have u1 := (convex_Icc a b).image_sub_le_mul_sub_of_deriv_le (f := j.S) (C := 30 * √2) hj.smooth.continuousOn
    (fun x hx => (hder x hx).differentiableAt.differentiableWithinAt) (fun x hx => (hder x hx).deriv.le)
    a (left_mem_Icc.2 hab) t ⟨h1, h2⟩ h1
  have u2 := (convex_Icc a b).mul_sub_le_image_sub_of_le_deriv (f := j.S) (C := 30 * √2) hj.smooth.continuousOn
    (fun x hx => (hder x hx).differentiableAt.differentiableWithinAt) (fun x hx => (hder x hx).deriv.ge)
    a (left_mem_Icc.2 hab) t ⟨h1, h2⟩ h1
  linarith

/-- An axis that moves a tenth of a step per tick, from tick `A` on; `p k` is its position counter before tick `k`. -/
structure Steady (l : List Cmd) (p : Nat → Int) (u : ℝ) (A : Nat) : Prop where
  len : A + 748 ≤ l.length
  next : ∀ k (h : k < l.length), p (k + 1) = p k + stepsOf l[k]
  band : ∀ k, A ≤ k → k ≤ A + 747 → |u + k / 10 - p k| ≤ 11 / 20
  fwd : ∀ k (h : k < l.length), A ≤ k → k ≤ A + 746 → l[k] = some .forward → (p k : ℝ) + 11 / 20 ≤ u + (k + 1) / 10
  bwd : ∀ k (h : k < l.length), A ≤ k → k ≤ A + 746 → l[k] = some .backward → u + (k + 1) / 10 ≤ (p k : ℝ) - 11 / 20

/-- The ticks with a step. -/
def ticksIn (l : List Cmd) (A : Nat) : Finset Nat := (Finset.Icc A (A + 746)).filter fun k => (l[k]?.join).isSome = true

theorem mem_ticksIn {l : List Cmd} {A k : Nat} (h : k < l.length) : k ∈ ticksIn l A ↔ (A ≤ k ∧ k ≤ A + 746) ∧ l[k].isSome = true := by
  simp [ticksIn, List.getElem?_eq_getElem h]

/-- A step is made when the axis is half way between two positions. -/
theorem Steady.at {l : List Cmd} {p : Nat → Int} {u : ℝ} {A : Nat} (h : Steady l p u A) {k : Nat} (hk : k ∈ ticksIn l A) :
    (p k : ℝ) + 9 / 20 ≤ u + k / 10 ∧ u + k / 10 ≤ p k + 11 / 20 := by
  have hr := (Finset.mem_filter.1 hk).1
  rw [Finset.mem_Icc] at hr
  have hlen := h.len
  have hl : k < l.length := by omega
  have hs := ((mem_ticksIn hl).1 hk).2
  have hb := abs_le.1 (h.band k hr.1 (by omega))
  obtain ⟨d, hd⟩ := Option.isSome_iff_exists.1 hs
  cases d with
  | forward =>
    have := h.fwd k hl hr.1 hr.2 hd
    exact ⟨by linarith, by linarith [hb.2]⟩
  | backward =>
    have := h.bwd k hl hr.1 hr.2 hd
    exfalso; linarith [hb.1]

theorem Steady.apart {l : List Cmd} {p : Nat → Int} {u : ℝ} {A : Nat} (h : Steady l p u A) {k : Nat} (hk : k ∈ ticksIn l A) :
    k + 1 ∉ ticksIn l A := by
  intro hk'
  have h1 := h.at hk
  have h2 := h.at hk'
  have hr := (Finset.mem_filter.1 hk).1
  rw [Finset.mem_Icc] at hr
  have hlen := h.len
  have hl : k < l.length := by omega
  have hs := ((mem_ticksIn hl).1 hk).2
  have hb := abs_le.1 (h.band k hr.1 (by omega))
  obtain ⟨d, hd⟩ := Option.isSome_iff_exists.1 hs
  have hn := h.next k hl
  push_cast at h2
  cases d with
  | forward =>
    rw [hd] at hn
    have : (p (k + 1) : ℝ) = p k + 1 := by rw [hn]; simp [stepsOf]
    rw [this] at h2
    linarith [h1.2, h2.1]
  | backward =>
    have := h.bwd k hl hr.1 hr.2 hd
    linarith [hb.1]

theorem Steady.count {l : List Cmd} {p : Nat → Int} {u : ℝ} {A : Nat} (h : Steady l p u A) : 74 ≤ (ticksIn l A).card := by
  have hlen := h.len
  have key : ∀ n, n ≤ 747 → p (A + n) - p A ≤ (((Finset.Ico A (A + n)).filter fun k => (l[k]?.join).isSome = true).card : Int) := by
    intro n
    induction n with
    | zero => intro _; simp
    | succ n ih =>
      intro hn
      have h1 := ih (by omega)
      have hl : A + n < l.length := by omega
      have h2 := h.next (A + n) hl
      rw [← Nat.add_assoc, ← Finset.insert_Ico_right_eq_Ico_add_one (by omega : A ≤ A + n), Finset.filter_insert]
      by_cases hs : (l[A + n]?.join).isSome = true
      · rw [if_pos hs, Finset.card_insert_of_notMem (by simp)]
        have : stepsOf l[A + n] ≤ 1 := by
          cases l[A + n] with
          | none => simp [stepsOf]
          | some d => cases d <;> simp [stepsOf]
        push_cast
        omega
      · rw [if_neg hs]
        have : l[A + n] = none := by simpa [List.getElem?_eq_getElem hl] using hs
        rw [this] at h2
        simp only [stepsOf] at h2
        omega
  have h1 := key 747 le_rfl
  have e : (Finset.Ico A (A + 747)).filter (fun k => (l[k]?.join).isSome = true) = ticksIn l A := by
    unfold ticksIn; congr 1
  rw [e] at h1
  have b1 := abs_le.1 (h.band A le_rfl (by omega))
  have b2 := abs_le.1 (h.band (A + 747) (by omega) le_rfl)
  push_cast at b2
  have h3 : ((73 : Int) : ℝ) < p (A + 747) - p A := by push_cast; linarith [b1.1, b2.2]
  have h4 : (73 : Int) < p (A + 747) - p A := by exact_mod_cast h3
  omega

/-- Two axes, half a step apart: their steps are never on the same tick nor on adjacent ones. -/
theorem Steady.between {l l' : List Cmd} {p p' : Nat → Int} {u : ℝ} {A : Nat} (h : Steady l p u A) (h' : Steady l' p' (1 / 2 + u) A)
    {k k' : Nat} (hk : k ∈ ticksIn l A) (hk' : k' ∈ ticksIn l' A) : k ≠ k' ∧ k + 1 ≠ k' ∧ k' + 1 ≠ k := by
  have h1 := h.at hk
  have h2 := h'.at hk'
  have key : ¬ (|(k : ℝ) - k'| ≤ 1) := by
    intro hc
    have hc := abs_le.1 hc
    have c1 : ((-1 : Int) : ℝ) < p k - p' k' := by push_cast; linarith [h1.2, h2.1]
    have c2 : (p k : ℝ) - p' k' < ((0 : Int) : ℝ) := by push_cast; linarith [h1.1, h2.2]
    have d1 : (-1 : Int) < p k - p' k' := by exact_mod_cast c1
    have d2 : p k - p' k' < (0 : Int) := by exact_mod_cast c2
    omega
  refine ⟨fun e => key ?_, fun e => key ?_, fun e => key ?_⟩
  · rw [e]; simp
  · rw [← e]; push_cast; rw [abs_le]; constructor <;> linarith
  · rw [← e]; push_cast; rw [abs_le]; constructor <;> linarith

end Moovr.Props
