import Verif.Lemmas.Plan
/-!
# What `motion::limit` computes
-/
namespace Moovr
open Num

/-- Directions and radius of a trajectory as real numbers. -/
structure Trajectory.Dirs (n : Nat) (t : Trajectory) (u : Nat → ℝ) (rho : ℝ) : Prop where
  dir : ∀ i, i < n → t.directionUnitVector i = fin (u i)
  radius : t.radius = fin rho
  pos : ∀ i, i < n → (i = t.arcAxis0 ∨ i = t.arcAxis1) → 0 < rho

/-- An upper limit: infinite, or a positive number. -/
inductive UpLim (ok : ℝ → Prop) (attained : ℝ → Prop) (free : Prop) : Num → Prop
  | inf : free → UpLim ok attained free posInf
  | val (x : ℝ) : 0 < x → ok x → attained x → UpLim ok attained free (fin x)

/-- One more bound on a limit. -/
theorem UpLim.step {ok ok' att att' : ℝ → Prop} {free free' : Prop} {x : Num} (h : UpLim ok att free x) {w : Num}
    (hw : w = posInf ∨ ∃ y, 0 < y ∧ w = fin y)
    (hok1 : w = posInf → ∀ z, ok z → ok' z)
    (hok2 : ∀ y z, 0 < z → w = fin y → z ≤ y → (free ∨ ∃ z', z ≤ z' ∧ ok z') → ok' z)
    (hatt1 : ∀ z, att z → att' z) (hatt2 : ∀ y, w = fin y → att' y) (hfree : w = posInf → free → free') :
    UpLim ok' att' free' (if w.lt x then w else x) := by
  cases h with
  | inf hf =>
    rcases hw with rfl | ⟨y, hy, rfl⟩
    · simp only [Num.lt]; exact .inf (hfree rfl hf)
    · simp only [Num.lt, if_true]
      exact .val y hy (hok2 y y hy rfl le_rfl (Or.inl hf)) (hatt2 y rfl)
  | val z hz hzok hzatt =>
    rcases hw with rfl | ⟨y, hy, rfl⟩
    · simp only [Num.lt]; exact .val z hz (hok1 rfl z hzok) (hatt1 z hzatt)
    · rw [lt_fin]
      by_cases hc : y < z
      · simp only [hc, decide_true, if_true]
        exact .val y hy (hok2 y y hy rfl le_rfl (Or.inr ⟨z, hc.le, hzok⟩)) (hatt2 y rfl)
      · simp only [hc, decide_false, Bool.false_eq_true, if_false]
        exact .val z hz (hok2 y z hz rfl (not_lt.1 hc) (Or.inr ⟨z, le_rfl, hzok⟩)) (hatt1 z hzatt)

/-- `|x / u|`. -/
theorem absDiv (x u : ℝ) (hx : x ≠ 0) :
    (u = 0 ∧ (fin x / fin u).abs = posInf) ∨ (u ≠ 0 ∧ (fin x / fin u).abs = fin (|x| / |u|) ∧ 0 < |x| / |u|) := by
  by_cases hu : u = 0
  · left
    subst hu
    refine ⟨rfl, ?_⟩
    rw [fin_div_zero, infOfSign]
    rcases lt_or_gt_of_ne hx with h | h
    · rw [if_neg (by linarith), if_pos h]; rfl
    · rw [if_pos h]; rfl
  · right
    refine ⟨hu, ?_, by positivity⟩
    rw [fin_div hu, abs_fin, abs_div]

/-- The limits after some axes. -/
structure LimInv (M : Machine) (t : Trajectory) (u : Nat → ℝ) (rho : ℝ) (k : Nat) (p₀ p : Profile) : Prop where
  a : UpLim (fun x => ∀ i, i < k → x * |u i| ≤ M.aMax i) (fun x => ∃ i, i < k ∧ u i ≠ 0 ∧ x * |u i| = M.aMax i)
    (∀ i, i < k → u i = 0) p.aMax
  d : UpLim (fun x => ∀ i, i < k → x * |u i| ≤ -M.dMax i) (fun x => ∃ i, i < k ∧ u i ≠ 0 ∧ x * |u i| = -M.dMax i)
    (∀ i, i < k → u i = 0) (-p.dMax)
  v : UpLim (fun x => (∀ i, i < k → x * |u i| ≤ M.vMax i) ∧
      ∀ i, i < k → (i = t.arcAxis0 ∨ i = t.arcAxis1) → x ^ 2 ≤ M.aMax i * rho)
    (fun x => (∃ i, i < k ∧ u i ≠ 0 ∧ x * |u i| = M.vMax i) ∨
      ∃ i, i < k ∧ (i = t.arcAxis0 ∨ i = t.arcAxis1) ∧ x ^ 2 = M.aMax i * rho)
    (∀ i, i < k → u i = 0 ∧ ¬ (i = t.arcAxis0 ∨ i = t.arcAxis1)) p.vMax
  left : p.left = p₀.left
  right : p.right = p₀.right
  mid : p.mid = p₀.mid
  duration : p.duration = p₀.duration
  tStop : p.tStop = p₀.tStop
  vFeed : p.vFeed = p₀.vFeed

theorem neg_abs_neg (x : Num) : -(-x) = x := by
  rcases x with x | _ | _ | _
  · show fin (- -x) = _; rw [neg_neg]
  all_goals rfl

theorem limitAxis_fields (M : Machine) (t : Trajectory) (p : Profile) (k : Nat) :
    (p.limitAxis M t k).vMax =
      (let x := if k = t.arcAxis0 ∨ k = t.arcAxis1 then
          (if ((fin (M.aMax k) * t.radius).sqrt).lt p.vMax then (fin (M.aMax k) * t.radius).sqrt else p.vMax) else p.vMax
       if ((fin (M.vMax k) / t.directionUnitVector k).abs).lt x then (fin (M.vMax k) / t.directionUnitVector k).abs
       else x) ∧
    (p.limitAxis M t k).aMax = (if ((fin (M.aMax k) / t.directionUnitVector k).abs).lt p.aMax
      then (fin (M.aMax k) / t.directionUnitVector k).abs else p.aMax) ∧
    (p.limitAxis M t k).dMax = (if ((fin (M.dMax k) / t.directionUnitVector k).abs).lt p.dMax.abs
      then -(fin (M.dMax k) / t.directionUnitVector k).abs else p.dMax) ∧
    (p.limitAxis M t k).left = p.left ∧ (p.limitAxis M t k).right = p.right ∧ (p.limitAxis M t k).mid = p.mid ∧
    (p.limitAxis M t k).duration = p.duration ∧ (p.limitAxis M t k).tStop = p.tStop ∧
    (p.limitAxis M t k).vFeed = p.vFeed := by
  unfold Profile.limitAxis
  simp only [apply_ite Profile.vMax, apply_ite Profile.aMax, apply_ite Profile.dMax, apply_ite Profile.left,
    apply_ite Profile.right, apply_ite Profile.mid, apply_ite Profile.duration, apply_ite Profile.tStop,
    apply_ite Profile.vFeed, ite_self, and_self]

theorem limInv_zero (M : Machine) (t : Trajectory) (u : Nat → ℝ) (rho : ℝ) (p : Profile) :
    LimInv M t u rho 0 p { p with vMax := posInf, aMax := posInf, dMax := negInf } :=
  ⟨.inf (by simp), .inf (by simp), .inf (by simp), rfl, rfl, rfl, rfl, rfl, rfl⟩

theorem limInv_step {M : Machine} (hM : M.Ok) {t : Trajectory} {u : Nat → ℝ} {rho : ℝ} (ht : t.Dirs M.n u rho) {k : Nat}
    (hk : k < M.n) {p₀ p : Profile} (h : LimInv M t u rho k p₀ p) : LimInv M t u rho (k + 1) p₀ (p.limitAxis M t k) := by
  obtain ⟨ev, ea, ed, el, er, em, edu, ets, evf⟩ := limitAxis_fields M t p k
  have hlt : ∀ {i}, i < k + 1 → i < k ∨ i = k := fun hi => by omega
  have ha := hM.aMax k hk; have hd := hM.dMax k hk; have hv := hM.vMax k hk
  constructor
  · rw [ea, ht.dir k hk]
    refine h.a.step ?_ ?_ ?_ ?_ ?_ ?_
    · rcases absDiv (M.aMax k) (u k) ha.ne' with ⟨_, e⟩ | ⟨_, e, hp⟩
      · exact Or.inl e
      · exact Or.inr ⟨_, hp, e⟩
    · intro e z hz i hi
      rcases hlt hi with hi | rfl
      · exact hz i hi
      · rcases absDiv (M.aMax i) (u i) ha.ne' with ⟨hu, _⟩ | ⟨_, e', _⟩
        · rw [hu]; simpa using ha.le
        · rw [e'] at e; cases e
    · intro y z hz0 e hzy hz i hi
      rcases hlt hi with hi | rfl
      · rcases hz with hf | ⟨z', hz', hok⟩
        · rw [hf i hi]; simpa using (hM.aMax i (by omega)).le
        · exact (mul_le_mul_of_nonneg_right hz' (abs_nonneg _)).trans (hok i hi)
      · rcases absDiv (M.aMax i) (u i) ha.ne' with ⟨_, e'⟩ | ⟨hu, e', _⟩
        · rw [e'] at e; cases e
        · rw [e'] at e
          have := fin_injective e
          rw [abs_of_pos ha] at this
          rw [← this, le_div_iff₀ (abs_pos.2 hu)] at hzy
          exact hzy
    · rintro z ⟨i, hi, h1, h2⟩; exact ⟨i, by omega, h1, h2⟩
    · intro y e
      rcases absDiv (M.aMax k) (u k) ha.ne' with ⟨_, e'⟩ | ⟨hu, e', _⟩
      · rw [e'] at e; cases e
      · rw [e'] at e
        refine ⟨k, by omega, hu, ?_⟩
        rw [← fin_injective e, abs_of_pos ha, div_mul_cancel₀ _ (abs_ne_zero.2 hu)]
    · intro e hf i hi
      rcases hlt hi with hi | rfl
      · exact hf i hi
      · rcases absDiv (M.aMax i) (u i) ha.ne' with ⟨hu, _⟩ | ⟨_, e', _⟩
        · exact hu
        · rw [e'] at e; cases e
  · have e0 : -(p.limitAxis M t k).dMax = if ((fin (M.dMax k) / fin (u k)).abs).lt (-p.dMax)
        then (fin (M.dMax k) / fin (u k)).abs else -p.dMax := by
      rw [ed, ht.dir k hk]
      have habs : p.dMax.abs = -p.dMax := by
        have hd' := h.d
        rcases hx : p.dMax with x | _ | _ | _
        · rw [hx] at hd'
          cases hd' with
          | val y hy _ _ => rw [abs_fin, fin_neg, abs_of_neg (by linarith)]
        · rw [hx] at hd'; cases hd'
        · rfl
        · rfl
      rw [habs]
      split_ifs
      · exact neg_abs_neg _
      · rfl
    rw [e0]
    have habs : |M.dMax k| = -M.dMax k := abs_of_neg hd
    refine h.d.step ?_ ?_ ?_ ?_ ?_ ?_
    · rcases absDiv (M.dMax k) (u k) hd.ne with ⟨_, e⟩ | ⟨_, e, hp⟩
      · exact Or.inl e
      · exact Or.inr ⟨_, hp, e⟩
    · intro e z hz i hi
      rcases hlt hi with hi | rfl
      · exact hz i hi
      · rcases absDiv (M.dMax i) (u i) hd.ne with ⟨hu, _⟩ | ⟨_, e', _⟩
        · rw [hu]; simp only [abs_zero, mul_zero]; linarith
        · rw [e'] at e; cases e
    · intro y z hz0 e hzy hz i hi
      rcases hlt hi with hi | rfl
      · rcases hz with hf | ⟨z', hz', hok⟩
        · rw [hf i hi]; simp only [abs_zero, mul_zero]; linarith [hM.dMax i (by omega)]
        · exact (mul_le_mul_of_nonneg_right hz' (abs_nonneg _)).trans (hok i hi)
      · rcases absDiv (M.dMax i) (u i) hd.ne with ⟨_, e'⟩ | ⟨hu, e', _⟩
        · rw [e'] at e; cases e
        · rw [e'] at e
          have := fin_injective e
          rw [habs] at this
          rw [← this, le_div_iff₀ (abs_pos.2 hu)] at hzy
          exact hzy
    · rintro z ⟨i, hi, h1, h2⟩; exact ⟨i, by omega, h1, h2⟩
    · intro y e
      rcases absDiv (M.dMax k) (u k) hd.ne with ⟨_, e'⟩ | ⟨hu, e', _⟩
      · rw [e'] at e; cases e
      · rw [e'] at e
        refine ⟨k, by omega, hu, ?_⟩
        rw [← fin_injective e, habs, div_mul_cancel₀ _ (abs_ne_zero.2 hu)]
    · intro e hf i hi
      rcases hlt hi with hi | rfl
      · exact hf i hi
      · rcases absDiv (M.dMax i) (u i) hd.ne with ⟨hu, _⟩ | ⟨_, e', _⟩
        · exact hu
        · rw [e'] at e; cases e
  · rw [ev, ht.dir k hk]
    -- the radial bound first
    have h1 : UpLim (fun x => (∀ i, i < k → x * |u i| ≤ M.vMax i) ∧
          ∀ i, i < k + 1 → (i = t.arcAxis0 ∨ i = t.arcAxis1) → x ^ 2 ≤ M.aMax i * rho)
        (fun x => (∃ i, i < k ∧ u i ≠ 0 ∧ x * |u i| = M.vMax i) ∨
          ∃ i, i < k + 1 ∧ (i = t.arcAxis0 ∨ i = t.arcAxis1) ∧ x ^ 2 = M.aMax i * rho)
        ((∀ i, i < k → u i = 0) ∧ ∀ i, i < k + 1 → ¬ (i = t.arcAxis0 ∨ i = t.arcAxis1))
        (if k = t.arcAxis0 ∨ k = t.arcAxis1 then
          (if ((fin (M.aMax k) * t.radius).sqrt).lt p.vMax then (fin (M.aMax k) * t.radius).sqrt else p.vMax)
          else p.vMax) := by
      by_cases harc : k = t.arcAxis0 ∨ k = t.arcAxis1
      · rw [if_pos harc, ht.radius, fin_mul]
        have hr := ht.pos k hk harc
        have hpos : 0 < M.aMax k * rho := mul_pos ha hr
        rw [sqrt_fin hpos.le]
        refine h.v.step (Or.inr ⟨_, Real.sqrt_pos.2 hpos, rfl⟩) (fun e => by cases e) ?_ ?_ ?_ (fun e => by cases e)
        · intro y z hz0 e hzy hz
          have hy := fin_injective e
          refine ⟨fun i hi => ?_, fun i hi hia => ?_⟩
          · rcases hz with hf | ⟨z', hz', hok⟩
            · rw [(hf i hi).1]; simpa using (hM.vMax i (by omega)).le
            · exact (mul_le_mul_of_nonneg_right hz' (abs_nonneg _)).trans (hok.1 i hi)
          · rcases hlt hi with hi | rfl
            · rcases hz with hf | ⟨z', hz', hok⟩
              · exact absurd hia (hf i hi).2
              · exact (pow_le_pow_left₀ hz0.le hz' 2).trans (hok.2 i hi hia)
            · rw [← hy] at hzy
              exact (pow_le_pow_left₀ hz0.le hzy 2).trans (Real.sq_sqrt hpos.le).le
        · rintro z (⟨i, hi, h1, h2⟩ | ⟨i, hi, h1, h2⟩)
          · exact Or.inl ⟨i, hi, h1, h2⟩
          · exact Or.inr ⟨i, by omega, h1, h2⟩
        · intro y e
          exact Or.inr ⟨k, by omega, harc, by rw [← fin_injective e, Real.sq_sqrt hpos.le]⟩
      · rw [if_neg harc]
        have hv' := h.v
        generalize p.vMax = x at *
        cases hv' with
        | inf hf =>
          refine .inf ⟨fun i hi => (hf i hi).1, fun i hi => ?_⟩
          rcases hlt hi with hi | rfl
          · exact (hf i hi).2
          · exact harc
        | val z hz hok hatt =>
          refine .val z hz ⟨hok.1, fun i hi hia => ?_⟩ ?_
          · rcases hlt hi with hi | rfl
            · exact hok.2 i hi hia
            · exact absurd hia harc
          · rcases hatt with h1 | ⟨i, hi, h1, h2⟩
            · exact Or.inl h1
            · exact Or.inr ⟨i, by omega, h1, h2⟩
    refine h1.step ?_ ?_ ?_ ?_ ?_ ?_
    · rcases absDiv (M.vMax k) (u k) hv.ne' with ⟨_, e⟩ | ⟨_, e, hp⟩
      · exact Or.inl e
      · exact Or.inr ⟨_, hp, e⟩
    · rintro e z ⟨hz, hz2⟩
      refine ⟨fun i hi => ?_, hz2⟩
      rcases hlt hi with hi | rfl
      · exact hz i hi
      · rcases absDiv (M.vMax i) (u i) hv.ne' with ⟨hu, _⟩ | ⟨_, e', _⟩
        · rw [hu]; simpa using hv.le
        · rw [e'] at e; cases e
    · intro y z hz0 e hzy hz
      refine ⟨fun i hi => ?_, fun i hi hia => ?_⟩
      · rcases hlt hi with hi | rfl
        · rcases hz with hf | ⟨z', hz', hok⟩
          · rw [hf.1 i hi]; simpa using (hM.vMax i (by omega)).le
          · exact (mul_le_mul_of_nonneg_right hz' (abs_nonneg _)).trans (hok.1 i hi)
        · rcases absDiv (M.vMax i) (u i) hv.ne' with ⟨_, e'⟩ | ⟨hu, e', _⟩
          · rw [e'] at e; cases e
          · rw [e'] at e
            have := fin_injective e
            rw [abs_of_pos hv] at this
            rw [← this, le_div_iff₀ (abs_pos.2 hu)] at hzy
            exact hzy
      · rcases hz with hf | ⟨z', hz', hok⟩
        · exact absurd hia (hf.2 i hi)
        · exact (pow_le_pow_left₀ hz0.le hz' 2).trans (hok.2 i hi hia)
    · rintro z (⟨i, hi, h1, h2⟩ | ⟨i, hi, h1, h2⟩)
      · exact Or.inl ⟨i, by omega, h1, h2⟩
      · exact Or.inr ⟨i, hi, h1, h2⟩
    · intro y e
      rcases absDiv (M.vMax k) (u k) hv.ne' with ⟨_, e'⟩ | ⟨hu, e', _⟩
      · rw [e'] at e; cases e
      · rw [e'] at e
        refine Or.inl ⟨k, by omega, hu, ?_⟩
        rw [← fin_injective e, abs_of_pos hv, div_mul_cancel₀ _ (abs_ne_zero.2 hu)]
    · intro e hf i hi
      refine ⟨?_, hf.2 i hi⟩
      rcases hlt hi with hi | rfl
      · exact hf.1 i hi
      · rcases absDiv (M.vMax i) (u i) hv.ne' with ⟨hu, _⟩ | ⟨_, e', _⟩
        · exact hu
        · rw [e'] at e; cases e
  · exact el.trans h.left
  · exact er.trans h.right
  · exact em.trans h.mid
  · exact edu.trans h.duration
  · exact ets.trans h.tStop
  · exact evf.trans h.vFeed

theorem limInv_fold {M : Machine} (hM : M.Ok) {t : Trajectory} {u : Nat → ℝ} {rho : ℝ} (ht : t.Dirs M.n u rho) (p : Profile)
    (k : Nat) (hk : k ≤ M.n) : LimInv M t u rho k p
      ((List.range k).foldl (Profile.limitAxis M t) { p with vMax := posInf, aMax := posInf, dMax := negInf }) := by
  induction k with
  | zero => exact limInv_zero M t u rho p
  | succ k ih =>
    rw [List.range_succ, List.foldl_append]
    exact limInv_step hM ht (by omega) (ih (by omega))

/-- What `limit` does. -/
theorem limit_spec {M : Machine} (hM : M.Ok) {t : Trajectory} {u : Nat → ℝ} {rho : ℝ} (ht : t.Dirs M.n u rho) (p : Profile) :
    LimInv M t u rho M.n p (p.limit M t) ∧ (p.limit M t).jMax = fin M.jMax := by
  have h := limInv_fold hM ht p M.n le_rfl
  exact ⟨⟨h.a, h.d, h.v, h.left, h.right, h.mid, h.duration, h.tStop, h.vFeed⟩, rfl⟩

end Moovr
