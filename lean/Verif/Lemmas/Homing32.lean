import Verif.Lemmas.HomingReal
/-! Helper lemmas: what never changes in the main program, for any motion arithmetic. -/
namespace Moovr

namespace MotionCtrl
variable {K : MotionKit} {w : K.Time} {o : K.Ovr}

/-- Overrides and tick width. -/
structure Unchanged (w : K.Time) (o : K.Ovr) (c : MotionCtrl K) : Prop where
  ovr : c.overrides = o
  width : c.time.minStepPulseWidth = w

theorem unchanged_optimize {c : MotionCtrl K} (h : Unchanged w o c) : Unchanged w o c.optimize :=
  have hs := sameButProf_optimize c
  ⟨by rw [hs.ovr]; exact h.ovr, by rw [hs.time]; exact h.width⟩

theorem unchanged_start {c : MotionCtrl K} (h : Unchanged w o c) : Unchanged w o c.start := by
  unfold start
  split
  · exact unchanged_optimize ⟨h.ovr, h.width⟩
  · exact h

theorem unchanged_stop {c : MotionCtrl K} (h : Unchanged w o c) : Unchanged w o c.stop := unchanged_optimize ⟨h.ovr, h.width⟩

theorem unchanged_flush {c : MotionCtrl K} (h : Unchanged w o c) : Unchanged w o c.flushMotionBuffer := by
  unfold flushMotionBuffer
  split
  · exact ⟨h.ovr, h.width⟩
  · exact h

theorem unchanged_append {c : MotionCtrl K} (h : Unchanged w o c) (r : K.Req) : Unchanged w o (c.append r) := by
  unfold append
  split <;> exact ⟨h.ovr, h.width⟩

theorem unchanged_settle (fuel : Nat) : ∀ {c : MotionCtrl K} {r}, Unchanged w o c → settle fuel c = some r → Unchanged w o r.1 := by
  induction fuel with
  | zero => intro c r _ h; simp [settle] at h
  | succ fuel ih =>
    intro c r hc h
    unfold settle at h
    split at h
    · split at h
      · exact ih (c := c.nextMotion) ⟨hc.ovr, hc.width⟩ h
      · simp only [Option.some.injEq] at h
        subst h
        exact ⟨hc.ovr, hc.width⟩
    · simp only [Option.some.injEq] at h
      subst h
      exact ⟨hc.ovr, hc.width⟩

theorem unchanged_tick {c c' : MotionCtrl K} {t} (hc : Unchanged w o c) (h : c.tick = some (c', t)) : Unchanged w o c' := by
  unfold tick at h
  simp only at h
  split at h
  · simp only [Option.map_eq_some_iff, Prod.mk.injEq] at h
    obtain ⟨x, hx, rfl, -⟩ := h
    refine unchanged_settle _ ?_ hx
    unfold sampleAndCheckStop
    simp only
    split <;> exact ⟨hc.ovr, hc.width⟩
  · simp only [Option.some.injEq, Prod.mk.injEq] at h
    obtain ⟨rfl, -⟩ := h
    exact ⟨hc.ovr, hc.width⟩

theorem unchanged_calc {c : MotionCtrl K} {r} (hc : Unchanged w o c) (h : c.calcNext = some r) : Unchanged w o r.1 :=
  (calcLoop_inv (P := fun _ c => Unchanged w o c) (fun _ _ _ h => ⟨h.ovr, h.width⟩) (fun _ _ _ _ h h' => unchanged_tick h h') _
    (k := 0) hc h).1

end MotionCtrl

namespace Board
open MotionCtrl
variable {K : MotionKit} {w : K.Time} {o : K.Ovr}

theorem fill_unchanged (k : Nat) : ∀ {b b' : Board K}, Unchanged w o b.ctrl → b.fill k = some b' → Unchanged w o b'.ctrl := by
  induction k with
  | zero =>
    intro b b' hb h
    simp only [fill, Option.some.injEq] at h
    subst h
    exact hb
  | succ k ih =>
    intro b b' hb h
    unfold fill at h
    split at h
    · cases h
    · rename_i r hr
      exact ih (by rw [withCtrl_ctrl]; exact unchanged_calc hb hr) h

theorem exec_unchanged (t : Target K) {b : Board K} (hb : Unchanged w o b.ctrl) (x : HomingAct) : Unchanged w o (exec t b x).ctrl := by
  cases x <;> simp only [exec]
  case push e => exact hb
  case stop => rw [withCtrl_ctrl]; exact unchanged_stop hb
  case flush => rw [withCtrl_ctrl]; exact unchanged_flush hb
  case append m => rw [withCtrl_ctrl]; exact unchanged_append hb _
  case go => rw [withCtrl_ctrl]; exact unchanged_start hb
  all_goals exact hb

theorem withHomer_unchanged (t : Target K) {b : Board K} (hb : Unchanged w o b.ctrl) (r : Homer × List HomingAct) :
    Unchanged w o (b.withHomer t r).ctrl := by
  unfold withHomer
  have : ∀ (l : List HomingAct) (b : Board K), Unchanged w o b.ctrl → Unchanged w o (l.foldl (exec t) b).ctrl := by
    intro l
    induction l with
    | nil => exact fun _ h => h
    | cons x l ih => exact fun b h => ih _ (exec_unchanged t h x)
  exact this _ _ hb

theorem loop_unchanged (t : Target K) {b b' : Board K} {r : Round} (hb : Unchanged w o b.ctrl) (h : b.loop t r = some b') :
    Unchanged w o b'.ctrl := by
  unfold loop at h
  split at h
  · cases h
  · rename_i b₁ h₁
    simp only [Option.some.injEq] at h
    subst h
    have h1 := fill_unchanged _ hb h₁
    have h2 : Unchanged w o (if r.expired then b₁.sample r.ports else b₁).ctrl := by
      split
      · rw [sample_ctrl]; exact h1
      · exact h1
    generalize (if r.expired then b₁.sample r.ports else b₁) = b₂ at h2
    unfold handle
    simp only
    split
    · exact withHomer_unchanged t (b := (b₂.onQueue .hasEvents).onQueue .pop) h2 _
    · exact h2

theorem loops_unchanged (t : Target K) (rs : List Round) : ∀ {b b' : Board K}, Unchanged w o b.ctrl →
    b.loops t rs = some b' → Unchanged w o b'.ctrl := by
  induction rs with
  | nil =>
    intro b b' hb h
    simp only [loops, Option.some.injEq] at h
    subst h
    exact hb
  | cons r rs ih =>
    intro b b' hb h
    unfold loops at h
    split at h
    · cases h
    · rename_i b₁ h₁
      exact ih (loop_unchanged t hb h₁) h

theorem setup_unchanged (t : Target K) (p : Ports) : Unchanged t.width (MotionCtrl.fresh K).overrides (setup t p).ctrl := by
  unfold setup
  simp only
  refine withHomer_unchanged t ?_ _
  rw [withCtrl_ctrl, withCtrl_ctrl]
  exact ⟨rfl, rfl⟩

end Board
end Moovr
