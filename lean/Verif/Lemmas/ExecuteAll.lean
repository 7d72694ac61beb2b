import Verif.Lemmas.ExecuteRun
/-!
# Executing a program: invariant of whole histories
-/
namespace Moovr
open Num ExecSpec MotionCtrl MotionSpec

/-! ## The schedule -/

theorem rest_mem {js : List Job} {t : ℝ} {j : Job} (h : j ∈ (rest js t).1) : j ∈ js := by
  induction js generalizing t with
  | nil => simp [rest] at h
  | cons a js ih =>
    rw [rest] at h
    split at h
    · exact h
    · exact List.mem_cons_of_mem _ (ih h)

theorem rest_length {js : List Job} {t : ℝ} : (rest js t).1.length ≤ js.length := by
  induction js generalizing t with
  | nil => simp [rest]
  | cons a js ih => rw [rest]; split
                    · rfl
                    · exact ih.trans (by simp)

theorem rest_shift {js : List Job} {t δ : ℝ} (hδ : 0 ≤ δ) {j : Job} {js' : List Job} {u : ℝ} (h : rest js t = (j :: js', u)) :
    rest js (t + δ) = rest (j :: js') (u + δ) := by
  induction js generalizing t with
  | nil => simp [rest] at h
  | cons a js ih =>
    rw [rest] at h
    split at h
    · simp only [Prod.mk.injEq] at h
      rw [← h.1, ← h.2]
    · rename_i ht
      rw [rest, if_neg (by linarith), ← ih h]
      congr 1; ring

theorem rest_done {js : List Job} {t δ : ℝ} (hδ : 0 ≤ δ) (h : (rest js t).1 = []) : (rest js (t + δ)).1 = [] := by
  induction js generalizing t with
  | nil => simp [rest]
  | cons a js ih =>
    rw [rest] at h
    split at h
    · simp at h
    · rename_i ht
      rw [rest, if_neg (by linarith), show t + δ - a.T = t - a.T + δ by ring]
      exact ih h

theorem rest_append {js : List Job} {t : ℝ} {j : Job} {js' : List Job} {u : ℝ} (h : rest js t = (j :: js', u)) (l : List Job) :
    rest (js ++ l) t = (j :: js' ++ l, u) := by
  induction js generalizing t with
  | nil => simp [rest] at h
  | cons a js ih =>
    rw [rest] at h
    rw [List.cons_append, rest]
    split at h
    · rename_i ht
      simp only [Prod.mk.injEq, List.cons.injEq] at h
      obtain ⟨⟨rfl, rfl⟩, rfl⟩ := h
      rw [if_pos ht]; rfl
    · rename_i ht
      rw [if_neg ht]; exact ih h

theorem rest_connected {n : Nat} {d : Nat → ℝ} {js : List Job} {t : ℝ} {j : Job} {js' : List Job} {u : ℝ}
    (h : rest js t = (j :: js', u)) (hc : Connected n d (js.map Job.r)) :
    ∃ d', Connected n d' ((j :: js').map Job.r) := by
  induction js generalizing t d with
  | nil => simp [rest] at h
  | cons a js ih =>
    rw [rest] at h
    split at h
    · simp only [Prod.mk.injEq] at h
      rw [← h.1]; exact ⟨d, hc⟩
    · exact ih h hc.2

theorem placeAt_rest {d : Nat → ℝ} {js : List Job} {t : ℝ} {j : Job} {js' : List Job} {u : ℝ}
    (h : rest js t = (j :: js', u)) : placeAt d js t = fun axis => place j.r axis (j.S u) := by
  induction js generalizing t d with
  | nil => simp [rest] at h
  | cons a js ih =>
    rw [rest] at h
    rw [placeAt]
    split at h
    · rename_i ht
      simp only [Prod.mk.injEq, List.cons.injEq] at h
      rw [if_pos ht, h.1.1, h.2]
    · rename_i ht
      rw [if_neg ht]; exact ih h

theorem placeAt_done {d : Nat → ℝ} {js : List Job} {t : ℝ} (h : (rest js t).1 = []) :
    placeAt d js t = endOf d (js.map Job.r) := by
  induction js generalizing t d with
  | nil => rfl
  | cons a js ih =>
    rw [rest] at h
    rw [placeAt]
    split at h
    · simp at h
    · rename_i ht
      rw [if_neg ht]; exact ih h

theorem endOf_rest {d : Nat → ℝ} {js : List Job} {t : ℝ} {j : Job} {u : ℝ} (h : rest js t = ([j], u)) :
    endOf d (js.map Job.r) = fun axis => place j.r axis j.L := by
  induction js generalizing t d with
  | nil => simp [rest] at h
  | cons a js ih =>
    rw [rest] at h
    split at h
    · simp only [Prod.mk.injEq, List.cons.injEq] at h
      obtain ⟨⟨rfl, rfl⟩, -⟩ := h
      rfl
    · exact ih h

theorem total_cons (j : Job) (js : List Job) : total (j :: js) = j.T + total js := by simp [total]

theorem total_nonneg {js : List Job} (h : ∀ j ∈ js, 0 ≤ j.T) : 0 ≤ total js := by
  induction js with
  | nil => simp [total]
  | cons a js ih =>
    rw [total_cons]
    have := h a List.mem_cons_self
    have := ih fun j hj => h j (List.mem_cons_of_mem _ hj)
    linarith

theorem rest_total {js : List Job} (hne : js ≠ []) (h : ∀ j ∈ js, 0 ≤ j.T) {t : ℝ} :
    (rest js t).1 = [] ↔ total js < t := by
  induction js generalizing t with
  | nil => exact absurd rfl hne
  | cons a js ih =>
    rw [rest, total_cons]
    have h' : ∀ j ∈ js, 0 ≤ j.T := fun j hj => h j (List.mem_cons_of_mem _ hj)
    have := total_nonneg h'
    split
    · simp; linarith
    · rename_i ht
      by_cases hj : js = []
      · subst hj; simp [rest, total]; linarith
      · rw [ih hj h']; constructor <;> intro <;> linarith

theorem connected_append {n : Nat} {d : Nat → ℝ} {l l' : List SimplifiedMotion} (h : Connected n d (l ++ l')) :
    Connected n d l := by
  induction l generalizing d with
  | nil => trivial
  | cons r l ih => exact ⟨h.1, ih h.2⟩

/-! ## Durations -/

/-- A long request takes at least a tick. -/
theorem Job.long_of {M : Machine} {δ : ℝ} {j : Job} (hj : j.Sound M) (hl : Long M δ j.r) : δ ≤ j.T := by
  obtain ⟨axis, ha, hv, s, h0, h1, h2⟩ := hl
  have hr : s ∈ Set.Icc (j.S 0) (j.S j.T) := by rw [hj.start, hj.finish]; exact ⟨h0, h1⟩
  obtain ⟨t, ht, rfl⟩ := intermediate_value_Icc hj.pos.le hj.smooth.continuousOn hr
  have h3 := hj.speed axis ha 0 t le_rfl ht.1 ht.2
  rw [hj.start, sub_zero] at h3
  have h4 : M.vMax axis * δ ≤ M.vMax axis * t := h2.trans h3
  exact (le_of_mul_le_mul_left h4 hv).trans ht.2

theorem Job.short_of {M : Machine} {δ : ℝ} {j : Job} (hj : j.Ok M) (hb : Brief M δ j.r j.f) : j.T + δ < 2 ^ 32 * δ := by
  obtain ⟨v, a, h1, h2, h3, h4⟩ := hb
  have := hj.brisk v a h1 h2 h3
  have : j.T ≤ 2 * j.L / v := by rw [le_div_iff₀ h1.v0]; linarith
  change 2 * j.L / v + δ < _ at h4
  linarith

/-! ## Overrides -/

theorem settle_overrides {K : MotionKit} (fuel : Nat) {c : MotionCtrl K} {r} (h : settle fuel c = some r) :
    r.1.overrides = c.overrides := by
  induction fuel generalizing c with
  | zero => simp [settle] at h
  | succ fuel ih =>
    unfold settle at h
    split at h
    · split at h
      · have := ih h; exact this
      · simp only [Option.some.injEq] at h; rw [← h]; rfl
    · simp only [Option.some.injEq] at h; rw [← h]; rfl

theorem tick_overrides {K : MotionKit} {c c' : MotionCtrl K} {t} (h : c.tick = some (c', t)) : c'.overrides = c.overrides := by
  unfold MotionCtrl.tick at h
  simp only at h
  split at h
  · simp only [Option.map_eq_some_iff, Prod.exists, Prod.mk.injEq] at h
    obtain ⟨c₁, _, _, hs, rfl, -⟩ := h
    have := settle_overrides _ hs
    simp only at this
    rw [this]
    unfold sampleAndCheckStop
    simp only
    split <;> rfl
  · simp only [Option.some.injEq, Prod.mk.injEq] at h
    rw [← h.1]

theorem calcLoop_overrides {K : MotionKit} (fuel : Nat) {c c' : MotionCtrl K} {e ts}
    (h : MotionCtrl.calcLoop fuel c = some (c', e, ts)) : c'.overrides = c.overrides := by
  induction fuel generalizing c c' e ts with
  | zero => simp [MotionCtrl.calcLoop] at h
  | succ fuel ih =>
    unfold MotionCtrl.calcLoop at h
    split at h
    · simp at h
    · rename_i c₁ x hx
      have h1 := tick_overrides hx
      split at h
      · simp only [Option.some.injEq, Prod.mk.injEq] at h
        rw [← h.1]; exact h1
      · simp only [Option.map_eq_some_iff, Prod.exists, Prod.mk.injEq] at h
        obtain ⟨c₂, e₂, ts₂, h2, rfl, rfl, rfl⟩ := h
        exact (ih h2).trans h1

/-! ## The invariant -/

/-- After time `t` of the jobs `js`, begun at `d`. -/
def Exec (M : Machine) (δ : ℝ) (E d : Nat → ℝ) (js : List Job) (t : ℝ) (c : MotionCtrl M.kit) : Prop :=
  match rest js t with
  | ([], _) => Finished M δ (endOf d (js.map Job.r)) c
  | (j :: js', u) => Running M δ E j js' u c

/-- What is required of the motions. -/
structure Good (M : Machine) (δ : ℝ) (E d : Nat → ℝ) (js : List Job) : Prop where
  fits : ∀ j ∈ js, Fits M δ j
  connected : Connected M.n d (js.map Job.r)
  mode : (∀ axis, axis < M.n → E axis = 0) ∧ js.length ≤ 1 ∨
    (∀ axis, axis < M.n → E axis = M.perTick δ axis) ∧ ∀ j ∈ js, δ ≤ j.T

theorem Good.left {M : Machine} {δ : ℝ} {E d : Nat → ℝ} {js l : List Job} (h : Good M δ E d (js ++ l)) : Good M δ E d js :=
  ⟨fun j hj => h.fits j (List.mem_append_left _ hj), connected_append (by have := h.connected; rwa [List.map_append] at this),
    h.mode.imp (fun h => ⟨h.1, by have := h.2; simp at this; omega⟩) fun h => ⟨h.1, fun j hj => h.2 j (List.mem_append_left _ hj)⟩⟩

theorem Exec.tick {M : Machine} {δ : ℝ} {E d : Nat → ℝ} {js : List Job} {t : ℝ} {c c' : MotionCtrl M.kit} {x}
    (hs : Suited M δ E) (hg : Good M δ E d js) (h : Exec M δ E d js t c) (ht : c.tick = some (c', x)) :
    Exec M δ E d js (t + δ) c' := by
  have hδ := hs.width
  unfold Exec at h
  split at h
  · rename_i u hr
    have hd := rest_done hδ.le (δ := δ) (by rw [hr])
    unfold Exec
    obtain ⟨v, hv⟩ : ∃ v, rest js (t + δ) = ([], v) := ⟨_, Prod.ext hd rfl⟩
    rw [hv]
    have hn : c.isRunning = false := by simp [isRunning, h.state]
    unfold MotionCtrl.tick at ht
    simp only [hn, Bool.false_eq_true, if_false, Option.some.injEq, Prod.mk.injEq] at ht
    obtain ⟨rfl, -⟩ := ht
    exact ⟨h.state, h.queue, h.clock, h.near⟩
  · rename_i j js' u hr
    have hf : ∀ j' ∈ j :: js', Fits M δ j' := fun j' hj' => hg.fits j' (rest_mem (t := t) (by rw [hr]; exact hj'))
    have hlen : js'.length + 1 ≤ js.length := by have := rest_length (js := js) (t := t); rw [hr] at this; simpa using this
    have hE : (∀ axis, axis < M.n → E axis = 0) ∧ js' = [] ∨
        (∀ axis, axis < M.n → E axis = M.perTick δ axis) ∧ ∀ j' ∈ j :: js', δ ≤ j'.T :=
      hg.mode.imp (fun h => ⟨h.1, List.eq_nil_of_length_eq_zero (by have := h.2; omega)⟩)
        fun h => ⟨h.1, fun j' hj' => h.2 j' (rest_mem (t := t) (by rw [hr]; exact hj'))⟩
    obtain ⟨d', hc⟩ := rest_connected hr hg.connected
    have hsh := rest_shift hδ.le hr
    unfold Exec
    rcases h.tick hs hf hE ht (by
      rintro j₂ js₂ rfl axis ha
      exact hc.2.1 axis ha) with ⟨h1, h2⟩ | ⟨h1, j₂, js₂, rfl, h2⟩ | ⟨h1, rfl, h2⟩
    · rw [hsh, rest, if_pos h1]; exact h2
    · rw [hsh, rest, if_neg (not_le.2 h1), rest, if_pos h2.le]; exact h2
    · rw [hsh, rest, if_neg (not_le.2 h1), rest]
      rw [endOf_rest hr]; exact h2

theorem Exec.signals {M : Machine} {δ : ℝ} {E d : Nat → ℝ} {js : List Job} {t : ℝ} {c : MotionCtrl M.kit}
    (h : Exec M δ E d js t c) (s) : Exec M δ E d js t { c with signals := s } := by
  unfold Exec at *
  split at h
  · exact ⟨h.state, h.queue, h.clock, h.near⟩
  · exact ⟨h.state, h.line, h.clock, h.nonneg, h.le, h.near⟩

theorem Exec.calcLoop {M : Machine} {δ : ℝ} {E d : Nat → ℝ} {js : List Job} (hs : Suited M δ E) (hg : Good M δ E d js)
    (fuel : Nat) {t : ℝ} {c c' : MotionCtrl M.kit} {e ts} (h : Exec M δ E d js t c)
    (hc : MotionCtrl.calcLoop fuel c = some (c', e, ts)) :
    Exec M δ E d js (t + ts.length * δ) c' ∧ ts ≠ [] := by
  induction fuel generalizing t c c' e ts with
  | zero => simp [MotionCtrl.calcLoop] at hc
  | succ fuel ih =>
    unfold MotionCtrl.calcLoop at hc
    split at hc
    · simp at hc
    · rename_i c₁ x hx
      have h1 := h.tick hs hg hx
      split at hc
      · simp only [Option.some.injEq, Prod.mk.injEq] at hc
        obtain ⟨rfl, rfl, rfl⟩ := hc
        exact ⟨by simpa using h1.signals _, by simp⟩
      · simp only [Option.map_eq_some_iff, Prod.exists, Prod.mk.injEq] at hc
        obtain ⟨c₂, e₂, ts₂, h2, rfl, rfl, rfl⟩ := hc
        have := (ih h1 h2).1
        refine ⟨?_, by simp⟩
        rw [List.length_cons]
        push_cast
        rw [show t + ((ts₂.length : ℝ) + 1) * δ = t + δ + ts₂.length * δ by ring]
        exact this

/-- Appending to a queue, the first motion of which is being executed. -/
theorem Line.append {M : Machine} (hM : M.Ok) {c : MotionCtrl M.kit} {j : Job} {js : List Job} {u : ℝ}
    (h : Line M c.buffer j js u) {r : SimplifiedMotion} (hr : Executable M.n r) (ho : (r.vFeed * c.overrides.feedOverride).Pos)
    (hst : c.state = .running) (hl : c.buffer.level < 32) :
    ∃ j₁, j₁.r = r ∧ j₁.f = r.vFeed * c.overrides.feedOverride ∧ j₁.Ok M ∧ Line M (c.append r).buffer j (js ++ [j₁]) u ∧
      (c.append r).buffer.getHead = c.buffer.getHead ∧ (c.append r).time = c.time ∧ (c.append r).state = c.state ∧
      (c.append r).machinePosition = c.machinePosition := by
  obtain ⟨q0, q2, q3, q4, q5, q6, -, q8, -⟩ := append_cells hM h.queue.head hr.moves ho hl
  have hlv := h.queue.level
  simp only [List.length_cons] at hlv
  have hstr : c.strategy = .maximizeSpeed := by simp [strategy, hst]
  rw [hstr] at q3
  obtain ⟨j₁, hj₁, hf₁, hruns, hok⟩ := runs_of_restPlan hr q3.1 q3.2
  have hhead : (c.append r).buffer.getHead = c.buffer.getHead := by
    have := q2 0 (by omega)
    rw [Nat.add_zero, Nat.add_zero, q4, Nat.mod_eq_of_lt h.queue.head] at this
    show (c.append r).buffer.cells (c.append r).buffer.head = _
    rw [q4]; exact this
  refine ⟨j₁, hj₁, hf₁, hok, ⟨⟨by rw [q4]; exact h.queue.head, ?_, ?_, fun k hk => ?_⟩, by rw [hhead]; exact h.begun, fun k hk => ?_⟩,
    hhead, q5, q6, q8⟩
  · rw [q0]; simp; omega
  · simp; omega
  · by_cases hk' : k < (j :: js).length
    · simp only [List.length_cons] at hk'
      rw [q2 k (by omega)]
      have := h.queue.cell k (by simp; omega)
      have e : (j :: (js ++ [j₁]))[k] = (j :: js)[k]'(by simp; omega) :=
        List.getElem_append_left (as := j :: js) (bs := [j₁]) (by simp; omega)
      rw [e]; exact this
    · have hke : k = (j :: js).length := by
        simp only [List.length_append, List.length_singleton, List.length_cons, List.length_nil] at hk hk' ⊢; omega
      subst hke
      simp only [← List.cons_append]
      rw [List.getElem_append_right (le_refl _)]
      rw [hlv] at hruns
      simpa using hruns
  · by_cases hk' : k < js.length
    · rw [q2 (k + 1) (by omega), List.getElem_append_left hk']
      exact h.waits k hk'
    · have hke : k = js.length := by
        simp only [List.length_append, List.length_singleton] at hk; omega
      subst hke
      rw [List.getElem_append_right (le_refl _)]
      simp only [Nat.sub_self, List.getElem_singleton]
      rw [hlv] at q3
      rw [hj₁]; exact ⟨_, _, q3⟩

theorem Exec.append {M : Machine} (hM : M.Ok) {δ : ℝ} {E d : Nat → ℝ} {js : List Job} {t : ℝ} {c : MotionCtrl M.kit}
    (h : Exec M δ E d js t c) {r : SimplifiedMotion} (hr : Executable M.n r) (ho : (r.vFeed * c.overrides.feedOverride).Pos)
    (hst : c.state = .running) (hl : c.buffer.level < 32) :
    ∃ j, j.r = r ∧ j.f = r.vFeed * c.overrides.feedOverride ∧ j.Ok M ∧ Exec M δ E d (js ++ [j]) t (c.append r) := by
  unfold Exec at h
  split at h
  · have := h.state; rw [hst] at this; simp at this
  · rename_i j js' u hrest
    obtain ⟨j₁, hj₁, hf₁, hok, hline, hhead, q5, q6, q8⟩ := h.line.append hM hr ho hst hl
    refine ⟨j₁, hj₁, hf₁, hok, ?_⟩
    unfold Exec
    rw [rest_append hrest]
    refine ⟨q6.trans h.state, hline, q5 ▸ h.clock, h.nonneg, h.le, fun axis ha => ?_⟩
    rw [hhead, q8]
    exact h.near axis ha

/-- Every request can be executed in some time. -/
theorem exists_job {M : Machine} (hM : M.Ok) {r : SimplifiedMotion} (hr : Executable M.n r) {ov : Num}
    (ho : (r.vFeed * ov).Pos) : ∃ j : Job, j.r = r ∧ j.f = r.vFeed * ov ∧ j.Ok M := by
  let c : MotionCtrl M.kit := { MotionCtrl.fresh M.kit with
    state := .running
    overrides := { (MotionCtrl.fresh M.kit).overrides with feedOverride := ov } }
  have hq : Queue (Waits M) c.buffer [] := ⟨by show 0 < 32; decide, rfl, by simp, fun k hk => by simp at hk⟩
  obtain ⟨-, -, q3, -⟩ := append_queue hM hq hr.moves (c := c) ho (by decide)
  obtain ⟨j, hj, hf, -, hok⟩ := runs_of_restPlan hr q3.1 q3.2
  exact ⟨j, hj, hf, hok⟩

end Moovr
