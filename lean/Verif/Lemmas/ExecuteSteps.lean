import Verif.Lemmas.ExecuteVelocity
/-!
# Steps made during the execution of a program
-/
namespace Moovr
open Num ExecSpec MotionCtrl MotionSpec PulseSpec

/-- What is known of an axis on a tick that begins at time `t` of the program, at position `p`, with command `c`. -/
structure StepOk (M : Machine) (δ : ℝ) (d : Nat → ℝ) (js : List Job) (axis : Nat) (t : ℝ) (p : Int) (c : Cmd) : Prop where
  near : |placeAt d js t axis * M.stepsPerMm axis - p| ≤ 1 / 2 + M.hysteresis + M.perTick δ axis
  band : |placeAt d js t axis * M.stepsPerMm axis - p| ≤ 1 / 2 + M.hysteresis ∨ velAt js t axis = 0
  fwd : c = some .forward → p + 1 / 2 + M.hysteresis ≤ placeAt d js (t + δ) axis * M.stepsPerMm axis
  bwd : c = some .backward → placeAt d js (t + δ) axis * M.stepsPerMm axis ≤ p - 1 / 2 - M.hysteresis

theorem Exec.near {M : Machine} {δ : ℝ} {E d : Nat → ℝ} {js : List Job} {t : ℝ} {c : MotionCtrl M.kit} (hs : Suited M δ E)
    (h : Exec M δ E d js t c) {axis : Nat} (hax : axis < M.n) :
    |placeAt d js t axis * M.stepsPerMm axis - c.machinePosition axis| ≤ 1 / 2 + M.hysteresis + M.perTick δ axis ∧
    (|placeAt d js t axis * M.stepsPerMm axis - c.machinePosition axis| ≤ 1 / 2 + M.hysteresis ∨ velAt js t axis = 0) := by
  unfold Exec at h
  split at h
  · rename_i u hu
    rw [placeAt_done (by rw [hu]), velAt_done (by rw [hu])]
    exact ⟨h.near axis hax, .inr rfl⟩
  · rename_i j js' u hu
    rw [placeAt_rest hu, velAt_rest hu]
    obtain ⟨n1, n2⟩ := h.near axis hax
    refine ⟨n1.trans (by have := hs.le axis hax; linarith), ?_⟩
    by_cases hm : c.buffer.getHead.traj.trajectory.isMoving axis = true
    · rcases h.nonneg.eq_or_lt with e | h0
      · right; simp only [← e]; exact vel_start h.queue.getHead.ok axis
      · exact .inl (n2 h0 hm)
    · right
      exact vel_still (h.queue.getHead.still axis hax (by simpa using hm)) u

theorem Exec.stepOk {M : Machine} {δ : ℝ} {E d : Nat → ℝ} {js : List Job} {t : ℝ} {c c' : MotionCtrl M.kit} {x}
    (hs : Suited M δ E) (hg : Good M δ E d js) (h : Exec M δ E d js t c) (ht : c.tick = some (c', x)) {axis : Nat}
    (hax : axis < M.n) :
    StepOk M δ d js axis t (c.machinePosition axis) (x.cmd axis) ∧
    c'.machinePosition axis = c.machinePosition axis + stepsOf (x.cmd axis) := by
  obtain ⟨h1, -, h3, h4⟩ := Props.one_step_per_tick ht axis
  refine ⟨?_, h1⟩
  obtain ⟨n1, n2⟩ := h.near hs hax
  by_cases hp : Props.TakesPart M c' x axis
  · have h' := h.tick hs hg ht
    -- the controller was running, and is still
    have hrun : ∃ j js' u, rest js (t + δ) = (j :: js', u) := by
      by_contra hno
      have hdone : (rest js (t + δ)).1 = [] := by
        rcases hr : rest js (t + δ) with ⟨l, u⟩
        cases l with
        | nil => rfl
        | cons j l => exact absurd ⟨j, l, u, hr⟩ hno
      apply hp.1
      unfold Exec at h
      split at h
      · have hn : c.isRunning = false := by simp [isRunning, h.state]
        unfold MotionCtrl.tick at ht
        simp only [hn, Bool.false_eq_true, if_false, Option.some.injEq, Prod.mk.injEq] at ht
        exact (congrArg Tick.active ht.2).symm
      · rename_i j js' u hu
        have hidx := h.clock.index hs.width h.le (hg.fits j (rest_mem (t := t) (by rw [hu]; simp))).short
        rcases tick_jobs hs.width.le h.line h.clock h.state hidx ht with a | ⟨_, _, _, a, -⟩
        · exact a.2.2.2.2.2.1
        · exfalso
          rw [rest_shift hs.width.le hu, a] at hdone
          simp at hdone
    obtain ⟨j, js', u, hu⟩ := hrun
    unfold Exec at h'
    rw [hu] at h'
    simp only at h'
    have hr := h'.queue.getHead
    have hcomm : Props.commanded M c' axis = fin (placeAt d js (t + δ) axis) := by
      rw [placeAt_rest hu]
      unfold Props.commanded
      have e : c'.buffer.getHead.prof.s c'.time.timeInMotion = fin (j.S u) := by
        rw [h'.clock.now]; exact hr.s u h'.line.begun
      rw [e]; exact hr.position axis hax _
    have hrange : M.InRange (placeAt d js (t + δ) axis * M.stepsPerMm axis) := by
      rw [placeAt_rest hu]
      have hok := hr.ok
      refine (hg.fits j (rest_mem (t := t + δ) (by rw [hu]; simp))).range axis hax _ ?_ ?_
      · have := hok.forward 0 u le_rfl h'.nonneg h'.le; rw [hok.start] at this; exact this
      · have := hok.forward u j.T h'.nonneg h'.le le_rfl; rw [hok.finish] at this; exact this
    obtain ⟨hf, hb, -⟩ := h4 _ hcomm hrange hp
    exact ⟨n1, n2, hf, hb⟩
  · rw [h3 hp]
    exact ⟨n1, n2, by simp, by simp⟩

/-- A sequence of ticks from time `t` of the program and position `p`. -/
def Trace (M : Machine) (δ : ℝ) (d : Nat → ℝ) (js : List Job) (axis : Nat) : ℝ → Int → List Cmd → Prop
  | _, _, [] => True
  | t, p, c :: cs => StepOk M δ d js axis t p c ∧ Trace M δ d js axis (t + δ) (p + stepsOf c) cs

theorem Trace.append {M : Machine} {δ : ℝ} {d : Nat → ℝ} {js : List Job} {axis : Nat} {l₁ l₂ : List Cmd} :
    ∀ {t : ℝ} {p : Int}, Trace M δ d js axis t p l₁ →
      Trace M δ d js axis (t + l₁.length * δ) (p + (l₁.map stepsOf).sum) l₂ → Trace M δ d js axis t p (l₁ ++ l₂) := by
  induction l₁ with
  | nil => intro t p _ h; simpa using h
  | cons c cs ih =>
    intro t p h1 h2
    refine ⟨h1.1, ih h1.2 ?_⟩
    rw [List.map_cons, List.sum_cons, List.length_cons] at h2
    push_cast at h2
    rw [show t + δ + cs.length * δ = t + (cs.length + 1) * δ by ring, add_assoc p]
    exact h2

theorem Trace.get {M : Machine} {δ : ℝ} {d : Nat → ℝ} {js : List Job} {axis : Nat} {l : List Cmd} :
    ∀ {t : ℝ} {p : Int}, Trace M δ d js axis t p l → ∀ k (hk : k < l.length),
      StepOk M δ d js axis (t + k * δ) (p + ((l.take k).map stepsOf).sum) l[k] := by
  induction l with
  | nil => intro t p _ k hk; simp at hk
  | cons c cs ih =>
    intro t p h k hk
    cases k with
    | zero => simpa using h.1
    | succ k =>
      have := ih h.2 k (by simpa using hk)
      simp only [List.getElem_cons_succ, List.take_succ_cons, List.map_cons, List.sum_cons]
      push_cast
      push_cast at this
      rw [show t + ((k : ℝ) + 1) * δ = t + δ + k * δ by ring, ← add_assoc p]
      exact this

theorem calcLoop_position {M : Machine} (fuel : Nat) {c c' : MotionCtrl M.kit} {e ts} {axis : Nat}
    (h : MotionCtrl.calcLoop fuel c = some (c', e, ts)) :
    c'.machinePosition axis = c.machinePosition axis + (ts.map fun x => stepsOf (x.cmd axis)).sum := by
  induction fuel generalizing c c' e ts with
  | zero => simp [MotionCtrl.calcLoop] at h
  | succ fuel ih =>
    unfold MotionCtrl.calcLoop at h
    split at h
    · simp at h
    · rename_i c₁ x hx
      have h1 := (Props.one_step_per_tick hx axis).1
      split at h
      · simp only [Option.some.injEq, Prod.mk.injEq] at h
        obtain ⟨rfl, rfl, rfl⟩ := h
        simpa using h1
      · simp only [Option.map_eq_some_iff, Prod.exists, Prod.mk.injEq] at h
        obtain ⟨c₂, e₂, ts₂, h2, rfl, rfl, rfl⟩ := h
        rw [ih h2, h1, List.map_cons, List.sum_cons, add_assoc]

theorem Exec.trace {M : Machine} {δ : ℝ} {E d : Nat → ℝ} {js : List Job} (hs : Suited M δ E) (hg : Good M δ E d js) {axis : Nat}
    (hax : axis < M.n) (fuel : Nat) {t : ℝ} {c c' : MotionCtrl M.kit} {e ts} (h : Exec M δ E d js t c)
    (hc : MotionCtrl.calcLoop fuel c = some (c', e, ts)) :
    Trace M δ d js axis t (c.machinePosition axis) (ts.map fun x => x.cmd axis) := by
  induction fuel generalizing t c c' e ts with
  | zero => simp [MotionCtrl.calcLoop] at hc
  | succ fuel ih =>
    unfold MotionCtrl.calcLoop at hc
    split at hc
    · simp at hc
    · rename_i c₁ x hx
      obtain ⟨h1, h2⟩ := h.stepOk hs hg hx hax
      have h3 := h.tick hs hg hx
      split at hc
      · simp only [Option.some.injEq, Prod.mk.injEq] at hc
        obtain ⟨rfl, rfl, rfl⟩ := hc
        exact ⟨h1, trivial⟩
      · simp only [Option.map_eq_some_iff, Prod.exists, Prod.mk.injEq] at hc
        obtain ⟨c₂, e₂, ts₂, h4, rfl, rfl, rfl⟩ := hc
        refine ⟨h1, ?_⟩
        have := ih h3 h4
        rw [h2] at this
        exact this

/-! ## Times before the end do not depend on motions appended later -/

theorem rest_nonempty_of_le {js : List Job} {s t : ℝ} (hst : s ≤ t) (h : (rest js t).1 ≠ []) : (rest js s).1 ≠ [] := fun h0 => by
  have := rest_done (sub_nonneg.2 hst) h0
  rw [show s + (t - s) = t by ring] at this
  exact h this

theorem placeAt_append {d : Nat → ℝ} {js : List Job} {t : ℝ} (h : (rest js t).1 ≠ []) (l : List Job) :
    placeAt d (js ++ l) t = placeAt d js t := by
  rcases hr : rest js t with ⟨x, u⟩
  cases x with
  | nil => rw [hr] at h; exact absurd rfl h
  | cons j js' =>
    rw [placeAt_rest hr, placeAt_rest (rest_append hr l)]

theorem velAt_append {js : List Job} {t : ℝ} (h : (rest js t).1 ≠ []) (l : List Job) : velAt (js ++ l) t = velAt js t := by
  rcases hr : rest js t with ⟨x, u⟩
  cases x with
  | nil => rw [hr] at h; exact absurd rfl h
  | cons j js' =>
    rw [velAt_rest hr, velAt_rest (rest_append hr l)]

theorem Trace.extend {M : Machine} {δ : ℝ} (hδ : 0 ≤ δ) {d : Nat → ℝ} {js : List Job} {axis : Nat} {l : List Cmd} (l' : List Job) :
    ∀ {t : ℝ} {p : Int}, Trace M δ d js axis t p l → (rest js (t + l.length * δ)).1 ≠ [] → Trace M δ d (js ++ l') axis t p l := by
  induction l with
  | nil => intros; trivial
  | cons c cs ih =>
    intro t p h hr
    rw [List.length_cons] at hr
    push_cast at hr
    have hn : 0 ≤ (cs.length : ℝ) * δ := mul_nonneg (Nat.cast_nonneg _) hδ
    have h0 : (rest js t).1 ≠ [] := rest_nonempty_of_le (by nlinarith) hr
    have h1 : (rest js (t + δ)).1 ≠ [] := rest_nonempty_of_le (by nlinarith) hr
    refine ⟨⟨?_, ?_, ?_, ?_⟩, ih h.2 ?_⟩
    · rw [placeAt_append h0]; exact h.1.near
    · rw [placeAt_append h0, velAt_append h0]; exact h.1.band
    · rw [placeAt_append h1]; exact h.1.fwd
    · rw [placeAt_append h1]; exact h.1.bwd
    · rw [show t + δ + cs.length * δ = t + (cs.length + 1) * δ by ring]; exact hr

/-! ## Distance between steps -/

theorem sum_take_quiet {l : List Cmd} {i j : Nat} (hij : i ≤ j) (hj : j ≤ l.length)
    (hq : ∀ k (hk : k < l.length), i ≤ k → k < j → l[k] = none) :
    ((l.take j).map stepsOf).sum = ((l.take i).map stepsOf).sum := by
  induction j with
  | zero => rw [show i = 0 by omega]
  | succ j ih =>
    by_cases e : i = j + 1
    · rw [e]
    · have hj' : j < l.length := by omega
      rw [List.take_succ_eq_append_getElem hj', List.map_append, List.sum_append, hq j hj' (by omega) (by omega)]
      simp only [List.map_cons, List.map_nil, stepsOf, List.sum_cons, List.sum_nil, add_zero]
      exact ih (by omega) (by omega) fun k hk h1 h2 => hq k hk h1 (by omega)

/-- Two successive steps of an axis: in the same direction the axis has to travel almost a step; in the other direction it has to
turn round. -/
theorem Trace.apart {M : Machine} (hM : M.Ok) {δ : ℝ} (hδ : 0 < δ) {d : Nat → ℝ} {js : List Job} {axis : Nat} (hax : axis < M.n)
    (hsp : 0 ≤ M.stepsPerMm axis) (hok : ∀ j ∈ js, j.Sound M) (he : ∀ j ∈ js, Executable M.n j.r)
    (hc : Connected M.n d (js.map Job.r)) {w : ℝ} (hw0 : 0 ≤ w)
    (hw : ∀ j ∈ js, ∀ a b, 0 ≤ a → a ≤ b → b ≤ j.T → |place j.r axis (j.S b) - place j.r axis (j.S a)| ≤ w * (b - a))
    {l : List Cmd} {p : Int} (h : Trace M δ d js axis 0 p l) {i j : Nat} (hij : i < j) (hj : j < l.length)
    (hq : ∀ k (hk : k < l.length), i < k → k < j → l[k] = none) {d₁ d₂ : Dir} (h1 : l[i] = some d₁) (h2 : l[j] = some d₂) :
    (d₁ = d₂ → 1 - M.perTick δ axis ≤ (j - i + 1) * (w * δ * M.stepsPerMm axis)) ∧
    (d₁ ≠ d₂ → 2 * M.hysteresis ≤ (j - i) * (j - i + 1) * (M.accel axis * δ ^ 2 * M.stepsPerMm axis)) := by
  have hi : i < l.length := by omega
  have hsi := h.get i hi
  have hsj := h.get j hj
  rw [h1] at hsi
  rw [h2] at hsj
  have hsum : ((l.take j).map stepsOf).sum = ((l.take i).map stepsOf).sum + stepsOf (some d₁) := by
    rw [sum_take_quiet (i := i + 1) (by omega) hj.le fun k hk a b => hq k hk (by omega) b,
      List.take_succ_eq_append_getElem hi, List.map_append, List.sum_append, h1]
    simp
  rw [hsum] at hsj
  set P := p + ((l.take i).map stepsOf).sum with hP
  rw [← add_assoc, ← hP] at hsj
  have hcast : ((i : ℝ)) + 1 ≤ j := by exact_mod_cast hij
  have hi0 : (0 : ℝ) ≤ i := Nat.cast_nonneg _
  have hti : (0 : ℝ) ≤ 0 + i * δ := by positivity
  set sp := M.stepsPerMm axis
  set B := M.accel axis
  -- distance travelled
  have hlip := placeAt_lipschitz hax hw0 js hok hc hw (a := 0 + i * δ) (b := 0 + j * δ + δ) hti (by nlinarith)
  have hlip' : |placeAt d js (0 + j * δ + δ) axis * sp - placeAt d js (0 + i * δ) axis * sp| ≤
      (j - i + 1) * (w * δ * sp) := by
    rw [← sub_mul, abs_mul, abs_of_nonneg hsp]
    calc _ ≤ w * (0 + j * δ + δ - (0 + i * δ)) * sp := mul_le_mul_of_nonneg_right hlip hsp
      _ = _ := by ring
  have hn := abs_le.1 hsi.near
  have hl := abs_le.1 hlip'
  -- velocities around a reversal; `σ` is the direction of the first step
  have hrev : ∀ σ : ℝ, (|placeAt d js (0 + i * δ) axis * sp - P| ≤ 1 / 2 + M.hysteresis →
        σ * (placeAt d js (0 + i * δ) axis * sp) ≤ σ * (placeAt d js (0 + i * δ + δ) axis * sp)) → |σ| = 1 →
      σ * (placeAt d js (0 + i * δ + δ) axis * sp - placeAt d js (0 + j * δ + δ) axis * sp) ≤
        (j - i) * (j - i + 1) * (B * δ ^ 2 * sp) := by
    intro σ hup hσ
    by_cases hsp0 : sp = 0
    · rw [hsp0]; simp
    have hsp' : 0 < sp := lt_of_le_of_ne hsp (Ne.symm hsp0)
    have hvl := fun {a b : ℝ} => velAt_lipschitz hM hax js hok he (a := a) (b := b)
    have hσl : ∀ {a b : ℝ}, 0 ≤ a → a ≤ b → σ * velAt js a axis - σ * velAt js b axis ≤ B * (b - a) := by
      intro a b h0 hab
      have := hvl h0 hab
      have h2 : |σ * velAt js a axis - σ * velAt js b axis| = |velAt js b axis - velAt js a axis| := by
        rw [← mul_sub, abs_mul, hσ, one_mul, abs_sub_comm]
      exact (le_abs_self _).trans (h2 ▸ this)
    set C := B * ((j - i + 1) * δ) with hC
    have hB : 0 ≤ B := by
      have := hM.aMax axis hax
      have := (le_max_left (M.aMax axis) (-M.dMax axis))
      show 0 ≤ Machine.accel M axis
      unfold Machine.accel; linarith
    have hlow : ∀ s, 0 + i * δ + δ ≤ s → s ≤ 0 + j * δ + δ → -σ * velAt js s axis ≤ C := by
      intro s hs1 hs2
      by_contra hlt
      rw [not_le] at hlt
      rcases hsi.band with hb | hv
      · have hall : ∀ s', 0 + i * δ ≤ s' → s' ≤ 0 + i * δ + δ → σ * velAt js s' axis ≤ -(-σ * velAt js s axis - C) := by
          intro s' h1' h2'
          have := hσl (a := s') (b := s) (by linarith) (by linarith)
          have h3 : B * (s - s') ≤ C := by
            rw [hC]; exact mul_le_mul_of_nonneg_left (by nlinarith) hB
          linarith
        have := placeAt_le_of_vel hax js hok hc (σ := σ) (a := 0 + i * δ) (b := 0 + i * δ + δ) hti (by linarith) hall
        have hpos : 0 < (-σ * velAt js s axis - C) * δ := mul_pos (by linarith) hδ
        have hneg : σ * (placeAt d js (0 + i * δ + δ) axis - placeAt d js (0 + i * δ) axis) < 0 := by
          rw [show 0 + i * δ + δ - (0 + i * δ) = δ by ring] at this
          linarith
        have h4 := mul_neg_of_neg_of_pos hneg hsp'
        have h5 := hup hb
        nlinarith
      · have := hσl (a := 0 + i * δ) (b := s) hti (by linarith)
        rw [hv, mul_zero] at this
        have h3 : B * (s - (0 + i * δ)) ≤ C := by
          rw [hC]; exact mul_le_mul_of_nonneg_left (by nlinarith) hB
        linarith
    have := placeAt_le_of_vel hax js hok hc (σ := -σ) (a := 0 + i * δ + δ) (b := 0 + j * δ + δ) (by linarith)
      (by nlinarith) hlow
    calc σ * (placeAt d js (0 + i * δ + δ) axis * sp - placeAt d js (0 + j * δ + δ) axis * sp)
        = -σ * (placeAt d js (0 + j * δ + δ) axis - placeAt d js (0 + i * δ + δ) axis) * sp := by ring
      _ ≤ C * (0 + j * δ + δ - (0 + i * δ + δ)) * sp := mul_le_mul_of_nonneg_right this hsp
      _ = (j - i) * (j - i + 1) * (B * δ ^ 2 * sp) := by rw [hC]; ring
  cases d₁ with
  | forward =>
    have f1 := hsi.fwd rfl
    cases d₂ with
    | forward =>
      refine ⟨fun _ => ?_, fun h => absurd rfl h⟩
      have f2 := hsj.fwd rfl
      simp only [stepsOf] at f2
      push_cast at f2
      linarith [hl.2, hn.2]
    | backward =>
      refine ⟨fun h => by simp at h, fun _ => ?_⟩
      have f2 := hsj.bwd rfl
      simp only [stepsOf] at f2
      push_cast at f2
      have := hrev 1 (fun hb => by have := abs_le.1 hb; linarith [this.2]) (by simp)
      linarith
  | backward =>
    have f1 := hsi.bwd rfl
    cases d₂ with
    | forward =>
      refine ⟨fun h => by simp at h, fun _ => ?_⟩
      have f2 := hsj.fwd rfl
      simp only [stepsOf] at f2
      push_cast at f2
      have := hrev (-1) (fun hb => by have := abs_le.1 hb; linarith [this.1]) (by simp)
      linarith
    | backward =>
      refine ⟨fun _ => ?_, fun h => absurd rfl h⟩
      have f2 := hsj.bwd rfl
      simp only [stepsOf] at f2
      push_cast at f2
      linarith [hl.1, hn.1]

end Moovr
