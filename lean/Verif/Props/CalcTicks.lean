import Verif.Props.HomingOverrun

/-!
C135: how much of the motion the calculations of the main program work out: each at least one sampling and at most as many as
`setup` has configured (375, 6.25 ms). With it the overrun of C133 is bounded by the number of calculations.
-/

namespace Moovr

namespace MotionCtrl
open MotionSpec

variable {K : MotionKit}

/-- Only `configure` changes the limit of the interval between two entries. -/
theorem SInv.call_limit {c c' : MotionCtrl K} (h : SInv c) {k : Call K.Req K.Time K.Ovr} {r}
    (hk : ∀ m w, k ≠ .configure m w) (he : c.call k = some (c', r)) :
    c'.signals.maxTicksSinceLastOutput = c.signals.maxTicksSinceLastOutput := by
  cases k with
  | configure m w => exact absurd rfl (hk m w)
  | append q =>
    cases he
    have : (c.append q).signals = c.signals := by unfold append; split <;> rfl
    rw [this]
  | start =>
    cases he
    have : c.start.signals = c.signals := by
      unfold start; split
      · exact (sameButProf_optimize _).signals
      · rfl
    rw [this]
  | stop =>
    cases he
    have : c.stop.signals = c.signals := (sameButProf_optimize _).signals
    rw [this]
  | flush =>
    cases he
    have : c.flushMotionBuffer.signals = c.signals := by unfold flushMotionBuffer; split <;> rfl
    rw [this]
  | resetPosition => cases he; rfl
  | override o => cases he; rfl
  | calculate =>
    obtain ⟨c₁, e, ts, h0, -, -, -, -, -, h1⟩ := h.calculate
    simp only [MotionCtrl.call, h0, Option.map_some, Option.some.injEq, Prod.mk.injEq] at he
    rw [← he.1]
    exact h1

theorem SInv.run_limit (ks : List (Call K.Req K.Time K.Ovr)) : ∀ {c c' : MotionCtrl K} {log}, SInv c →
    (∀ k ∈ ks, ∀ m w, k ≠ .configure m w) → c.run ks = some (c', log) →
    c'.signals.maxTicksSinceLastOutput = c.signals.maxTicksSinceLastOutput := by
  induction ks with
  | nil =>
    intro c c' log _ _ he
    simp only [MotionCtrl.run, Option.some.injEq, Prod.mk.injEq] at he
    rw [he.1]
  | cons k ks ih =>
    intro c c' log h hk he
    obtain ⟨c₁, r, h1, h2⟩ := h.call k
    simp only [MotionCtrl.run, h1, Option.map_eq_some_iff, Prod.exists, Prod.mk.injEq] at he
    obtain ⟨c₂, l, h3, rfl, -⟩ := he
    rw [ih h2 (fun k hk' => hk k (by simp [hk'])) h3, h.call_limit (hk k (by simp)) h1]

/-- After a history in which the only `configure` is the first call apart from calculations, its limit holds. -/
theorem SInv.run_configured (ks : List (Call K.Req K.Time K.Ovr)) : ∀ {c c' : MotionCtrl K} {log m w rest}, SInv c →
    ks.filter (fun k => !k.isCalculate) = .configure m w :: rest → (∀ k ∈ rest, ∀ m w, k ≠ .configure m w) →
    c.run ks = some (c', log) → c'.signals.maxTicksSinceLastOutput = m % 2 ^ 32 := by
  induction ks with
  | nil => intro c c' log m w rest _ hf; simp at hf
  | cons k ks ih =>
    intro c c' log m w rest h hf hr he
    obtain ⟨c₁, r, h1, h2⟩ := h.call k
    simp only [MotionCtrl.run, h1, Option.map_eq_some_iff, Prod.exists, Prod.mk.injEq] at he
    obtain ⟨c₂, l, h3, rfl, -⟩ := he
    by_cases hk : k.isCalculate = true
    · rw [List.filter_cons_of_neg (by simp [hk])] at hf
      exact ih h2 hf hr h3
    · rw [List.filter_cons_of_pos (by simp [hk])] at hf
      simp only [List.cons.injEq] at hf
      obtain ⟨rfl, hf⟩ := hf
      have : ∀ k ∈ ks, ∀ m w, k ≠ .configure m w := by
        intro k hk' m' w' e
        refine hr k ?_ m' w' e
        rw [← hf, List.mem_filter]
        exact ⟨hk', by rw [e]; rfl⟩
      rw [SInv.run_limit ks h2 this h3]
      cases h1
      rfl

/-- The samplings in a number of calculations. -/
theorem SInv.calculates_ticks (n : Nat) : ∀ {c c' : MotionCtrl K} {log}, SInv c →
    c.run (List.replicate n .calculate) = some (c', log) →
    n ≤ (MotionSpec.ticksOf log).length ∧ (MotionSpec.ticksOf log).length ≤ max 1 c.signals.maxTicksSinceLastOutput * n := by
  induction n with
  | zero =>
    intro c c' log _ he
    simp only [List.replicate_zero, MotionCtrl.run, Option.some.injEq, Prod.mk.injEq] at he
    rw [← he.2]
    simp [MotionSpec.ticksOf]
  | succ n ih =>
    intro c c' log h he
    obtain ⟨c₁, e, ts, h0, h1, h2, h3, -, -, h4⟩ := h.calculate
    rw [List.replicate_succ] at he
    simp only [MotionCtrl.run, MotionCtrl.call, h0, Option.map_some, Option.map_eq_some_iff, Prod.exists, Prod.mk.injEq] at he
    obtain ⟨c₂, l, h5, rfl, rfl⟩ := he
    obtain ⟨i1, i2⟩ := ih h1 h5
    rw [h4] at i2
    have : 0 < ts.length := List.length_pos_iff.2 h2
    simp only [MotionSpec.ticksOf, List.flatMap_cons, List.length_append] at i1 i2 ⊢
    rw [Nat.mul_succ]
    omega

end MotionCtrl

namespace Props
open Num Float32 MotionSpec HomingSpec EventQueueSpec LoopSpec
open private Since Tracked timely_tracked from Verif.Props.HomingTimely

/-- **C135.** In the whole main program, after any run: `n` calculations work out at least `n` and at most `n * maxTicks` samplings,
`maxTicks` being what `setup` has configured (if it is neither 0 nor too large for 32 bits). -/
theorem calculations_cover {K : MotionKit} (t : Target K) (ht : 0 < t.maxTicks) (ht' : t.maxTicks < 2 ^ 32) (p : Ports)
    (rounds : List Round) {b : Board K} (h : Board.run t p rounds = some b) {n : Nat} {c : MotionCtrl K} {log}
    (hc : b.ctrl.run (List.replicate n .calculate) = some (c, log)) :
    n ≤ (ticksOf log).length ∧ (ticksOf log).length ≤ t.maxTicks * n := by
  obtain ⟨b₀, h1, h2⟩ := loop_motion_history t p rounds
  obtain rfl : b₀ = b := by rw [h] at h1; exact (Option.some.inj h1).symm
  have hs := history_sInv h2
  obtain ⟨ks, l, k1, k2, -⟩ := h2
  have hmax := MotionCtrl.sInv_fresh.run_configured ks k2 (by
    intro k hk m w e
    simp only [List.mem_cons, List.mem_filterMap] at hk
    rcases hk with rfl | ⟨x, -, hx⟩
    · cases e
    · subst e
      cases x <;> simp [callOf] at hx) k1
  have := hs.calculates_ticks n hc
  rw [hmax, Nat.mod_eq_of_lt ht', Nat.max_eq_right ht] at this
  exact this

/-- In the shipped program 16 calculations reach at most 0.1 s (6000 samplings) ahead. -/
example (fpu : Fpu) (p : Ports) (rounds : List Round) {b : Board (cnc3axis32.kit32 fpu)}
    (h : Board.run (shippedTarget32 fpu) p rounds = some b) {c : MotionCtrl (cnc3axis32.kit32 fpu)} {log}
    (hc : b.ctrl.run (List.replicate 16 .calculate) = some (c, log)) :
    16 ≤ (ticksOf log).length ∧ (ticksOf log).length ≤ 6000 :=
  calculations_cover (shippedTarget32 fpu) (show 0 < 375 by norm_num) (show 375 < 2 ^ 32 by norm_num) p rounds h hc

/-- **C135, for homing.** As C133, in calculations: when the next iteration takes the fifth sample that shows the switch closed, the
axis never gets further than the way at the speed of the move in 6.25 ms for each calculation of this iteration and the next 16, and in
0.32 s, and 4 steps. -/
theorem homing_overrun_calcs (fpu : Fpu) (p : Ports) (rounds : List Round) (r₀ : Round) (later : List Round) {b b' : Board (cnc3axis32.kit32 fpu)}
    (h : Board.run (shippedTarget32 fpu) p rounds = some b) (ht : Timely fpu p (rounds ++ r₀ :: later))
    (hr : SampledRarely 15 (rounds ++ [r₀])) (hs : b.homer.state = .closing)
    (hf : LastFive (switchOf .cnc3axis b.homer.currentHomingAxis) false (rounds ++ [r₀]))
    (hlater : later.length = 16) (hl : b.loops (shippedTarget32 fpu) (r₀ :: later) = some b') {m : HomingMove}
    (hm : (orders b.acts).getLast? = some m) :
    ∃ rs r rest b₁ b₂, r₀ :: later = rs ++ r :: rest ∧
      b.loops (shippedTarget32 fpu) rs = some b₁ ∧ b₁.loop (shippedTarget32 fpu) r = some b₂ ∧
      .stop ∈ b₂.acts.drop b₁.acts.length ∧
      ∀ after b₃, b₂.loops (shippedTarget32 fpu) after = some b₃ → (∀ x ∈ b₃.acts.drop b₂.acts.length, ¬ IsCommand x) →
        (advance m b₃.ctrl.machinePosition : ℝ) ≤ advance m b.ctrl.machinePosition +
          200 * (m.speed * (625 / 100000 * ((r₀ :: later).map Round.calcs).sum + 32 / 100)) + 4 ∧
        ∀ i, i < 3 → i ≠ m.axis → b₃.ctrl.machinePosition i = b.ctrl.machinePosition i := by
  obtain ⟨rs, r, rest, b₁, b₂, c, log, e, h1, h2, h3, h4, -, -, h5⟩ := homing_overrun_single fpu p rounds r₀ later h ht hr hs hf hlater hl hm
  refine ⟨rs, r, rest, b₁, b₂, e, h1, h2, h3, fun after b₃ ha hq => ?_⟩
  obtain ⟨k1, k2⟩ := h5 after b₃ ha hq
  refine ⟨?_, k2⟩
  have hn := (calculations_cover (shippedTarget32 fpu) (show 0 < 375 by norm_num) (show 375 < 2 ^ 32 by norm_num) p rounds h h4).2
  have hle : ((rs ++ [r]).map Round.calcs).sum ≤ ((r₀ :: later).map Round.calcs).sum := by rw [e]; simp
  have hn' : @List.length (Tick (Option SimplifiedMotion)) (ticksOf log) ≤ 375 * ((r₀ :: later).map Round.calcs).sum :=
    le_trans hn (Nat.mul_le_mul_left 375 hle)
  have hnR : ((ticksOf log).length : ℝ) ≤ 375 * (((r₀ :: later).map Round.calcs).sum : ℕ) := by exact_mod_cast hn'
  have hv : (0 : ℝ) ≤ m.speed := by
    obtain ⟨-, -, hsince⟩ := timely_tracked rounds ht h
    obtain ⟨c₀, m₀, k, log₀, -, -, e3, -, -, e6, -⟩ := hsince (.inl hs)
    obtain rfl : m₀ = m := by rw [hm] at e6; exact (Option.some.inj e6).symm
    rcases e3.speed with e | e <;> rw [e] <;> norm_num
  have : (m.speed : ℝ) * ((ticksOf log).length / 60000 + 32 / 100) ≤
      m.speed * (625 / 100000 * (((r₀ :: later).map Round.calcs).sum : ℕ) + 32 / 100) :=
    mul_le_mul_of_nonneg_left (by linarith) hv
  linarith

/-- Z approaches its switch (at the top) at 10 mm/s. If the 17 iterations make one calculation each, Z comes to rest at most 857 steps
(4.29 mm) above the place where it was when its switch was to be found closed the fifth time; X and Y do not move. -/
example (fpu : Fpu) (p : Ports) (rounds : List Round) (r₀ : Round) (later : List Round) {b b' : Board (cnc3axis32.kit32 fpu)}
    (h : Board.run (shippedTarget32 fpu) p rounds = some b) (ht : Timely fpu p (rounds ++ r₀ :: later))
    (hr : SampledRarely 15 (rounds ++ [r₀])) (hs : b.homer.state = .closing)
    (hf : LastFive (switchOf .cnc3axis b.homer.currentHomingAxis) false (rounds ++ [r₀]))
    (hlater : later.length = 16) (hone : (r₀ :: later).map Round.calcs = List.replicate 17 1)
    (hl : b.loops (shippedTarget32 fpu) (r₀ :: later) = some b') {x : Nat → Int} (hm : (orders b.acts).getLast? = some ⟨x, 2, 60, 10⟩) :
    ∃ rs r rest b₁ b₂, r₀ :: later = rs ++ r :: rest ∧ b.loops (shippedTarget32 fpu) rs = some b₁ ∧
      b₁.loop (shippedTarget32 fpu) r = some b₂ ∧ .stop ∈ b₂.acts.drop b₁.acts.length ∧
      ∀ after b₃, b₂.loops (shippedTarget32 fpu) after = some b₃ → (∀ x ∈ b₃.acts.drop b₂.acts.length, ¬ IsCommand x) →
        b₃.ctrl.machinePosition 2 ≤ b.ctrl.machinePosition 2 + 857 ∧ b₃.ctrl.machinePosition 0 = b.ctrl.machinePosition 0 ∧
          b₃.ctrl.machinePosition 1 = b.ctrl.machinePosition 1 := by
  obtain ⟨rs, r, rest, b₁, b₂, e, h1, h2, h3, h5⟩ :=
    homing_overrun_calcs fpu p rounds r₀ later h ht hr hs hf hlater hl hm
  refine ⟨rs, r, rest, b₁, b₂, e, h1, h2, h3, fun after b₃ ha hq => ?_⟩
  obtain ⟨k1, k2⟩ := h5 after b₃ ha hq
  refine ⟨?_, k2 0 (by norm_num) (by norm_num), k2 1 (by norm_num) (by norm_num)⟩
  rw [hone, show (List.replicate 17 1).sum = 17 from rfl] at k1
  unfold advance at k1
  rw [if_pos (by norm_num), if_pos (by norm_num)] at k1
  have : (b₃.ctrl.machinePosition 2 : ℝ) ≤ b.ctrl.machinePosition 2 + 857 := by
    push_cast at k1
    linarith
  exact_mod_cast this

/-- **C135, for the origin.** As C134, in calculations: the place where homing leaves the axis is uncertain by the way at 1 mm/s in
6.25 ms (1.25 steps) for each calculation of the 17 iterations. -/
theorem homing_zero_calcs (fpu : Fpu) (p : Ports) (rounds meanwhile : List Round) (r₀ : Round) (later : List Round)
    {b₀ b b' : Board (cnc3axis32.kit32 fpu)}
    (h₀ : Board.run (shippedTarget32 fpu) p rounds = some b₀) (ht : Timely fpu p (rounds ++ meanwhile ++ [r₀]))
    (hr : SampledRarely 15 (rounds ++ meanwhile ++ [r₀])) (hs : b₀.homer.state = .opening)
    (hf₀ : LastFive (switchOf .cnc3axis b₀.homer.currentHomingAxis) false rounds)
    (h : b₀.loops (shippedTarget32 fpu) meanwhile = some b) (hquiet₀ : ∀ x ∈ b.acts.drop b₀.acts.length, ¬ IsCommand x)
    (hf : LastFive (switchOf .cnc3axis b₀.homer.currentHomingAxis) true (rounds ++ meanwhile ++ [r₀]))
    (hlater : later.length = 16) (hl : b.loops (shippedTarget32 fpu) (r₀ :: later) = some b') {a : Nat} {m : HomingMove}
    (hm : (orders b.acts).getLast? = some m) (hrel : Release .cnc3axis a m) :
    ∃ rs r rest b₁ b₂, r₀ :: later = rs ++ r :: rest ∧ b.loops (shippedTarget32 fpu) rs = some b₁ ∧
      b₁.loop (shippedTarget32 fpu) r = some b₂ ∧ .stop ∈ b₂.acts.drop b₁.acts.length ∧
      ∀ qs r' qs' b₃ b₄ b₅ m', Timely fpu p ((rounds ++ meanwhile ++ rs) ++ r :: (qs ++ r' :: qs')) →
        b₂.loops (shippedTarget32 fpu) qs = some b₃ → (∀ x ∈ b₃.acts.drop b₂.acts.length, ¬ IsCommand x) →
        b₃.loop (shippedTarget32 fpu) r' = some b₄ → m' ∈ (orders b₄.acts).drop (orders b₃.acts).length → Offset .cnc3axis a m' →
        b₄.loops (shippedTarget32 fpu) qs' = some b₅ → (∀ x ∈ b₅.acts.drop b₄.acts.length, ¬ IsCommand x) →
        b₅.ctrl.state = .stopped →
        (b.ctrl.machinePosition a - 669 - 125 / 100 * ((r₀ :: later).map Round.calcs).sum : ℝ) ≤ b₅.ctrl.machinePosition a ∧
        (b₅.ctrl.machinePosition a : ℝ) ≤ b.ctrl.machinePosition a - 595 + 125 / 100 * ((r₀ :: later).map Round.calcs).sum ∧
        ∀ i, i < 3 → i ≠ a → b₅.ctrl.machinePosition i = b.ctrl.machinePosition i := by
  obtain ⟨rs, r, rest, b₁, b₂, c, log, e, h1, h2, h3, h4, h5⟩ := homing_zero_single fpu p rounds meanwhile r₀ later h₀ ht hr hs hf₀ h
    hquiet₀ hf hlater hl hm hrel
  refine ⟨rs, r, rest, b₁, b₂, e, h1, h2, h3, fun qs r' qs' b₃ b₄ b₅ m' a1 a2 a3 a4 a5 a6 a7 a8 a9 => ?_⟩
  obtain ⟨k1, k2, k3⟩ := h5 qs r' qs' b₃ b₄ b₅ m' a1 a2 a3 a4 a5 a6 a7 a8 a9
  have hrun : Board.run (shippedTarget32 fpu) p (rounds ++ meanwhile) = some b := by
    unfold Board.run at h₀ ⊢
    rw [Board.loops_snoc_list, h₀]
    exact h
  have hn := (calculations_cover (shippedTarget32 fpu) (show 0 < 375 by norm_num) (show 375 < 2 ^ 32 by norm_num) p _ hrun h4).2
  have hle : ((rs ++ [r]).map Round.calcs).sum ≤ ((r₀ :: later).map Round.calcs).sum := by rw [e]; simp
  have hn' : @List.length (Tick (Option SimplifiedMotion)) (ticksOf log) ≤ 375 * ((r₀ :: later).map Round.calcs).sum :=
    le_trans hn (Nat.mul_le_mul_left 375 hle)
  have hnR : ((ticksOf log).length : ℝ) ≤ 375 * (((r₀ :: later).map Round.calcs).sum : ℕ) := by exact_mod_cast hn'
  exact ⟨by linarith, by linarith, k3⟩

/-- Z (switch at the top) is at 55 mm (11000 steps) when its switch is to be found open the fifth time. If the 17 iterations make one
calculation each, Z comes to rest between 51.54 and 52.14 mm, and X and Y stay where they are. -/
example (fpu : Fpu) (p : Ports) (rounds meanwhile : List Round) (r₀ : Round) (later : List Round)
    {b₀ b b' : Board (cnc3axis32.kit32 fpu)}
    (h₀ : Board.run (shippedTarget32 fpu) p rounds = some b₀) (ht : Timely fpu p (rounds ++ meanwhile ++ [r₀]))
    (hr : SampledRarely 15 (rounds ++ meanwhile ++ [r₀])) (hs : b₀.homer.state = .opening)
    (hf₀ : LastFive (switchOf .cnc3axis b₀.homer.currentHomingAxis) false rounds)
    (h : b₀.loops (shippedTarget32 fpu) meanwhile = some b) (hquiet₀ : ∀ x ∈ b.acts.drop b₀.acts.length, ¬ IsCommand x)
    (hf : LastFive (switchOf .cnc3axis b₀.homer.currentHomingAxis) true (rounds ++ meanwhile ++ [r₀]))
    (hlater : later.length = 16) (hone : (r₀ :: later).map Round.calcs = List.replicate 17 1)
    (hl : b.loops (shippedTarget32 fpu) (r₀ :: later) = some b') {x y : Nat → Int}
    (hm : (orders b.acts).getLast? = some ⟨x, 2, -60, 1⟩) (h55 : b.ctrl.machinePosition 2 = 11000) :
    ∃ rs r rest b₁ b₂, r₀ :: later = rs ++ r :: rest ∧ b.loops (shippedTarget32 fpu) rs = some b₁ ∧
      b₁.loop (shippedTarget32 fpu) r = some b₂ ∧
      ∀ qs r' qs' b₃ b₄ b₅, Timely fpu p ((rounds ++ meanwhile ++ rs) ++ r :: (qs ++ r' :: qs')) →
        b₂.loops (shippedTarget32 fpu) qs = some b₃ → (∀ x ∈ b₃.acts.drop b₂.acts.length, ¬ IsCommand x) →
        b₃.loop (shippedTarget32 fpu) r' = some b₄ → ⟨y, 2, -3, 10⟩ ∈ (orders b₄.acts).drop (orders b₃.acts).length →
        b₄.loops (shippedTarget32 fpu) qs' = some b₅ → (∀ x ∈ b₅.acts.drop b₄.acts.length, ¬ IsCommand x) →
        b₅.ctrl.state = .stopped →
        10309 ≤ b₅.ctrl.machinePosition 2 ∧ b₅.ctrl.machinePosition 2 ≤ 10427 ∧
          b₅.ctrl.machinePosition 0 = b.ctrl.machinePosition 0 ∧ b₅.ctrl.machinePosition 1 = b.ctrl.machinePosition 1 := by
  obtain ⟨rs, r, rest, b₁, b₂, e, h1, h2, -, h5⟩ := homing_zero_calcs fpu p rounds meanwhile r₀ later (a := 2) h₀ ht hr hs hf₀ h
    hquiet₀ hf hlater hl hm ⟨rfl, by simp [sign, HomingConfig.cnc3axis], rfl⟩
  refine ⟨rs, r, rest, b₁, b₂, e, h1, h2, fun qs r' qs' b₃ b₄ b₅ a1 a2 a3 a4 a5 a6 a7 a8 => ?_⟩
  obtain ⟨k1, k2, k3⟩ := h5 qs r' qs' b₃ b₄ b₅ _ a1 a2 a3 a4 a5 ⟨rfl, by simp [sign, HomingConfig.cnc3axis], rfl⟩ a6 a7 a8
  rw [h55, hone, show (List.replicate 17 1).sum = 17 from rfl] at k1 k2
  push_cast at k1 k2
  refine ⟨?_, ?_, k3 0 (by norm_num) (by norm_num), k3 1 (by norm_num) (by norm_num)⟩
  · have : (10309 : ℝ) ≤ b₅.ctrl.machinePosition 2 := by linarith
    exact_mod_cast this
  · have : (b₅.ctrl.machinePosition 2 : ℝ) ≤ 10427 := by linarith
    exact_mod_cast this

end Props

end Moovr
