import Verif.Props.SingleStop
/-!
# Property C118: resuming a stopped straight motion of the 3-axis machine, in single precision

From an idle controller: append a straight motion, start, calculate, call `stop()` during the cruise, calculate until the machine
has stopped, call `start()` again and calculate as often as wanted; all with `float` arithmetic.
-/
namespace Moovr.Props
open Num Float32 Single MotionCtrl MotionSpec PulseSpec Straight32

/-! ## Proof -/

/-- The samples taken from `K` on until the motion is over, and the states at them. -/
private theorem resumed_states {M : Machine} {fpu : Fpu} {X : Path32} {p : Profile32} {D : ℝ} {K : Nat} {ts}
    {C : Nat → MotionCtrl (M.kit32 fpu)} (hC : Ticks ts C) (hA : Alone32 width32 X p K (C 0)) (hD : p.duration = num D)
    (hs : p.tStop = ⟨posInf⟩) (h0 : reading32 fpu width32 K ≤ D) (h1 : D ≤ 400) :
    ∃ N : Nat, 1 ≤ N ∧ (N : ℝ) ≤ 60010 * (D - reading32 fpu width32 K) + 21 ∧ D < reading32 fpu width32 (K + N) ∧
      (∀ k, k < N → reading32 fpu width32 (K + k) ≤ D) ∧
      (∀ k, k ≤ ts.length → k < N → Alone32 width32 X p (K + k) (C k)) ∧
      (∀ k (hk : k < ts.length), k + 1 < N → (C (k + 1)).time.timeInMotion = num (reading32 fpu width32 (K + (k + 1))) ∧
        ts[k].active ≠ none ∧ (C (k + 1)).buffer.getHead.traj = X ∧ (C (k + 1)).buffer.getHead.prof = p) ∧
      (∀ k, k ≤ ts.length → N ≤ k → Idle32 width32 (C k)) ∧
      (∀ k (hk : k < ts.length), N ≤ k + 1 → ts[k].active = none) := by
  classical
  have hw := width32_near
  have hw0 := width32_pos
  have near := fun k => abs_le.1 (reading32_near fpu k)
  have hKw : (K : ℝ) * width32 ≤ 401 := by
    have := (near K).1
    unfold eps at this
    linarith
  have hKw0 : 0 ≤ (K : ℝ) * width32 := by positivity
  have hK : K < 2 ^ 30 := by
    by_contra hc
    have h2 : (1073741824 : ℝ) ≤ K := by exact_mod_cast not_lt.1 hc
    have h1 := mul_le_mul_of_nonneg_left hw.1 (Nat.cast_nonneg (α := ℝ) K)
    unfold eps at h1
    norm_num at h1
    linarith
  obtain ⟨k₀, hk1, hk2⟩ : ∃ k₀ : Nat, 60010 * (D - reading32 fpu width32 K) + 20 ≤ k₀ ∧
      (k₀ : ℝ) ≤ 60010 * (D - reading32 fpu width32 K) + 21 :=
    ⟨_, Nat.le_ceil _, (Nat.ceil_lt_add_one (by linarith)).le.trans (by linarith)⟩
  have hr0 : 0 ≤ reading32 fpu width32 K := by
    have := reading32_mono fpu width32_pos.le (Nat.zero_le K)
    rw [reading32_zero] at this
    exact this
  have hfar : D < reading32 fpu width32 (K + k₀) := by
    have a := (near (K + k₀)).1
    have b := (near K).2
    have c := mul_le_mul_of_nonneg_right hk1 hw0.le
    have hΔ : 0 ≤ D - reading32 fpu width32 K := by linarith
    have c2 := mul_le_mul_of_nonneg_left hw.1 hΔ
    push_cast at a
    unfold eps at a b c2 hw
    norm_num at a b c c2 hw
    linarith
  have hex : ∃ k, D < reading32 fpu width32 (K + k) := ⟨_, hfar⟩
  have hN1 : 1 ≤ Nat.find hex := by
    rw [Nat.one_le_iff_ne_zero]
    intro h
    have := Nat.find_spec hex
    rw [h, Nat.add_zero] at this
    linarith
  have hNle : Nat.find hex ≤ k₀ := Nat.find_min' hex hfar
  have hbefore : ∀ k, k < Nat.find hex → reading32 fpu width32 (K + k) ≤ D := fun k hk => not_lt.1 (Nat.find_min hex hk)
  have hafter : D < reading32 fpu width32 (K + Nat.find hex) := Nat.find_spec hex
  generalize Nat.find hex = N at hN1 hNle hbefore hafter
  have hNr : (N : ℝ) ≤ 60010 * (D - reading32 fpu width32 K) + 21 := le_trans (by exact_mod_cast hNle) hk2
  have hk3 : k₀ < 2 ^ 30 := by
    have : (k₀ : ℝ) < 2 ^ 30 := lt_of_le_of_lt hk2 (by norm_num; linarith)
    exact_mod_cast this
  have hlim : ∀ k, k < N → K + k + 1 < 2 ^ 32 := by intro k hk; omega
  clear hw hw0 near hKw hKw0 hfar hex hK hNle hk1 hk2 hk3
  have going : ∀ k, k ≤ ts.length → k < N → Alone32 width32 X p (K + k) (C k) := by
    intro k
    induction k with
    | zero => intro _ _; exact hA
    | succ k ih =>
      intro hk hkN
      have h1 := ((ih (by omega) (by omega)).tick (hlim _ (by omega)) hD hs (hC.tick k hk)).1
      rw [Nat.add_assoc] at h1
      exact (h1 (hbefore _ hkN)).1
  have gone : ∀ a, N + a ≤ ts.length → Idle32 width32 (C (N + a)) ∧ ∀ hk : N + a - 1 < ts.length, ts[N + a - 1].active = none := by
    intro a
    induction a with
    | zero =>
      intro hk
      have := ((going (N - 1) (by omega) (by omega)).tick (hlim _ (by omega)) hD hs (hC.tick (N - 1) (by omega))).2
      rw [show K + (N - 1) + 1 = K + N by omega, show N - 1 + 1 = N by omega] at this
      obtain ⟨a, b, -⟩ := this hafter
      exact ⟨a, fun _ => b⟩
    | succ a ih =>
      intro hk
      obtain ⟨a', b', -⟩ := (ih (by omega)).1.tick (hC.tick (N + a) (by omega))
      exact ⟨a', fun _ => b'⟩
  refine ⟨N, hN1, hNr, hafter, hbefore, going, ?_, ?_, ?_⟩
  · intro k hk hkN
    have h1 := ((going k (by omega) (by omega)).tick (hlim _ (by omega)) hD hs (hC.tick k hk)).1
    rw [Nat.add_assoc] at h1
    obtain ⟨-, a, b⟩ := h1 (hbefore _ hkN)
    have := going (k + 1) hk hkN
    exact ⟨a, b, this.traj, this.prof⟩
  · intro k hk hkN
    have := gone (k - N) (by omega)
    rw [show N + (k - N) = k by omega] at this
    exact this.1
  · intro k hk hkN
    have := (gone (k + 1 - N) (by omega)).2
    have e : N + (k + 1 - N) - 1 = k := by omega
    simp only [e] at this
    exact this hk

set_option maxHeartbeats 1000000 in
/-- **C118** `start()` after a `stop()` during the cruise of a straight motion, 3-axis machine, `float` arithmetic. -/
theorem resume_cruise_single {fpu : Fpu} {c c₁ c₂ c₃ : MotionCtrl (cnc3axis32.kit32 fpu)} {r : SimplifiedMotion} {x d : Nat → ℝ}
    {L q g V : ℝ} {m n n' : Nat} {log₁ log₂ log₃} (hc : Idle32 width32 c) (hq : c.overrides.feedOverride = fin q)
    (hr : LineRequest r x d L) (hg : Asked r L q g) (hm : ∀ i, i < 3 → |200 * x i - c.machinePosition i| ≤ 1) (hV : AtMost r d L q V)
    (hrun : c.run (.append r :: .start :: List.replicate m .calculate) = some (c₁, log₁))
    (hstop : c₁.run (.stop :: List.replicate n .calculate) = some (c₂, log₂))
    (early : 37800 ≤ (ticksOf log₁).length) (late : V * ((ticksOf log₁).length / 60000 + 17 / 10) ≤ L)
    (stopped : c₂.state = .stopped) (hresume : c₂.run (.start :: List.replicate n' .calculate) = some (c₃, log₃)) :
    ∃ (N : Nat) (s₁ : ℝ), (N : ℝ) ≤ 60100 * (L / g) + 120000 ∧ n' ≤ (ticksOf log₃).length ∧ 0 ≤ s₁ ∧ s₁ ≤ L ∧
      (∀ i, i < 3 → |200 * (x i + d i * (s₁ / L)) - c₂.machinePosition i| ≤ 1) ∧
      (N ≤ (ticksOf log₃).length → Idle32 width32 c₃ ∧ ∀ i, i < 3 → |200 * (x i + d i) - c₃.machinePosition i| ≤ 1) ∧
      ((ticksOf log₃).length < N → c₃.state = .running ∧
        ∃ s, s₁ ≤ s ∧ s ≤ L ∧ ∀ i, i < 3 → |200 * (x i + d i * (s / L)) - c₃.machinePosition i| ≤ 1) ∧
      ∀ i, i < 3 →
        (d i = 0 → ∀ t ∈ ticksOf log₃, t.cmd i = none) ∧
        (0 < d i → (ticksOf log₃).Pairwise fun t t' => t.cmd i = some .forward → t'.cmd i ≠ some .backward) ∧
        (d i < 0 → (ticksOf log₃).Pairwise fun t t' => t.cmd i = some .backward → t'.cmd i ≠ some .forward) := by
  obtain ⟨X, p, v, S₀, N₁, -, -, hvV, hgv, F, -⟩ := stop_state (a := 166 / 100) hc hq hr hg hm hV hrun hstop (by norm_num) early
    (by norm_num at late ⊢; exact late)
  have hs := hr.toStraight32
  have hv := F.speed
  have hst := F.stop
  have hge := hv.ge
  have hb := hs.brake hv F.long
  have hh := hyst
  have hsl := slack_stop
  have hplace := F.place
  have hN₁ : N₁ ≤ (ticksOf log₂).length := by
    by_contra hcn
    have := F.halting (by omega)
    rw [stopped] at this
    exact absurd this (by simp)
  have hH := F.halted hN₁
  have hafter := F.after
  have hsoon := F.soon
  have hroom := F.room
  have hcr := F.cruise
  rw [Nat.min_eq_right hN₁] at hplace
  generalize (ticksOf log₁).length = K₁ at *
  have hT₁f : rnd (reading32 fpu width32 (K₁ + N₁)) = reading32 fpu width32 (K₁ + N₁) := reading32_float _ _ _
  have hlt : reading32 fpu width32 K₁ + (Ramp.down v (acc d L) 600 .secondOrder).dur < reading32 fpu width32 (K₁ + N₁) := by
    by_contra hcn
    push Not at hcn
    have := rnd_mono hcn
    rw [hT₁f] at this
    linarith
  have hb0 := hb.dur_nonneg
  have hsub := float_sub hst.floatT hT₁f (by linarith) (by linarith) (by linarith)
  have hbd : (Ramp.down v (acc d L) 600 .secondOrder).dur <
      rnd (reading32 fpu width32 (K₁ + N₁) - reading32 fpu width32 K₁) := by rw [hsub]; linarith
  have hS₁ : haltS (Ramp.down v (acc d L) 600 .secondOrder) S₀ (reading32 fpu width32 K₁) (reading32 fpu width32 (K₁ + N₁)) =
      rnd (S₀ + (Ramp.down v (acc d L) 600 .secondOrder).len) := by
    unfold haltS
    rw [if_neg (by linarith), if_neg (by linarith)]
  rw [hS₁] at hplace
  obtain ⟨hA, hmp⟩ := hH.start
  obtain ⟨q', hq', q1, q2, q3, q4, q5, q6, q7, q8, q9⟩ := F.halts.again (M := cnc3axis32) (o := c₂.overrides) (st := .maximizeSpeed)
    (X := X) (u := reading32 fpu width32 (K₁ + N₁)) (by linarith) hbd F.moves
  rw [hq', F.length, F.overrides] at hA
  obtain ⟨mm, dm, Θ, e, hgo, G, hΘ⟩ := hs.goes_on hv hb hst hroom (by linarith) hsoon (f := ⟨c.overrides.feedOverride⟩) q1 q2 q3 q4
    (q5.trans F.limits.1) (q6.trans F.limits.2.1) (q7.trans F.limits.2.2) (by rw [q8, q9]; exact F.feed)
  have hM : (num cnc3axis32.minLengthSProfile : Single) = num 0 := rfl
  rw [hM] at hA
  generalize rnd (S₀ + (Ramp.down v (acc d L) 600 .secondOrder).len) = S₁ at *
  generalize q'.plan (num (rnd L)) ⟨c.overrides.feedOverride⟩ (num 0) .maximizeSpeed = P at *
  obtain ⟨hn, C, hC, hC0, sg, hlast⟩ := request_run (q := .start) rfl ⟨_, rfl⟩ hresume
  rw [← hC0] at hA hmp
  obtain ⟨b1, b2, b3, b4⟩ := G.begins
  have hΘ376 : Θ ≤ 377 := by
    have h1 := hs.path_ratio hv
    by_contra hcn
    push Not at hcn
    have : v * 377 ≤ v * Θ := mul_le_mul_of_nonneg_left hcn.le (by linarith)
    linarith
  obtain ⟨N, hN1, hN, hpast, hbefore, going, active, gone, over⟩ :=
    resumed_states (D := GoOn.over _ _ dm _) hC hA hgo.duration hgo.tStop b2 (by linarith)
  have hml : ∀ i, c₃.machinePosition i = (C (ticksOf log₃).length).machinePosition i := fun i => by rw [hlast]; rfl
  have hmono := reading32_mono fpu width32_pos.le
  have hge' : ∀ k, reading32 fpu width32 (K₁ + N₁) ≤ reading32 fpu width32 (K₁ + N₁ + k) := fun k => hmono (by omega)
  have hset : Sampled32 r x d L (goesOnS (Ramp.up v (acc d L) 600 .secondOrder) (Ramp.down v (acc d L) 600 .secondOrder) v mm dm S₁
      (reading32 fpu width32 (K₁ + N₁))) P (K₁ + N₁) (N - 1) (ticksOf log₃) C X := by
    refine ⟨hr, fun u => hgo.s, ?_, ?_, ?_, hC, F.path, fun k hk h => active k hk (by omega), fun k hk h => over k hk (by omega)⟩
    · intro k i hk hi
      have h1 := G.rate (fpu := fpu) hs hi (hge' k) (hmono (show K₁ + N₁ + k ≤ K₁ + N₁ + (k + 1) by omega)) (hbefore _ (by omega))
      have h2 := GoOn.hop (fpu := fpu) hs hv hΘ hi ((hbefore k (by omega)).trans b3)
      rw [Nat.add_assoc (K₁ + N₁) k 1] at h2
      norm_num at h1 h2 ⊢
      linarith
    · intro j k i hjk hk hi
      exact G.falls (fpu := fpu) hs hi (hge' j) (hmono (by omega)) (hbefore _ (by omega))
    · intro k i hk hi
      obtain ⟨s, s0, s1, he⟩ := G.clamped (hge' k) (hbefore k (by omega))
      have h1 := abs_le.1 (G.line (fpu := fpu) hs hi (hge' k) (hbefore k (by omega)) s0 s1 he)
      have h2 := abs_le.1 (between_ends hs hi (G.S_nonneg.trans s0) s1)
      rw [abs_le]
      norm_num at h1 h2 ⊢
      constructor <;> linarith
  have axis := fun i (hi : i < 3) => hset.axis hi fun hd => by
    rw [hmp, b1]
    exact (hplace i hi).2 hd
  have hfin : ∀ i, i < 3 → (d i = 0 → c₃.machinePosition i = c.machinePosition i) ∧
      (d i ≠ 0 → |spot fpu x d L i (goesOnS (Ramp.up v (acc d L) 600 .secondOrder) (Ramp.down v (acc d L) 600 .secondOrder) v mm dm S₁
        (reading32 fpu width32 (K₁ + N₁)) (reading32 fpu width32 (K₁ + N₁ + min (ticksOf log₃).length (N - 1)))) * 200 -
          c₃.machinePosition i| ≤ 1 / 2 + cnc3axis32.hysteresis + slack 62000) := by
    intro i hi
    obtain ⟨a1, a2, -⟩ := axis i hi
    refine ⟨fun hd => (hml i).trans (((a1 hd).1 _ le_rfl).trans ((congrFun hmp i).trans ((hplace i hi).1 hd))), fun hd => ?_⟩
    rw [hml]
    exact a2 hd _ le_rfl
  have hg0 : 0 < g ∧ g ≤ 30 := by
    rcases hg with ⟨-, -, rfl⟩ | ⟨f, -, -, -, h1, rfl, -⟩
    · norm_num
    · exact ⟨lt_min (by linarith) (by norm_num), min_le_right _ _⟩
  have hL := hs.L_pos
  -- a position near a computed one
  have place : ∀ s, S₁ ≤ s → s ≤ L → |goesOnS (Ramp.up v (acc d L) 600 .secondOrder) (Ramp.down v (acc d L) 600 .secondOrder) v mm dm S₁
      (reading32 fpu width32 (K₁ + N₁)) (reading32 fpu width32 (K₁ + N₁ + min (ticksOf log₃).length (N - 1))) - s| ≤ 9 / 10 ^ 4 →
      ∀ i, i < 3 → |200 * (x i + d i * (s / L)) - c₃.machinePosition i| ≤ 1 := by
    intro s s0 s1 he i hi
    obtain ⟨a1, a2⟩ := hfin i hi
    by_cases hd : d i = 0
    · rw [a1 hd, hd, zero_mul, add_zero]
      exact hm i hi
    · have h1 := abs_le.1 (a2 hd)
      have h2 := abs_le.1 (G.line (fpu := fpu) hs hi (hge' _) (hbefore _ (by omega)) s0 s1 he)
      rw [abs_le]
      constructor <;> linarith
  refine ⟨N, S₁, ?_, hn, G.S_nonneg, b4, ?_, ?_, ?_, ?_⟩
  · have h1 : Θ ≤ L / v + 252 / 100 := by
      rw [div_add' _ _ _ (by linarith : v ≠ 0), le_div_iff₀ (by linarith)]
      linarith
    have h2 : L / v ≤ 1000 / 999 * (L / g) := by
      rw [div_le_iff₀ (by linarith), show 1000 / 999 * (L / g) * v = L * (1000 / 999 * v / g) by ring]
      refine le_mul_of_one_le_right hL.le ?_
      rw [le_div_iff₀ hg0.1]
      linarith
    have h3 : 0 ≤ L / g := by have := hg0.1; positivity
    linarith
  · intro i hi
    by_cases hd : d i = 0
    · rw [(hplace i hi).1 hd, hd, zero_mul, add_zero]
      exact hm i hi
    · have h1 := abs_le.1 ((hplace i hi).2 hd)
      have h2 := abs_le.1 (G.line (fpu := fpu) hs hi le_rfl b2 le_rfl b4 (by rw [b1, sub_self, abs_zero]; norm_num))
      rw [b1] at h2
      rw [abs_le]
      constructor <;> linarith
  · intro hN'
    refine ⟨?_, fun i hi => ?_⟩
    · have := gone _ le_rfl hN'
      rw [hlast]
      exact ⟨this.1, this.2, this.3, this.4, this.5, this.6, this.7⟩
    · obtain ⟨a1, a2⟩ := hfin i hi
      by_cases hd : d i = 0
      · rw [a1 hd, hd, add_zero]
        exact hm i hi
      · have h1 := abs_le.1 (a2 hd)
        rw [Nat.min_eq_right (by omega)] at h1
        have h3 := GoOn.hop (fpu := fpu) hs hv hΘ hi ((hbefore (N - 1) (by omega)).trans b3)
        rw [show K₁ + N₁ + (N - 1) + 1 = K₁ + N₁ + N by omega] at h3
        have h2 := abs_le.1 (G.at_end (fpu := fpu) hs hi (hge' (N - 1)) (hbefore (N - 1) (by omega)) (le_trans
          (mul_le_mul_of_nonneg_left (mul_le_mul_of_nonneg_left (by linarith) (by linarith)) (abs_nonneg _)) h3))
        rw [abs_le]
        constructor <;> linarith
  · intro hN'
    obtain ⟨s, s0, s1, he⟩ := G.clamped (hge' (min (ticksOf log₃).length (N - 1))) (hbefore _ (by omega))
    refine ⟨?_, s, s0, s1, place s s0 s1 he⟩
    rw [hlast]
    exact (going _ le_rfl hN').state
  · intro i hi
    obtain ⟨a1, -, a3, a4⟩ := axis i hi
    exact ⟨fun hd => (a1 hd).2, a3, a4⟩

/-! ## Example -/

/-- The motion of 50 mm at 10 mm/s is stopped after about 2 s and resumed: at most 7 s later the machine is at (30, 40, 0) mm. -/
example (fpu : Fpu) (n n' : Nat) (hn : 36900 ≤ n) (hn' : 420500 ≤ n') :
    ∃ m c₁ log₁ c₂ log₂ c₃ log₃, ((MotionCtrl.fresh (cnc3axis32.kit32 fpu)).configure 375 (num width32)).run
        (.append oblique :: .start :: List.replicate m .calculate) = some (c₁, log₁) ∧
      120000 ≤ (ticksOf log₁).length ∧ (ticksOf log₁).length < 120375 ∧
      c₁.run (.stop :: List.replicate n .calculate) = some (c₂, log₂) ∧ c₂.state = .stopped ∧
      c₂.run (.start :: List.replicate n' .calculate) = some (c₃, log₃) ∧ Idle32 width32 c₃ ∧
      |6000 - (c₃.machinePosition 0 : ℝ)| ≤ 1 ∧ |8000 - (c₃.machinePosition 1 : ℝ)| ≤ 1 ∧ ∀ t ∈ ticksOf log₃, t.cmd 2 = none := by
  obtain ⟨m, c₁, log₁, h1, h2, h3⟩ := ticks_reach (cnc3axis32.kit32 fpu) (num width32) oblique 120000 (by norm_num)
  obtain ⟨c₃, log, hrun, -⟩ := motion_history_returns (K := cnc3axis32.kit32 fpu)
    ([.configure 375 (num width32)] ++ ((.append oblique :: .start :: List.replicate m .calculate) ++
      ((.stop :: List.replicate n .calculate) ++ (.start :: List.replicate n' .calculate))))
  obtain ⟨c', l₁, l₂, e1, e2, -⟩ := run_split _ _ hrun
  simp only [run, call, Option.map_some, Option.some.injEq, Prod.mk.injEq] at e1
  obtain ⟨rfl, -⟩ := e1
  obtain ⟨c'', l₃, l₄, e3, e4, -⟩ := run_split _ _ e2
  obtain ⟨rfl, rfl⟩ : c₁ = c'' ∧ log₁ = l₃ := by
    have := h1.symm.trans e3
    simpa using this
  obtain ⟨c₂, log₂, log₃, e5, e6, -⟩ := run_split _ _ e4
  obtain ⟨i1, i2, i3⟩ := idle_configured_single fpu 375
  have hl : ((ticksOf log₁).length : ℝ) < 120375 := by exact_mod_cast h3
  have late : (10 : ℝ) * (((ticksOf log₁).length : ℝ) / 60000 + 17 / 10) ≤ 50 := by linarith
  have late' : (10 : ℝ) * (((ticksOf log₁).length : ℝ) / 60000 + 7 / 10) ≤ 50 := by linarith
  have ask : Asked oblique 50 1 10 := .inr ⟨10, rfl, by norm_num, by norm_num, by norm_num, by norm_num⟩
  have start : ∀ i, i < 3 → |200 * (0 : ℝ) - ((MotionCtrl.fresh (cnc3axis32.kit32 fpu)).configure 375 (num width32)).machinePosition i| ≤ 1 :=
    fun i _ => by rw [i2]; norm_num
  obtain ⟨N, s₀, s₁, n1, n2, -, -, -, -, -, n5, -⟩ := stop_cruise_single (V := 10) i1 i3 oblique_line ask start
    (.inl ⟨10, rfl, by norm_num⟩) h1 e5 (by omega) late'
  obtain ⟨j1, -, -⟩ := n5 (by omega)
  obtain ⟨N', s, k1, k2, -, -, -, k3, -, k4⟩ := resume_cruise_single (V := 10) i1 i3 oblique_line ask start
    (.inl ⟨10, rfl, by norm_num⟩) h1 e5 (by omega) late j1 e6
  have hN' : N' ≤ 420500 := by
    have : (N' : ℝ) ≤ 420500 := k1.trans (by norm_num)
    exact_mod_cast this
  obtain ⟨j2, j3⟩ := k3 (by omega)
  refine ⟨m, c₁, log₁, c₂, log₂, c₃, log₃, h1, h2, h3, e5, j1, e6, j2, ?_, ?_, (k4 2 (by norm_num)).1 (by norm_num)⟩
  · have := j3 0 (by norm_num)
    norm_num at this; exact this
  · have := j3 1 (by norm_num)
    norm_num at this; exact this

end Moovr.Props
