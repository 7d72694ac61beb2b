import Verif.Lemmas.Brake32
import Verif.Lemmas.Sampled32
import Verif.Lemmas.Regain32
/-!
# Property C117: stopping a straight motion of the 3-axis machine, in single precision

From an idle controller: append a straight motion, start, calculate, call `stop()` during the cruise, and calculate as often as
wanted; all with `float` arithmetic.
-/
namespace Moovr.Props
open Num Float32 Single MotionCtrl MotionSpec PulseSpec Straight32

/-- The speed along the path is at most `V`: the programmed one is, or the one at which an axis reaches its limit of 30 mm/s. -/
def AtMost (r : SimplifiedMotion) (d : Nat → ℝ) (L q V : ℝ) : Prop :=
  (∃ f, r.vFeed = fin f ∧ f * q ≤ V) ∨ ∃ i, i < 3 ∧ 30 * L ≤ V * |d i|

/-! ## Proof -/

private theorem speed_limit {r : SimplifiedMotion} {x d : Nat → ℝ} {L q g v V : ℝ} (h : Straight32 x d L) (hg : Asked r L q g)
    (hv : Speed d L v) (hf : ∀ f, r.vFeed = fin f → v ≤ rnd (rnd f * q)) (hV : AtMost r d L q V) : v ≤ (1 + 5 * eps) * V ∧ 0 < V := by
  have hge := hv.ge
  have hL := h.L_pos
  rcases hV with ⟨f, e, hfV⟩ | ⟨i, hi, hd⟩
  · have h1 := hf f e
    rcases hg with ⟨e', -⟩ | ⟨f', e', hq, hq4, hfq, -⟩
    · rw [e] at e'; exact absurd e' (by simp)
    · rw [e] at e'
      obtain rfl : f = f' := Num.fin.inj e'
      have hf0 : 1 / 40 ≤ f := by
        by_contra hc
        push Not at hc
        have : f * q < 1 / 40 * q := mul_lt_mul_of_pos_right hc hq
        linarith
      have h2 : rnd f ≤ (1 + eps) * f := by
        have := rnd_scale (x := f) (X := f) (by rw [abs_of_nonneg (by linarith)])
          ((by rw [zpow_neg]; norm_num : (2 : ℝ) ^ (-126 : ℤ) ≤ 1 / 40).trans hf0)
        rw [eps_eq] at this
        have := (abs_le.1 this).2
        linarith
      have h3 : rnd f * q ≤ (1 + eps) * V := by
        have a := mul_le_mul_of_nonneg_right h2 hq.le
        have b := mul_le_mul_of_nonneg_left hfV (show 0 ≤ 1 + eps by have := eps_pos; linarith)
        linarith
      have hV0 : 0 < V := by linarith
      have h4 : rnd ((1 + eps) * V) ≤ (1 + eps) * ((1 + eps) * V) := by
        have : 1 / 20 ≤ (1 + eps) * V := by unfold eps; linarith
        have := rnd_scale (x := (1 + eps) * V) (X := (1 + eps) * V) (by rw [abs_of_nonneg (by linarith)])
          ((by rw [zpow_neg]; norm_num : (2 : ℝ) ^ (-126 : ℤ) ≤ 1 / 20).trans this)
        rw [eps_eq] at this
        have := (abs_le.1 this).2
        linarith
      refine ⟨(h1.trans (rnd_mono h3)).trans (h4.trans ?_), hV0⟩
      unfold eps
      norm_num
      linarith
  · have hV0 : 0 < V := by
      by_contra hc
      push Not at hc
      have := mul_nonpos_of_nonpos_of_nonneg hc (abs_nonneg (d i))
      linarith
    refine ⟨?_, hV0⟩
    have h52 := h.speed_le hv
    by_cases hbig : 60 ≤ V
    · have := eps_pos
      nlinarith
    · push Not at hbig
      have hq : 30 / V ≤ |d i| / L := by
        rw [div_le_div_iff₀ hV0 hL]; linarith
      have hq2 : 1 / 2 ≤ |d i| / L := by
        refine le_trans ?_ hq
        rw [div_le_div_iff₀ (by norm_num) hV0]; linarith
      have hdi : (1 - eps) * (|d i| / L) ≤ |dir d L i| := by
        have e : |dir d L i| = |rnd (d i / L)| := rfl
        have e' : |d i| / L = |d i / L| := by rw [abs_div, abs_of_pos hL]
        have := rnd_scale (x := d i / L) (X := |d i / L|) le_rfl
          ((by rw [zpow_neg]; norm_num : (2 : ℝ) ^ (-126 : ℤ) ≤ 1 / 2).trans (e' ▸ hq2))
        rw [eps_eq] at this
        have t := abs_sub_abs_le_abs_sub (d i / L) (rnd (d i / L))
        rw [abs_sub_comm] at t
        rw [e, e']
        linarith
      have htop : (1 - eps) * (30 / V) ≤ top d L := by
        have := mul_le_mul_of_nonneg_left hq (show 0 ≤ 1 - eps by unfold eps; norm_num)
        exact this.trans (hdi.trans (dir_top hi))
      have hU := (quotient_near (c := 30) (by norm_num) h.top_pos h.top_le).2
      have h1 : top d L * v ≤ (1 + eps) * 30 := (mul_le_mul_of_nonneg_left hv.le h.top_pos.le).trans hU
      have h2 := (mul_le_mul_of_nonneg_right htop (show 0 ≤ v by linarith)).trans h1
      have h3 : (1 - eps) * v ≤ (1 + eps) * V := by
        have := mul_le_mul_of_nonneg_right h2 hV0.le
        rw [show (1 - eps) * (30 / V) * v * V = 30 * ((1 - eps) * v) * (V / V) by ring, div_self hV0.ne'] at this
        linarith
      unfold eps at h3 ⊢
      norm_num at h3 ⊢
      linarith

/-- The states at the samples taken after the request to stop. -/
private theorem halting_states {M : Machine} {fpu : Fpu} {X : Path32} {p : Profile32} {e : ℝ} {K : Nat} {ts}
    {C : Nat → MotionCtrl (M.kit32 fpu)} (hC : Ticks ts C) (hA : Halting32 width32 X p K (C 0)) (hD : p.duration = ⟨posInf⟩)
    (hs : p.tStop = num e) (h0 : reading32 fpu width32 K ≤ e) (h61 : e ≤ reading32 fpu width32 K + 61 / 100)
    (h6 : reading32 fpu width32 K ≤ 6000) :
    ∃ N : Nat, 1 ≤ N ∧ N ≤ 36900 ∧ e < reading32 fpu width32 (K + N) ∧ (∀ k, k < N → reading32 fpu width32 (K + k) ≤ e) ∧
      (∀ k, k ≤ ts.length → k < N → Halting32 width32 X p (K + k) (C k)) ∧
      (∀ k (hk : k < ts.length), k < N → (C (k + 1)).time.timeInMotion = num (reading32 fpu width32 (K + (k + 1))) ∧
        ts[k].active ≠ none ∧ (C (k + 1)).buffer.getHead.traj = X ∧ (C (k + 1)).buffer.getHead.prof = p) ∧
      (∀ k, k ≤ ts.length → N ≤ k → Halted32 width32 X p (K + N) (C k)) ∧
      (∀ k (hk : k < ts.length), N ≤ k → ts[k].active = none) := by
  classical
  have hw := width32_near
  have hw0 := width32_pos
  have near := fun k => abs_le.1 (reading32_near fpu k)
  have hKw : (K : ℝ) * width32 ≤ 6001 := by
    have := (near K).1
    unfold eps at this
    linarith
  have hKw0 : 0 ≤ (K : ℝ) * width32 := by positivity
  have hfar : e < reading32 fpu width32 (K + 36900) := by
    have a := (near (K + 36900)).1
    have b := (near K).2
    push_cast at a
    unfold eps at a b hw
    norm_num at a b hw
    linarith
  have hex : ∃ k, e < reading32 fpu width32 (K + k) := ⟨_, hfar⟩
  have hN1 : 1 ≤ Nat.find hex := by
    rw [Nat.one_le_iff_ne_zero]
    intro h
    have := Nat.find_spec hex
    rw [h, Nat.add_zero] at this
    linarith
  have hNle : Nat.find hex ≤ 36900 := Nat.find_min' hex hfar
  have hbefore : ∀ k, k < Nat.find hex → reading32 fpu width32 (K + k) ≤ e := fun k hk => not_lt.1 (Nat.find_min hex hk)
  have hafter : e < reading32 fpu width32 (K + Nat.find hex) := Nat.find_spec hex
  generalize Nat.find hex = N at hN1 hNle hbefore hafter
  have hK : K < 2 ^ 30 := by
    by_contra hc
    have h2 : (1073741824 : ℝ) ≤ K := by exact_mod_cast not_lt.1 hc
    have h1 := mul_le_mul_of_nonneg_left hw.1 (Nat.cast_nonneg (α := ℝ) K)
    unfold eps at h1
    norm_num at h1
    linarith
  have hlim : ∀ k, k < N → K + k + 1 < 2 ^ 32 := by intro k hk; omega
  have hNle' := hNle
  clear hw hw0 near hKw hKw0 hfar hex hK hNle
  have going : ∀ k, k ≤ ts.length → k < N → Halting32 width32 X p (K + k) (C k) := by
    intro k
    induction k with
    | zero => intro _ _; exact hA
    | succ k ih =>
      intro hk hkN
      have h1 := ((ih (by omega) (by omega)).tick (hlim _ (by omega)) hD hs (hC.tick k hk)).2.2.1
      rw [Nat.add_assoc] at h1
      exact h1 (hbefore _ hkN)
  have gone : ∀ a, N + a ≤ ts.length → Halted32 width32 X p (K + N) (C (N + a)) := by
    intro a
    induction a with
    | zero =>
      intro hk
      have := ((going (N - 1) (by omega) (by omega)).tick (hlim _ (by omega)) hD hs (hC.tick (N - 1) (by omega))).2.2.2
      rw [show K + (N - 1) + 1 = K + N by omega, show N - 1 + 1 = N by omega] at this
      exact this hafter
    | succ a ih =>
      intro hk
      exact ((ih (by omega)).tick (hC.tick (N + a) (by omega))).1
  have gone' : ∀ k, k ≤ ts.length → N ≤ k → Halted32 width32 X p (K + N) (C k) := by
    intro k hk hkN
    have := gone (k - N) (by omega)
    rwa [show N + (k - N) = k by omega] at this
  refine ⟨N, hN1, hNle', hafter, hbefore, going, ?_, gone', ?_⟩
  · intro k hk hkN
    obtain ⟨a, b, -⟩ := (going k (by omega) hkN).tick (hlim _ hkN) hD hs (hC.tick k hk)
    rw [Nat.add_assoc] at a
    refine ⟨a, b, ?_⟩
    by_cases h : k + 1 < N
    · have := going (k + 1) hk h
      exact ⟨this.traj, this.prof⟩
    · have := gone' (k + 1) hk (by omega)
      exact ⟨this.traj, this.prof⟩
  · intro k hk hkN
    exact ((gone' k (by omega) hkN).tick (hC.tick k hk)).2

/-- A distance on the line near the computed one. -/
private theorem clamp {b : Ramp} {x d : Nat → ℝ} {L v S₀ t : ℝ} (h : Straight32 x d L) (hv : Speed d L v) (hb : Brake b v)
    (hs : Stop L v S₀ t) (u : ℝ) : ∃ s, S₀ ≤ s ∧ s ≤ S₀ + b.len ∧ |haltS b S₀ t u - s| ≤ 2 / 10 ^ 4 := by
  obtain ⟨a, c⟩ := hs.range h hv hb u
  have hl := hb.len_nonneg
  refine ⟨max S₀ (min (haltS b S₀ t u) (S₀ + b.len)), le_max_left _ _, max_le (by linarith) (min_le_right _ _), ?_⟩
  rw [abs_le]
  rcases le_total (haltS b S₀ t u) (S₀ + b.len) with e | e
  · rw [min_eq_left e]
    rcases le_total S₀ (haltS b S₀ t u) with e' | e'
    · rw [max_eq_right e']; norm_num
    · rw [max_eq_left e']; constructor <;> norm_num at * <;> linarith
  · rw [min_eq_right e, max_eq_right (by linarith)]; constructor <;> norm_num at * <;> linarith

/-- What is known after the request to stop: the machine brakes with the ramp it would have used at the end. `m` ticks have been
calculated since, `N` are needed. -/
structure StopFacts {fpu : Fpu} (r : SimplifiedMotion) (x d : Nat → ℝ) (L a : ℝ) (f : Single) (X : Path32) (p : Profile32) (v S₀ : ℝ)
    (K N m : Nat) (c c₁ c₂ : MotionCtrl (cnc3axis32.kit32 fpu)) : Prop where
  moves : X.type.moves = true
  path : X.trajectory = .ofReq r.trajectory
  length : X.trajectory.length = num (rnd L)
  speed : Speed d L v
  room : v * (reading32 fpu width32 K + a) ≤ L
  cruise : 61 / 100 ≤ reading32 fpu width32 K
  long : 127 / 100 * v ≤ L
  stop : Stop L v S₀ (reading32 fpu width32 K)
  halts : p.Halts (Ramp.down v (acc d L) 600 .secondOrder) S₀ (reading32 fpu width32 K)
  limits : p.aMax = num (acc d L) ∧ p.dMax = num (-acc d L) ∧ p.jMax = num 600
  feed : (if p.vMax.lt (p.vFeed * f) then p.vMax else p.vFeed * f) = num v
  after : rnd (reading32 fpu width32 K + (Ramp.down v (acc d L) 600 .secondOrder).dur) < reading32 fpu width32 (K + N)
  soon : reading32 fpu width32 (K + N) ≤ reading32 fpu width32 K + 62 / 100
  early : ∀ i, i < 3 → (d i = 0 → c₁.machinePosition i = c.machinePosition i) ∧
    (d i ≠ 0 → |spot fpu x d L i S₀ * 200 - c₁.machinePosition i| ≤ 5572 / 10000)
  halting : m < N → c₂.state = .stopping
  halted : N ≤ m → Halted32 width32 X p (K + N) c₂
  overrides : c₂.overrides = c.overrides
  place : ∀ i, i < 3 → (d i = 0 → c₂.machinePosition i = c.machinePosition i) ∧
    (d i ≠ 0 → |spot fpu x d L i (haltS (Ramp.down v (acc d L) 600 .secondOrder) S₀ (reading32 fpu width32 K)
      (reading32 fpu width32 (K + min m N))) * 200 - c₂.machinePosition i| ≤ 1 / 2 + cnc3axis32.hysteresis + slack 62000)

set_option maxHeartbeats 1000000 in
/-- `stop()` during the cruise of a straight motion, seen from its plan. -/
theorem stop_core {fpu : Fpu} {c c₁ c₂ : MotionCtrl (cnc3axis32.kit32 fpu)} {r : SimplifiedMotion} {x d : Nat → ℝ}
    {L a v D : ℝ} {S : ℝ → ℝ} {n K : Nat} {log₂} {X : Path32} {p p' : Profile32} (hr : LineRequest r x d L)
    (hov : c₁.overrides = c.overrides) (hmov : X.type.moves = true) (hX : X.trajectory = .ofReq r.trajectory)
    (hlen : X.trajectory.length = num (rnd L)) (hp : p = p'.plan (num (rnd L)) ⟨c.overrides.feedOverride⟩ (num 0) .maximizeSpeed)
    (hbet : Between p' ⟨c.overrides.feedOverride⟩ (num 0) (rnd L) v (acc d L) (acc d L) 600)
    (hS : ∀ t, rnd t = t → p.s (num t) = num (S t)) (hv : Speed d L v) (hl : Law d L v D S)
    (hstate : 0 < K → reading32 fpu width32 K ≤ D → Alone32 width32 X p K c₁ ∧ c₁.time.timeInMotion = num (reading32 fpu width32 K) ∧
      ∀ i, i < 3 → (d i = 0 → c₁.machinePosition i = c.machinePosition i) ∧
        (d i ≠ 0 → |spot fpu x d L i (S (reading32 fpu width32 K)) * 200 - c₁.machinePosition i| ≤ 5572 / 10000))
    (hstop : c₁.run (.stop :: List.replicate n .calculate) = some (c₂, log₂)) (ha : 66 / 100 ≤ a)
    (t0 : 61 / 100 ≤ reading32 fpu width32 K) (ta : v * (reading32 fpu width32 K + a) ≤ L) :
    ∃ (p : Profile32) (N : Nat), N ≤ 36900 ∧ n ≤ (ticksOf log₂).length ∧
      StopFacts r x d L a ⟨c.overrides.feedOverride⟩ X p v (S (reading32 fpu width32 K)) K N (ticksOf log₂).length c c₁ c₂ ∧
      ∀ i, i < 3 →
        (d i = 0 → ∀ t ∈ ticksOf log₂, t.cmd i = none) ∧
        (0 < d i → (ticksOf log₂).Pairwise fun t t' => t.cmd i = some .forward → t'.cmd i ≠ some .backward) ∧
        (d i < 0 → (ticksOf log₂).Pairwise fun t t' => t.cmd i = some .backward → t'.cmd i ≠ some .forward) := by
  have hs := hr.toStraight32
  have hge := hv.ge
  have hL520 := hs.L_le
  have near := abs_le.1 (reading32_near fpu K)
  have hw := width32_near
  have hw0 := width32_pos
  have hK0 : 0 < K := by
    rcases Nat.eq_zero_or_pos K with h | h
    · rw [h, reading32_zero] at t0; norm_num at t0
    · exact h
  have t1 : v * (reading32 fpu width32 K + 66 / 100) ≤ L :=
    (mul_le_mul_of_nonneg_left (by linarith) (by linarith)).trans ta
  have htf : rnd (reading32 fpu width32 K) = reading32 fpu width32 K := reading32_float _ _ _
  rw [hp] at hS
  have hM : cnc3axis32.minLengthSProfile = 0 := rfl
  obtain ⟨hhalt, hst⟩ := hs.halts hv hl hbet hS hM (o := c₁.overrides) hmov hlen htf t0 t1
  have hlong : 127 / 100 * v ≤ L := by nlinarith
  have hb := hs.brake hv hlong
  have hpast := Law.past hs hv hl t1
  obtain ⟨e0, e61⟩ := hst.stop_time hs hv hb t1
  obtain ⟨hA, htim, hpos⟩ := hstate hK0 (by linarith)
  obtain ⟨hH, hmp⟩ := hA.stop htim
  rw [hp] at hH
  obtain ⟨hn, C, hC, hC0, sg, hlast⟩ := request_run (q := .stop) rfl ⟨_, rfl⟩ hstop
  have hov2 : c₂.overrides = c.overrides := by
    rw [hlast]
    refine (ticks_overrides hC _ le_rfl).trans ?_
    rw [hC0]
    exact (optimize_overrides _).trans hov
  rw [← hC0] at hH hmp
  have t6 : reading32 fpu width32 K ≤ 6000 := by
    have : 9 / 100 * (reading32 fpu width32 K + 66 / 100) ≤ v * (reading32 fpu width32 K + 66 / 100) :=
      mul_le_mul_of_nonneg_right hge (by linarith)
    linarith
  obtain ⟨N, hN1, hN, hafter, hbefore, going, active, gone, over⟩ :=
    halting_states hC hH hhalt.duration hhalt.tStop e0 e61 t6
  have hml : ∀ i, c₂.machinePosition i = (C (ticksOf log₂).length).machinePosition i := fun i => by rw [hlast]; rfl
  have hll := hb.len_le
  have hl0 := hb.len_nonneg
  have hroom := hst.room
  have hmono := reading32_mono fpu width32_pos.le
  have hset : Sampled32 r x d L (haltS (Ramp.down v (acc d L) 600 .secondOrder) (S (reading32 fpu width32 K)) (reading32 fpu width32 K))
      (MotionItem32.optimizeAt cnc3axis32 c₁.overrides .minimizeSpeed (num (reading32 fpu width32 K)) X
        (p'.plan (num (rnd L)) ⟨c.overrides.feedOverride⟩ (num 0) .maximizeSpeed)) K N (ticksOf log₂) C X := by
    refine ⟨hr, fun u => hhalt.s, ?_, ?_, ?_, hC, hX, active, over⟩
    · intro k i hk hi
      have h1 := hst.rate (fpu := fpu) hs hv hb hi (hmono (show K + k ≤ K + (k + 1) by omega))
      have h2 := hl.hop (fpu := fpu) hs hv hi ((hbefore k hk).trans (by linarith))
      rw [show K + k + 1 = K + (k + 1) by omega] at h2
      norm_num at *
      linarith
    · intro j k i hjk _ hi
      obtain ⟨a, c⟩ := hst.falls (fpu := fpu) hs hv hb hi (hmono (show K + j ≤ K + k by omega))
      norm_num at *
      exact ⟨fun h => by have := a h; linarith, fun h => by have := c h; linarith⟩
    · intro k i _ hi
      obtain ⟨s, s0, s1, e⟩ := clamp hs hv hb hst (reading32 fpu width32 (K + k))
      have h1 := abs_le.1 (hst.line (fpu := fpu) hs hv hb hi s0 s1 e)
      have h2 := abs_le.1 (between_ends hs hi (hst.nonneg.trans s0) (by linarith))
      rw [abs_le]
      norm_num at *
      constructor <;> linarith
  have hS0 : haltS (Ramp.down v (acc d L) 600 .secondOrder) (S (reading32 fpu width32 K)) (reading32 fpu width32 K)
      (reading32 fpu width32 K) = S (reading32 fpu width32 K) := by
    unfold haltS; rw [if_pos le_rfl]
  have axis := fun i (hi : i < 3) => hset.axis hi fun hd => by
    rw [hmp, hS0]
    have h1 := hyst
    have h2 := slack_stop
    exact ((hpos i hi).2 hd).trans (by linarith)
  have hsoon : reading32 fpu width32 (K + N) ≤ reading32 fpu width32 K + 62 / 100 := by
    have h1 := (abs_le.1 (reading32_near fpu (K + N))).2
    have h2 := (abs_le.1 (reading32_near fpu (K + (N - 1)))).1
    have h3 := hbefore (N - 1) (by omega)
    have hNr : ((N - 1 : ℕ) : ℝ) = (N : ℝ) - 1 := by rw [Nat.cast_sub hN1]; norm_num
    push_cast at h1 h2
    rw [hNr] at h2
    have h4 : ((K : ℝ) + N) * width32 ≤ 6010 := by
      have hNN : (N : ℝ) ≤ 36900 := by exact_mod_cast hN
      have : (N : ℝ) * width32 ≤ 36900 * width32 := mul_le_mul_of_nonneg_right hNN hw0.le
      unfold eps at near hw
      linarith
    have h5 : 0 ≤ ((K : ℝ) + N) * width32 := by positivity
    have h6 : ((K : ℝ) + (N - 1)) * width32 = ((K : ℝ) + N) * width32 - width32 := by ring
    rw [h6] at h2
    unfold eps at h1 h2 hw
    norm_num at h1 h2 hw
    linarith
  obtain ⟨k1, k2, k3, k4, k5⟩ := Profile32.plan_limits p' (num (rnd L)) ⟨c.overrides.feedOverride⟩ (num 0) .maximizeSpeed
  have keep : ∀ q : Profile32, (MotionItem32.optimizeAt cnc3axis32 c₁.overrides .minimizeSpeed (num (reading32 fpu width32 K)) X q).aMax = q.aMax ∧
      (MotionItem32.optimizeAt cnc3axis32 c₁.overrides .minimizeSpeed (num (reading32 fpu width32 K)) X q).dMax = q.dMax ∧
      (MotionItem32.optimizeAt cnc3axis32 c₁.overrides .minimizeSpeed (num (reading32 fpu width32 K)) X q).jMax = q.jMax ∧
      (MotionItem32.optimizeAt cnc3axis32 c₁.overrides .minimizeSpeed (num (reading32 fpu width32 K)) X q).vMax = q.vMax ∧
      (MotionItem32.optimizeAt cnc3axis32 c₁.overrides .minimizeSpeed (num (reading32 fpu width32 K)) X q).vFeed = q.vFeed := by
    intro q
    unfold MotionItem32.optimizeAt MotionItem32.optimize
    simp only [hmov, if_true]
    exact Profile32.plan_limits _ _ _ _ _
  obtain ⟨l1, l2, l3, l4, l5⟩ := keep (p'.plan (num (rnd L)) ⟨c.overrides.feedOverride⟩ (num 0) .maximizeSpeed)
  refine ⟨_, N, hN, hn, ⟨hmov, hX, hlen, hv, ta, t0, hlong, hst, hhalt,
    ⟨l1.trans (k1.trans hbet.rest.aMax), l2.trans (k2.trans hbet.rest.dMax), l3.trans (k3.trans hbet.rest.jMax)⟩, ?_, hafter, hsoon, hpos,
    fun h => by rw [hlast]; exact (going _ le_rfl h).state, fun h => ?_, hov2, ?_⟩, ?_⟩
  · rw [l4, l5, k4, k5]; exact hbet.speed
  · have := gone _ le_rfl h
    rw [hlast]
    exact ⟨this.state, this.level, this.head, this.traj, this.prof, this.width, this.index, this.offset, this.now⟩
  · intro i hi
    obtain ⟨a1, a2, -⟩ := axis i hi
    refine ⟨fun hd => (hml i).trans (((a1 hd).1 _ le_rfl).trans ((congrFun hmp i).trans ((hpos i hi).1 hd))), fun hd => ?_⟩
    rw [hml]
    exact a2 hd _ le_rfl
  · intro i hi
    obtain ⟨a1, -, a3, a4⟩ := axis i hi
    exact ⟨fun hd => (a1 hd).2, a3, a4⟩

/-- `stop()` during the cruise of a straight motion. -/
theorem stop_state {fpu : Fpu} {c c₁ c₂ : MotionCtrl (cnc3axis32.kit32 fpu)} {r : SimplifiedMotion} {x d : Nat → ℝ}
    {L q g V a : ℝ} {m n : Nat} {log₁ log₂} (hc : Idle32 width32 c) (hq : c.overrides.feedOverride = fin q) (hr : LineRequest r x d L)
    (hg : Asked r L q g) (hm : ∀ i, i < 3 → |200 * x i - c.machinePosition i| ≤ 1) (hV : AtMost r d L q V)
    (hrun : c.run (.append r :: .start :: List.replicate m .calculate) = some (c₁, log₁))
    (hstop : c₁.run (.stop :: List.replicate n .calculate) = some (c₂, log₂)) (ha : 66 / 100 ≤ a)
    (early : 37800 ≤ (ticksOf log₁).length) (late : V * ((ticksOf log₁).length / 60000 + (a + 4 / 100)) ≤ L) :
    ∃ (X : Path32) (p : Profile32) (v S₀ : ℝ) (N : Nat), N ≤ 36900 ∧ n ≤ (ticksOf log₂).length ∧ v ≤ (1 + 5 * eps) * V ∧ 999 / 1000 * g ≤ v ∧
      StopFacts r x d L a ⟨c.overrides.feedOverride⟩ X p v S₀ (ticksOf log₁).length N (ticksOf log₂).length c c₁ c₂ ∧
      ∀ i, i < 3 →
        (d i = 0 → ∀ t ∈ ticksOf log₂, t.cmd i = none) ∧
        (0 < d i → (ticksOf log₂).Pairwise fun t t' => t.cmd i = some .forward → t'.cmd i ≠ some .backward) ∧
        (d i < 0 → (ticksOf log₂).Pairwise fun t t' => t.cmd i = some .backward → t'.cmd i ≠ some .forward) := by
  have hov : c₁.overrides = c.overrides := (straight_motion_full hc hq hr hg hm hrun).elim fun N h => h.2.2.1
  obtain ⟨X, p, p', v, D, S, hmov, hX, hlen, hp, hbet, hS, hv, hl, hf, hgv, hstate, -⟩ := straight_motion_state hc hq hr hg hm hrun
  have hs := hr.toStraight32
  obtain ⟨hvV, hV0⟩ := speed_limit hs hg hv hf hV
  have hge := hv.ge
  have hL520 := hs.L_le
  generalize hKdef : (ticksOf log₁).length = K at *
  have near := abs_le.1 (reading32_near fpu K)
  have hw := width32_near
  have hw0 := width32_pos
  have hT0 : (63 / 100 : ℝ) ≤ K / 60000 := by
    have : (37800 : ℝ) ≤ K := by exact_mod_cast early
    linarith
  have hKw : (K : ℝ) * width32 ≤ (1 + eps) * (K / 60000) := by
    have := mul_le_mul_of_nonneg_left hw.2 (Nat.cast_nonneg (α := ℝ) K)
    linarith
  have hKw' : (1 - eps) * (K / 60000) ≤ (K : ℝ) * width32 := by
    have := mul_le_mul_of_nonneg_left hw.1 (Nat.cast_nonneg (α := ℝ) K)
    linarith
  have t0 : 61 / 100 ≤ reading32 fpu width32 K := by
    unfold eps at near hKw'
    linarith
  have tT : reading32 fpu width32 K ≤ (1 + 6 * eps) * (K / 60000) := by
    unfold eps at near hKw ⊢
    linarith
  have ta : v * (reading32 fpu width32 K + a) ≤ L := by
    have h1 : v * (reading32 fpu width32 K + a) ≤ (1 + 5 * eps) * V * ((1 + 6 * eps) * (K / 60000 + a)) := by
      refine mul_le_mul hvV ?_ (by linarith) (by have := eps_pos; positivity)
      have := mul_nonneg eps_pos.le (show 0 ≤ a by linarith)
      linarith
    have h2 : (1 + 5 * eps) * V * ((1 + 6 * eps) * (K / 60000 + a)) =
        ((1 + 5 * eps) * (1 + 6 * eps)) * (V * (K / 60000 + a)) := by ring
    have h3 : ((1 + 5 * eps) * (1 + 6 * eps)) ≤ 1 + 12 * eps := by unfold eps; norm_num
    have h4 : 0 ≤ V * (K / 60000 + a) := mul_nonneg hV0.le (by linarith)
    have h5 := mul_le_mul_of_nonneg_right h3 h4
    have h6 : V * ((K : ℝ) / 60000 + (a + 4 / 100)) = V * (K / 60000 + a) + V * (4 / 100) := by ring
    rw [h6] at late
    have h7 : 8 / 100 ≤ V := by unfold eps at hvV; linarith
    rw [h2] at h1
    unfold eps at h5 h1
    linarith
  obtain ⟨P, N, h1, h2, h3, h4⟩ := stop_core hr hov hmov hX hlen hp hbet hS hv hl hstate hstop ha t0 ta
  exact ⟨X, P, v, _, N, h1, h2, hvV, hgv, h3, h4⟩

/-- Where the machine is, and how it goes on. -/
private theorem stop_where {fpu : Fpu} {c c₁ c₂ : MotionCtrl (cnc3axis32.kit32 fpu)} {r : SimplifiedMotion} {x d : Nat → ℝ}
    {L a v S₀ V : ℝ} {f : Single} {X : Path32} {p : Profile32} {n N K : Nat} {ts₂ : List (Tick (Option SimplifiedMotion))}
    (hr : LineRequest r x d L) (hm : ∀ i, i < 3 → |200 * x i - c.machinePosition i| ≤ 1) (hN : N ≤ 36900) (hn : n ≤ ts₂.length)
    (hvV : v ≤ (1 + 5 * eps) * V) (F : StopFacts r x d L a f X p v S₀ K N ts₂.length c c₁ c₂)
    (hdirs : ∀ i, i < 3 →
      (d i = 0 → ∀ t ∈ ts₂, t.cmd i = none) ∧
      (0 < d i → ts₂.Pairwise fun t t' => t.cmd i = some .forward → t'.cmd i ≠ some .backward) ∧
      (d i < 0 → ts₂.Pairwise fun t t' => t.cmd i = some .backward → t'.cmd i ≠ some .forward)) :
    ∃ (N : Nat) (s₀ s₁ : ℝ), N ≤ 36900 ∧ n ≤ ts₂.length ∧ 0 ≤ s₀ ∧ s₀ ≤ s₁ ∧ s₁ ≤ L ∧ s₁ - s₀ ≤ 32 / 100 * V ∧
      (∀ i, i < 3 → |200 * (x i + d i * (s₀ / L)) - c₁.machinePosition i| ≤ 1) ∧
      (N ≤ ts₂.length → c₂.state = .stopped ∧ c₂.buffer.level = 1 ∧
        ∀ i, i < 3 → |200 * (x i + d i * (s₁ / L)) - c₂.machinePosition i| ≤ 1) ∧
      (ts₂.length < N → c₂.state = .stopping ∧
        ∃ s, s₀ ≤ s ∧ s ≤ s₁ ∧ ∀ i, i < 3 → |200 * (x i + d i * (s / L)) - c₂.machinePosition i| ≤ 1) ∧
      ∀ i, i < 3 →
        (d i = 0 → ∀ t ∈ ts₂, t.cmd i = none) ∧
        (0 < d i → ts₂.Pairwise fun t t' => t.cmd i = some .forward → t'.cmd i ≠ some .backward) ∧
        (d i < 0 → ts₂.Pairwise fun t t' => t.cmd i = some .backward → t'.cmd i ≠ some .forward) := by
  have hs := hr.toStraight32
  have hv := F.speed
  have hst := F.stop
  have hge := hv.ge
  have hb := hs.brake hv F.long
  have hll := hb.len_le
  have hl0 := hb.len_nonneg
  have hroom := hst.room
  have hh := hyst
  have hsl := slack_stop
  have hplace := F.place
  have hearly := F.early
  have hafter := F.after
  have hhalted := F.halted
  have hhalting := F.halting
  generalize ts₂.length = M at *
  -- a position near a computed one
  have place : ∀ s, S₀ ≤ s → s ≤ S₀ + (Ramp.down v (acc d L) 600 .secondOrder).len →
      |haltS (Ramp.down v (acc d L) 600 .secondOrder) S₀ (reading32 fpu width32 K) (reading32 fpu width32 (K + min M N)) - s| ≤
        2 / 10 ^ 4 → ∀ i, i < 3 → |200 * (x i + d i * (s / L)) - c₂.machinePosition i| ≤ 1 := by
    intro s s0 s1 he i hi
    obtain ⟨a1, a2⟩ := hplace i hi
    by_cases hd : d i = 0
    · rw [a1 hd, hd, zero_mul, add_zero]
      exact hm i hi
    · have h1 := abs_le.1 (a2 hd)
      have h2 := abs_le.1 (hst.line (fpu := fpu) hs hv hb hi s0 s1 he)
      rw [abs_le]
      norm_num at h2 ⊢
      constructor <;> linarith
  refine ⟨N, S₀, S₀ + (Ramp.down v (acc d L) 600 .secondOrder).len, hN, hn, hst.nonneg, by linarith, by linarith, ?_, ?_, ?_, ?_, hdirs⟩
  · unfold eps at hvV
    linarith
  · intro i hi
    obtain ⟨a1, a2⟩ := hearly i hi
    by_cases hd : d i = 0
    · rw [a1 hd, hd, zero_mul, add_zero]
      exact hm i hi
    · have hS0 : haltS (Ramp.down v (acc d L) 600 .secondOrder) S₀ (reading32 fpu width32 K) (reading32 fpu width32 K) = S₀ := by
        unfold haltS; rw [if_pos le_rfl]
      have h1 := abs_le.1 (a2 hd)
      have h2 := abs_le.1 (hst.line (fpu := fpu) (u := reading32 fpu width32 K) hs hv hb hi le_rfl (by linarith)
        (by rw [hS0, sub_self, abs_zero]; norm_num))
      rw [hS0] at h2
      rw [abs_le]
      norm_num at h2 ⊢
      constructor <;> linarith
  · intro hN'
    have hg := hhalted hN'
    refine ⟨hg.state, hg.level, place _ (by linarith) le_rfl ?_⟩
    rw [Nat.min_eq_right hN']
    exact hst.ends hs hv hb (reading32_float _ _ _) hafter
  · intro hN'
    refine ⟨hhalting hN', ?_⟩
    obtain ⟨s, s0, s1, he⟩ := clamp hs hv hb hst (reading32 fpu width32 (K + min M N))
    exact ⟨s, s0, s1, place s s0 s1 he⟩

/-- **C117** `stop()` during the cruise of a straight motion, 3-axis machine, `float` arithmetic. -/
theorem stop_cruise_single {fpu : Fpu} {c c₁ c₂ : MotionCtrl (cnc3axis32.kit32 fpu)} {r : SimplifiedMotion} {x d : Nat → ℝ}
    {L q g V : ℝ} {m n : Nat} {log₁ log₂} (hc : Idle32 width32 c) (hq : c.overrides.feedOverride = fin q) (hr : LineRequest r x d L)
    (hg : Asked r L q g) (hm : ∀ i, i < 3 → |200 * x i - c.machinePosition i| ≤ 1) (hV : AtMost r d L q V)
    (hrun : c.run (.append r :: .start :: List.replicate m .calculate) = some (c₁, log₁))
    (hstop : c₁.run (.stop :: List.replicate n .calculate) = some (c₂, log₂))
    (early : 37800 ≤ (ticksOf log₁).length) (late : V * ((ticksOf log₁).length / 60000 + 7 / 10) ≤ L) :
    ∃ (N : Nat) (s₀ s₁ : ℝ), N ≤ 36900 ∧ n ≤ (ticksOf log₂).length ∧ 0 ≤ s₀ ∧ s₀ ≤ s₁ ∧ s₁ ≤ L ∧ s₁ - s₀ ≤ 32 / 100 * V ∧
      (∀ i, i < 3 → |200 * (x i + d i * (s₀ / L)) - c₁.machinePosition i| ≤ 1) ∧
      (N ≤ (ticksOf log₂).length → c₂.state = .stopped ∧ c₂.buffer.level = 1 ∧
        ∀ i, i < 3 → |200 * (x i + d i * (s₁ / L)) - c₂.machinePosition i| ≤ 1) ∧
      ((ticksOf log₂).length < N → c₂.state = .stopping ∧
        ∃ s, s₀ ≤ s ∧ s ≤ s₁ ∧ ∀ i, i < 3 → |200 * (x i + d i * (s / L)) - c₂.machinePosition i| ≤ 1) ∧
      ∀ i, i < 3 →
        (d i = 0 → ∀ t ∈ ticksOf log₂, t.cmd i = none) ∧
        (0 < d i → (ticksOf log₂).Pairwise fun t t' => t.cmd i = some .forward → t'.cmd i ≠ some .backward) ∧
        (d i < 0 → (ticksOf log₂).Pairwise fun t t' => t.cmd i = some .backward → t'.cmd i ≠ some .forward) := by
  obtain ⟨X, p, v, S₀, N, hN, hn, hvV, -, F, hdirs⟩ := stop_state (a := 66 / 100) hc hq hr hg hm hV hrun hstop le_rfl early
    (by norm_num at late ⊢; exact late)
  exact stop_where hr hm hN hn hvV F hdirs

/-- A point of the line at which the machine is, and the computed distance. -/
private theorem spot_apart {fpu : Fpu} {x d : Nat → ℝ} {L S s P : ℝ} {i : Nat} (h : Straight32 x d L) (hi : i < 3)
    (htop : |dir d L i| = top d L) (hS : |dir d L i * S| ≤ 301) (h0 : 0 ≤ s) (h1 : s ≤ L)
    (hP : |spot fpu x d L i S * 200 - P| ≤ 5572 / 10000) (hs : |200 * (x i + d i * (s / L)) - P| ≤ 1) : |S - s| ≤ 14 / 1000 := by
  have hL := h.L_pos
  have hsmall : |dir d L i * s| ≤ 301 := by
    rw [abs_mul, abs_of_nonneg h0]
    have a := h.dir_length hi
    have b := mul_le_mul_of_nonneg_left (h1.trans ((le_div_iff₀' (by unfold eps; norm_num)).2 h.Lf.1)) (abs_nonneg (dir d L i))
    rw [← mul_div_assoc] at b
    refine b.trans ?_
    rw [div_le_iff₀ (by unfold eps; norm_num)]
    unfold eps
    linarith
  have a := abs_le.1 (h.spot_near (fpu := fpu) hi hS)
  have b := abs_le.1 (h.spot_near (fpu := fpu) hi hsmall)
  have c := abs_le.1 (h.near_line (fpu := fpu) hi hsmall h0 h1 (e := 0) (by simp))
  have hP := abs_le.1 hP
  have hs := abs_le.1 hs
  have k : |dir d L i * (S - s)| ≤ 8 / 1000 := by
    rw [mul_sub, abs_le]
    norm_num at *
    constructor <;> linarith
  rw [abs_mul, htop] at k
  have := mul_le_mul_of_nonneg_right h.top_ge (abs_nonneg (S - s))
  linarith

/-- When the machine is at a point of the cruise, so is the time. -/
private theorem cruise_time {fpu : Fpu} {c c₁ : MotionCtrl (cnc3axis32.kit32 fpu)} {x d : Nat → ℝ} {L v D V s : ℝ} {S : ℝ → ℝ} {K : Nat}
    {p : Profile32} {f : Single} {X : Path32} (h : Straight32 x d L) (hv : Speed d L v) (hl : Law d L v D S)
    (hm : ∀ i, i < 3 → |200 * x i - c.machinePosition i| ≤ 1)
    (hp : Between p f (num 0) (rnd L) v (acc d L) (acc d L) 600)
    (hS : ∀ t, rnd t = t → (p.plan (num (rnd L)) f (num 0) .maximizeSpeed).s (num t) = num (S t)) (hX : X.type.moves = true)
    (hXL : X.trajectory.length = num (rnd L)) (hvV : v ≤ (1 + 5 * eps) * V) (hV : 0 < V)
    (hpos : 0 < K → reading32 fpu width32 K ≤ D → ∀ i, i < 3 → (d i = 0 → c₁.machinePosition i = c.machinePosition i) ∧
        (d i ≠ 0 → |spot fpu x d L i (S (reading32 fpu width32 K)) * 200 - c₁.machinePosition i| ≤ 5572 / 10000))
    (hzero : K = 0 → ∀ i, c₁.machinePosition i = c.machinePosition i)
    (hend : D < reading32 fpu width32 K → ∀ i, i < 3 → |200 * (x i + d i) - c₁.machinePosition i| ≤ 1)
    (hat : ∀ i, i < 3 → |200 * (x i + d i * (s / L)) - c₁.machinePosition i| ≤ 1)
    (early : 62 / 100 * V + 2 / 100 ≤ s) (late : s + (13 / 10 * V + 2 / 100) ≤ L) :
    61 / 100 ≤ reading32 fpu width32 K ∧ v * (reading32 fpu width32 K + 66 / 100) ≤ L := by
  have hL := h.L_pos
  have hge := hv.ge
  have hv0 : 0 < v := by linarith
  obtain ⟨i, hi, htop⟩ := most_attained h.top_pos
  have htop : |dir d L i| = top d L := htop
  have hdi : 576 / 1000 ≤ |d i / L| := by
    have h1 := abs_le.1 (h.dir_near hi)
    have h2 := h.top_ge
    have h3 := h.ratio_le hi
    have h4 := tiny_small
    have h5 := abs_sub_abs_le_abs_sub (dir d L i) (d i / L)
    have h6 := h.dir_near hi
    rw [htop] at h5
    have h7 := mul_le_mul_of_nonneg_left h3 eps_pos.le
    unfold eps at *
    norm_num at *
    linarith
  have hd0 : d i ≠ 0 := by rintro e; rw [e] at hdi; norm_num at hdi
  have hspan : ∀ y, |200 * (d i / L * y)| ≤ 2 → |y| ≤ 18 / 1000 := by
    intro y hy
    rw [abs_mul, abs_mul, abs_of_pos (by norm_num : (0 : ℝ) < 200)] at hy
    have := mul_le_mul_of_nonneg_right hdi (abs_nonneg y)
    linarith
  have hp0 := abs_le.1 (hat i hi)
  have hK : 0 < K := by
    rcases Nat.eq_zero_or_pos K with e | e
    · exfalso
      have h1 := abs_le.1 (hm i hi)
      rw [hzero e] at hp0
      have := hspan s (by rw [abs_le, show d i / L * s = d i * (s / L) by ring]; constructor <;> linarith)
      rw [abs_of_nonneg (by linarith)] at this
      linarith
    · exact e
  have hD : reading32 fpu width32 K ≤ D := by
    by_contra hc
    push Not at hc
    have h1 := abs_le.1 (hend hc i hi)
    have := hspan (L - s) (by
      rw [abs_le, show d i / L * (L - s) = d i * (L / L) - d i * (s / L) by ring, div_self hL.ne', mul_one]; constructor <;> linarith)
    rw [abs_of_nonneg (by linarith)] at this
    linarith
  have hk0 : 0 ≤ reading32 fpu width32 K := by rw [← reading32_zero fpu width32]; exact reading32_mono fpu width32_pos.le (Nat.zero_le _)
  have hap := abs_le.1 (spot_apart h hi htop (hl.moved h hv hi hk0 hD) (by linarith) (by linarith) ((hpos hK hD i hi).2 hd0) (hat i hi))
  generalize reading32 fpu width32 K = t at *
  obtain ⟨s1, s2, -⟩ := h.sizes hv hi
  have hdr := h.drift_nonneg hv
  have hri := h.ripple_nonneg hv
  rw [htop] at s1 s2
  have e1 : Props.drift (rnd L) v (acc d L) (acc d L) 600 ≤ 1 / 1000 := by
    have := mul_le_mul_of_nonneg_right h.top_ge hdr
    norm_num at s2 ⊢
    linarith
  have e2 : Props.ripple (rnd L) v (acc d L) (acc d L) 600 ≤ 1 / 1000 := by
    have := mul_le_mul_of_nonneg_right h.top_ge hri
    norm_num at s1 ⊢
    linarith
  constructor
  · by_contra hc
    push Not at hc
    have h1 := (hl.rises 0 t le_rfl hk0 hD).2
    rw [hl.zero] at h1
    have h2 := mul_le_mul_of_nonneg_left hc.le hv0.le
    unfold eps at hvV
    linarith
  · by_contra hc
    push Not at hc
    have hLv : L / v ≤ 520 / (9 / 100) := div_le_div₀ (by norm_num) h.L_le (by norm_num) hge
    have hLv' : v * (L / v) = L := by field_simp
    have hLv2 : 19 / 10 ≤ L / v := by
      rw [le_div_iff₀ hv0]
      unfold eps at hvV
      linarith
    have hr := abs_le.1 (rnd_err (L / v - 67 / 100))
    rw [abs_of_nonneg (by linarith)] at hr
    have htiny := tiny_small
    have r1 : rnd (L / v - 67 / 100) ≤ L / v - 669 / 1000 := by
      unfold eps at hr
      norm_num at *
      linarith
    have r2 : L / v - 671 / 1000 ≤ rnd (L / v - 67 / 100) := by
      unfold eps at hr
      norm_num at *
      linarith
    have hf : rnd (rnd (L / v - 67 / 100)) = rnd (L / v - 67 / 100) := rnd_rnd _
    generalize rnd (L / v - 67 / 100) = t' at *
    have m1 := mul_le_mul_of_nonneg_left r1 hv0.le
    have m2 := mul_le_mul_of_nonneg_left r2 hv0.le
    rw [mul_sub, hLv'] at m1 m2
    obtain ⟨-, hst⟩ := h.halts hv hl hp hS (M := cnc3axis32) rfl (o := c.overrides) hX hXL hf (by linarith) (by linarith)
    have hfar := hst.far
    have htt : t' ≤ t := by
      by_contra hlt
      push Not at hlt
      have := mul_lt_mul_of_pos_left hlt hv0
      linarith
    have h1 := (hl.rises t' t (by linarith) htt hD).1
    unfold eps at hvV
    linarith

/-- **C117**, seen from the place: the machine is at a point of the line which is at least 0.62 s (and 0.02 mm) from its start and 1.3 s
(and 0.02 mm) from its end, at full speed, when `stop()` is called. -/
theorem stop_place_single {fpu : Fpu} {c c₁ c₂ : MotionCtrl (cnc3axis32.kit32 fpu)} {r : SimplifiedMotion} {x d : Nat → ℝ}
    {L q g V s : ℝ} {m n : Nat} {log₁ log₂} (hc : Idle32 width32 c) (hq : c.overrides.feedOverride = fin q) (hr : LineRequest r x d L)
    (hg : Asked r L q g) (hm : ∀ i, i < 3 → |200 * x i - c.machinePosition i| ≤ 1) (hV : AtMost r d L q V)
    (hrun : c.run (.append r :: .start :: List.replicate m .calculate) = some (c₁, log₁))
    (hstop : c₁.run (.stop :: List.replicate n .calculate) = some (c₂, log₂))
    (hat : ∀ i, i < 3 → |200 * (x i + d i * (s / L)) - c₁.machinePosition i| ≤ 1)
    (early : 62 / 100 * V + 2 / 100 ≤ s) (late : s + (13 / 10 * V + 2 / 100) ≤ L) :
    ∃ (N : Nat) (s₀ s₁ : ℝ), N ≤ 36900 ∧ n ≤ (ticksOf log₂).length ∧ 0 ≤ s₀ ∧ s₀ ≤ s₁ ∧ s₁ ≤ L ∧ s₁ - s₀ ≤ 32 / 100 * V ∧
      (∀ i, i < 3 → |200 * (x i + d i * (s₀ / L)) - c₁.machinePosition i| ≤ 1) ∧
      (N ≤ (ticksOf log₂).length → c₂.state = .stopped ∧ c₂.buffer.level = 1 ∧
        ∀ i, i < 3 → |200 * (x i + d i * (s₁ / L)) - c₂.machinePosition i| ≤ 1) ∧
      ((ticksOf log₂).length < N → c₂.state = .stopping ∧
        ∃ s, s₀ ≤ s ∧ s ≤ s₁ ∧ ∀ i, i < 3 → |200 * (x i + d i * (s / L)) - c₂.machinePosition i| ≤ 1) ∧
      ∀ i, i < 3 →
        (d i = 0 → ∀ t ∈ ticksOf log₂, t.cmd i = none) ∧
        (0 < d i → (ticksOf log₂).Pairwise fun t t' => t.cmd i = some .forward → t'.cmd i ≠ some .backward) ∧
        (d i < 0 → (ticksOf log₂).Pairwise fun t t' => t.cmd i = some .backward → t'.cmd i ≠ some .forward) := by
  have hov : c₁.overrides = c.overrides := (straight_motion_full hc hq hr hg hm hrun).elim fun N h => h.2.2.1
  obtain ⟨X, p, p', v, D, S, hmov, hX, hlen, hp, hbet, hS, hv, hl, hf, hgv, hstate, hzero, hend⟩ := straight_motion_state hc hq hr hg hm hrun
  have hs := hr.toStraight32
  obtain ⟨hvV, hV0⟩ := speed_limit hs hg hv hf hV
  have hS' := hS
  rw [hp] at hS'
  obtain ⟨t0, ta⟩ := cruise_time hs hv hl hm hbet hS' hmov hlen hvV hV0 (fun a b => (hstate a b).2.2) hzero hend hat early late
  obtain ⟨P, N, h1, h2, h3, h4⟩ := stop_core hr hov hmov hX hlen hp hbet hS hv hl hstate hstop le_rfl t0 ta
  exact stop_where hr hm h1 h2 hvV h3 h4

/-- The plan at that moment: the motion is being made, and afterwards it never ends by itself. -/
theorem stop_place_plan {fpu : Fpu} {c c₁ : MotionCtrl (cnc3axis32.kit32 fpu)} {r : SimplifiedMotion} {x d : Nat → ℝ}
    {L q g V s : ℝ} {m : Nat} {log₁} (hc : Idle32 width32 c) (hq : c.overrides.feedOverride = fin q) (hr : LineRequest r x d L)
    (hg : Asked r L q g) (hm : ∀ i, i < 3 → |200 * x i - c.machinePosition i| ≤ 1) (hV : AtMost r d L q V)
    (hrun : c.run (.append r :: .start :: List.replicate m .calculate) = some (c₁, log₁))
    (hat : ∀ i, i < 3 → |200 * (x i + d i * (s / L)) - c₁.machinePosition i| ≤ 1)
    (early : 62 / 100 * V + 2 / 100 ≤ s) (late : s + (13 / 10 * V + 2 / 100) ≤ L) :
    c₁.state = .running ∧ c₁.buffer.level = 1 ∧ c₁.stop.state = .stopping ∧ c₁.stop.buffer.level = 1 ∧
      Profile32.duration c₁.stop.buffer.getHead.prof = ⟨posInf⟩ := by
  obtain ⟨X, p, p', v, D, S, hmov, hX, hlen, hp, hbet, hS, hv, hl, hf, hgv, hstate, hzero, hend⟩ := straight_motion_state hc hq hr hg hm hrun
  have hs := hr.toStraight32
  obtain ⟨hvV, hV0⟩ := speed_limit hs hg hv hf hV
  have hS' := hS
  rw [hp] at hS'
  obtain ⟨t0, ta⟩ := cruise_time hs hv hl hm hbet hS' hmov hlen hvV hV0 (fun a b => (hstate a b).2.2) hzero hend hat early late
  have hK0 : 0 < (ticksOf log₁).length := by
    rcases Nat.eq_zero_or_pos (ticksOf log₁).length with h | h
    · rw [h, reading32_zero] at t0; norm_num at t0
    · exact h
  obtain ⟨hhalt, -⟩ := hs.halts hv hl hbet hS' (M := cnc3axis32) rfl (o := c₁.overrides) hmov hlen (reading32_float _ _ _) t0 ta
  have hpast := Law.past hs hv hl ta
  obtain ⟨hA, htim, -⟩ := hstate hK0 (by linarith)
  obtain ⟨hH, -⟩ := hA.stop htim
  refine ⟨hA.state, hA.level, hH.state, hH.level, ?_⟩
  rw [hH.prof, hp]
  exact hhalt.duration

/-! ## Example -/

private theorem timely_mem {K : MotionKit} {k : Call K.Req K.Time K.Ovr} {x : Ret (Option K.Req)} {l : Nat} :
    ∀ (log : Log K.Req (Option K.Req) K.Time K.Ovr), (∀ y ∈ log, ∀ m w, y.1 ≠ .configure m w) → EntriesTimely l log →
      (k, x) ∈ log → (∃ e, x.entry = some e) → x.ticks.length ≤ max 1 l := by
  intro log
  induction log with
  | nil => intro _ _ h; simp at h
  | cons y rest ih =>
    intro hn ht hm he
    obtain ⟨k', r'⟩ := y
    have hrest : EntriesTimely l rest ∧ ∀ e, r'.entry = some e → r'.ticks.length ≤ max 1 l := by
      cases k' with
      | configure m w => exact absurd rfl (hn _ (List.mem_cons_self ..) m w)
      | _ => exact ⟨ht.2, fun e h => by obtain ⟨-, a, b⟩ := ht.1 e h; omega⟩
    rcases List.mem_cons.1 hm with h | h
    · obtain ⟨rfl, rfl⟩ := Prod.mk.inj h
      obtain ⟨e, he⟩ := he
      exact hrest.2 e he
    · exact ih (fun y hy => hn y (List.mem_cons_of_mem _ hy)) hrest.1 h he

/-- Calculating often enough, any number of ticks is reached, up to 375. -/
theorem ticks_reach (K : MotionKit) (w : K.Time) (r : K.Req) (G : Nat) (hG : 1 ≤ G) :
    ∃ m c₁ log₁, ((MotionCtrl.fresh K).configure 375 w).run (.append r :: .start :: List.replicate m .calculate) = some (c₁, log₁) ∧
      G ≤ (ticksOf log₁).length ∧ (ticksOf log₁).length < G + 375 := by
  classical
  have ex : ∀ ks, ∃ c₁ log₁, ((MotionCtrl.fresh K).configure 375 w).run ks = some (c₁, log₁) ∧
      log₁.map Prod.fst = ks ∧ EntriesTimely 375 log₁ := by
    intro ks
    obtain ⟨c', log, hrun, hl⟩ := motion_history_returns (K := K) (.configure 375 w :: ks)
    have ht := motion_entry_duration _ _ _ hrun
    obtain ⟨c₁, log₁, log₂, h1, h2, rfl⟩ := run_split (K := K) [.configure 375 w] ks hrun
    simp only [run, call, Option.map_some, Option.some.injEq, Prod.mk.injEq] at h1
    obtain ⟨rfl, rfl⟩ := h1
    exact ⟨c', log₂, h2, by simpa using hl, ht.2⟩
  have hex : ∃ m, ∃ c₁ log₁, ((MotionCtrl.fresh K).configure 375 w).run
        (.append r :: .start :: List.replicate m .calculate) = some (c₁, log₁) ∧ G ≤ (ticksOf log₁).length := by
    obtain ⟨c₁, log₁, h, -⟩ := ex (.append r :: .start :: List.replicate G .calculate)
    refine ⟨G, c₁, log₁, h, ?_⟩
    have := ticks_ge _ h
    rw [List.countP_cons, List.countP_cons, List.countP_replicate] at this
    simpa [Call.isCalculate] using this
  obtain ⟨c₁, log₁, h, hge⟩ := Nat.find_spec hex
  have hmin : ∀ m, m < Nat.find hex → _ := fun m hm => Nat.find_min hex hm
  generalize Nat.find hex = m at h hmin
  refine ⟨m, c₁, log₁, h, hge, ?_⟩
  obtain ⟨c', log', h', hl', ht'⟩ := ex (.append r :: .start :: List.replicate m .calculate)
  obtain ⟨rfl, rfl⟩ : c₁ = c' ∧ log₁ = log' := by
    rw [h] at h'; simpa using h'
  have hcalls : ∀ y ∈ log₁, ∀ m w, y.1 ≠ .configure m w := by
    intro y hy a w e
    have : y.1 ∈ log₁.map Prod.fst := List.mem_map_of_mem hy
    rw [hl', e] at this
    simp at this
  clear h'
  cases m with
  | zero =>
    simp only [List.replicate_zero, run, call, Option.map_some, Option.some.injEq, Prod.mk.injEq] at h
    rw [← h.2]
    simp [ticksOf]
  | succ m =>
    rw [show (.append r :: .start :: List.replicate (m + 1) .calculate : List (Call K.Req K.Time K.Ovr)) =
      (.append r :: .start :: List.replicate m .calculate) ++ [.calculate] by simp [List.replicate_succ']] at h
    obtain ⟨c₀, l₀, l₁, e1, e2, rfl⟩ := run_split _ _ h
    have hlt : (ticksOf l₀).length < G := by
      by_contra hc
      exact hmin m (Nat.lt_succ_self m) ⟨c₀, l₀, e1, not_lt.1 hc⟩
    simp only [run, call] at e2
    cases hcn : c₀.calcNext with
    | none => simp [hcn] at e2
    | some z =>
      simp only [hcn, Option.map_some, Option.some.injEq, Prod.mk.injEq] at e2
      have hlen := timely_mem (k := .calculate) _ hcalls ht' (x := ⟨z.1.events.drop c₀.events.length, some z.2.1, z.2.2⟩)
        (by rw [← e2.2]; simp) ⟨_, rfl⟩
      rw [ticks_append, List.length_append, ← e2.2]
      have : ticksOf [((Call.calculate : Call K.Req K.Time K.Ovr),
        (⟨z.1.events.drop c₀.events.length, some z.2.1, z.2.2⟩ : Ret (Option K.Req)))] = z.2.2 := by
        simp [ticksOf]
      rw [this]
      simp only at hlen
      omega

/-- The motion of 50 mm at 10 mm/s is stopped after about 2 s: 0.62 s later the machine has stopped on the line, at most 3.2 mm
further. -/
example (fpu : Fpu) (n : Nat) (hn : 36900 ≤ n) :
    ∃ m c₁ log₁ c₂ log₂, ((MotionCtrl.fresh (cnc3axis32.kit32 fpu)).configure 375 (num width32)).run
        (.append oblique :: .start :: List.replicate m .calculate) = some (c₁, log₁) ∧
      120000 ≤ (ticksOf log₁).length ∧ (ticksOf log₁).length < 120375 ∧
      c₁.run (.stop :: List.replicate n .calculate) = some (c₂, log₂) ∧ c₂.state = .stopped ∧ ∃ s₀ s₁ : ℝ, s₀ ≤ s₁ ∧
        s₁ - s₀ ≤ 32 / 10 ∧ |120 * s₀ - c₁.machinePosition 0| ≤ 1 ∧ |160 * s₀ - c₁.machinePosition 1| ≤ 1 ∧
        |120 * s₁ - c₂.machinePosition 0| ≤ 1 ∧ |160 * s₁ - c₂.machinePosition 1| ≤ 1 := by
  obtain ⟨m, c₁, log₁, h1, h2, h3⟩ := ticks_reach (cnc3axis32.kit32 fpu) (num width32) oblique 120000 (by norm_num)
  obtain ⟨c₂, log, hrun, -⟩ := motion_history_returns (K := cnc3axis32.kit32 fpu)
    ([.configure 375 (num width32)] ++ ((.append oblique :: .start :: List.replicate m .calculate) ++
      (.stop :: List.replicate n .calculate)))
  obtain ⟨c', l₁, l₂, e1, e2, -⟩ := run_split _ _ hrun
  simp only [run, call, Option.map_some, Option.some.injEq, Prod.mk.injEq] at e1
  obtain ⟨rfl, -⟩ := e1
  obtain ⟨c'', l₃, log₂, e3, e4, -⟩ := run_split _ _ e2
  obtain ⟨rfl, rfl⟩ : c₁ = c'' ∧ log₁ = l₃ := by
    have := h1.symm.trans e3
    simpa using this
  obtain ⟨i1, i2, i3⟩ := idle_configured_single fpu 375
  have late : (10 : ℝ) * (((ticksOf log₁).length : ℝ) / 60000 + 7 / 10) ≤ 50 := by
    have : ((ticksOf log₁).length : ℝ) < 120375 := by exact_mod_cast h3
    linarith
  obtain ⟨N, s₀, s₁, n1, n2, -, s01, -, n3, n4, n5, -⟩ := stop_cruise_single (g := 10) (V := 10) i1 i3 oblique_line
    (.inr ⟨10, rfl, by norm_num, by norm_num, by norm_num, by norm_num⟩) (fun i _ => by rw [i2]; norm_num)
    (.inl ⟨10, rfl, by norm_num⟩) h1 e4 (by omega) late
  obtain ⟨j1, -, j2⟩ := n5 (by omega)
  refine ⟨m, c₁, log₁, c₂, log₂, h1, h2, h3, e4, j1, s₀, s₁, s01, by linarith, ?_, ?_, ?_, ?_⟩
  · have := n4 0 (by norm_num)
    rw [show (120 : ℝ) * s₀ = 200 * (0 + 30 * (s₀ / 50)) by ring]; simpa using this
  · have := n4 1 (by norm_num)
    rw [show (160 : ℝ) * s₀ = 200 * (0 + 40 * (s₀ / 50)) by ring]; simpa using this
  · have := j2 0 (by norm_num)
    rw [show (120 : ℝ) * s₁ = 200 * (0 + 30 * (s₁ / 50)) by ring]; simpa using this
  · have := j2 1 (by norm_num)
    rw [show (160 : ℝ) * s₁ = 200 * (0 + 40 * (s₁ / 50)) by ring]; simpa using this

end Moovr.Props
