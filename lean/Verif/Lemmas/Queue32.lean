import Verif.Lemmas.Clock32
import Verif.Lemmas.QueueGen
/-!
# The controller in single precision: a queue of motions
-/
namespace Moovr
open Num Float32 Single Ramp MotionCtrl

/-! ## The clock -/

/-- The time after `k` samples, in a motion whose first sample is at `o`. -/
noncomputable def instant (fpu : Fpu) (w o : ℝ) (k : Nat) : ℝ := mulAddR fpu (rnd k) w o

theorem instant_float (fpu : Fpu) (w o : ℝ) (k : Nat) : rnd (instant fpu w o k) = instant fpu w o k := by
  unfold instant mulAddR; split <;> exact rnd_rnd _

theorem instant_zero (fpu : Fpu) {w o : ℝ} (ho : rnd o = o) : instant fpu w o 0 = o := by
  unfold instant mulAddR; split <;> simp [rnd_zero, ho]

theorem instant_mono (fpu : Fpu) {w o : ℝ} (hw : 0 ≤ w) : Monotone (instant fpu w o) := by
  refine monotone_nat_of_le_succ fun k => mulAddR_mono fpu (mul_le_mul_of_nonneg_right (rnd_mono ?_) hw) le_rfl
  push_cast; linarith

theorem instant_near (fpu : Fpu) {o : ℝ} (ho : rnd o = o) (ho0 : 0 ≤ o) (k : Nat) :
    |instant fpu width32 o k - (k * width32 + o)| ≤ (k * width32 + o) * (4 * eps) := by
  have he0 := eps_pos
  rcases Nat.eq_zero_or_pos k with rfl | hk
  · rw [instant_zero fpu ho]; simp; positivity
  · have hk1 : (1 : ℝ) ≤ k := by exact_mod_cast hk
    have hw := width32_near
    have hw0 := width32_pos
    have hi := rnd_scale (x := (k : ℝ)) (X := k) (by rw [abs_of_nonneg (by positivity)])
      (by rw [zpow_neg]; refine le_trans ?_ hk1; norm_num)
    rw [eps_eq] at hi
    have hi' := abs_le.1 hi
    have hr1 : 1 ≤ rnd (k : ℝ) := by
      have := rnd_mono hk1
      have h0 := rnd_int (m := 1) (by norm_num)
      simp only [Int.cast_one] at h0
      rwa [h0] at this
    have hb : (2 : ℝ) ^ (-126 : ℤ) ≤ rnd (k : ℝ) * width32 := by
      have : (2 : ℝ) ^ (-126 : ℤ) ≤ 1 * width32 := by
        have h1 : (2 : ℝ) ^ (-126 : ℤ) ≤ 1 / 120000 := by rw [zpow_neg]; norm_num
        unfold eps at hw; norm_num at hw ⊢; linarith
      exact this.trans (mul_le_mul_of_nonneg_right hr1 hw0.le)
    have he := mulAddR_error fpu (rnd k) width32 o (B := rnd k * width32) (by rw [abs_of_nonneg (by positivity)]) hb
    rw [eps_eq, abs_of_nonneg ho0] at he
    unfold instant
    have h1 : rnd (k : ℝ) * width32 ≤ (1 + eps) * (k * width32) := by
      have := mul_le_mul_of_nonneg_right (show rnd (k : ℝ) ≤ (1 + eps) * k by linarith) hw0.le
      linarith
    have h2 : (1 - eps) * (k * width32) ≤ rnd (k : ℝ) * width32 := by
      have := mul_le_mul_of_nonneg_right (show (1 - eps) * k ≤ rnd (k : ℝ) by linarith) hw0.le
      linarith
    have hkw : 0 < (k : ℝ) * width32 := by positivity
    have he := abs_le.1 he
    generalize (k : ℝ) * width32 = z at *
    generalize rnd (k : ℝ) * width32 = z' at *
    generalize mulAddR fpu (rnd ↑k) width32 o = m at *
    rw [abs_le]
    unfold eps at *
    constructor <;> linarith

namespace Straight32
variable {x d : Nat → ℝ} {L v D o : ℝ} {S : ℝ → ℝ}

/-- The time between two samples. -/
theorem instant_step (fpu : Fpu) (ho : rnd o = o) (ho0 : 0 ≤ o) {k : Nat} (hk : instant fpu width32 o k ≤ D) :
    instant fpu width32 o (k + 1) - instant fpu width32 o k ≤ 17 / 10 ^ 6 + 478 / 10 ^ 9 * D := by
  have a := abs_le.1 (instant_near fpu ho ho0 k)
  have b := abs_le.1 (instant_near fpu ho ho0 (k + 1))
  have hw := width32_near
  have hw0 := width32_pos
  push_cast at b
  have hkw0 : 0 ≤ (k : ℝ) * width32 := by positivity
  have hkw : (k : ℝ) * width32 + o ≤ 1001 / 1000 * D := by
    unfold eps at a
    linarith
  unfold eps at a b hw
  norm_num at a b hw ⊢
  linarith

/-- Within a tick an axis moves little, in exact arithmetic. -/
theorem Law.hop_from (h : Straight32 x d L) (hv : Speed d L v) (hl : Law d L v D S) {fpu : Fpu} {i k : Nat} (hi : i < 3)
    (ho : rnd o = o) (ho0 : 0 ≤ o) (hk : instant fpu width32 o k ≤ D) :
    |dir d L i| * (v * (instant fpu width32 o (k + 1) - instant fpu width32 o k)) ≤ 7 / 10000 := by
  have hv0 : 0 < v := lt_of_lt_of_le (by norm_num) hv.ge
  have hd := abs_nonneg (dir d L i)
  have hdv : |dir d L i| * v ≤ 30001 / 1000 :=
    (mul_le_mul_of_nonneg_right (dir_top hi) hv0.le).trans (h.speed_top hv)
  have hdv0 : 0 ≤ |dir d L i| * v := by positivity
  obtain ⟨-, -, s3⟩ := h.sizes hv hi
  have hlen := h.dir_length hi
  have hD : |dir d L i| * v * D ≤ 3785 / 10 := by
    have := mul_le_mul_of_nonneg_left hl.brief hd
    linarith
  have h1 := mul_le_mul_of_nonneg_left (instant_step fpu ho ho0 hk) hdv0
  rw [← mul_assoc]
  norm_num at h1 ⊢
  linarith

/-- A lower bound of the duration. -/
theorem Law.duration_ge (h : Straight32 x d L) (hv : Speed d L v) (hl : Law d L v D S) (hL : 1 / 128 ≤ L) : 1 / 10000 ≤ D := by
  obtain ⟨i, hi, htop⟩ := most_attained h.top_pos
  have htop : |dir d L i| = top d L := htop
  obtain ⟨-, s2, -⟩ := h.sizes hv hi
  rw [htop] at s2
  have h2 := (hl.rises 0 D le_rfl hl.pos.le le_rfl).2
  have h3 := (abs_le.1 hl.ends).1
  rw [hl.zero, zero_add, sub_zero] at h2
  have h4 : rnd L ≤ v * D + 2 * Props.drift (rnd L) v (acc d L) (acc d L) 600 := by linarith
  have h5 := mul_le_mul_of_nonneg_left h4 h.top_pos.le
  have h6 : top d L * (v * D) ≤ 30001 / 1000 * D := by
    rw [← mul_assoc]; exact mul_le_mul_of_nonneg_right (h.speed_top hv) hl.pos.le
  have h7 : 577 / 1000 * (78 / 10000) ≤ top d L * rnd L := by
    refine mul_le_mul h.top_ge ?_ (by norm_num) h.top_pos.le
    have := h.Lf.1
    unfold eps at *
    linarith
  rw [mul_add] at h5
  norm_num at s2
  linarith

/-- The number of samples. -/
theorem samples_le (fpu : Fpu) (ho : rnd o = o) (ho0 : 0 ≤ o) (hD : 0 < D) {k : Nat} (hk : instant fpu width32 o k ≤ D) :
    (k : ℝ) ≤ 60010 * D := by
  have a := (abs_le.1 (instant_near fpu ho ho0 k)).1
  have hw := width32_near.1
  have hw0 := width32_pos
  have hkw0 : 0 ≤ (k : ℝ) * width32 := by positivity
  have h1 : (k : ℝ) * width32 ≤ (1 + 5 * eps) * D := by unfold eps at a ⊢; linarith
  have h2 := mul_le_mul_of_nonneg_left hw (Nat.cast_nonneg k)
  unfold eps at *
  norm_num at *
  linarith

end Straight32

/-! ## A tick -/

/-- A tick while a queue is executed: the time is within the duration of the first motion and it is sampled; or it ends, and the
second motion is sampled; or it was the last. -/
theorem tick32 {α : Type} {M : Machine} {fpu : Fpu} {w D o : ℝ} {k : Nat} {c c' : MotionCtrl (M.kit32 fpu)} {t}
    {R : Motion (M.kit32 fpu) → α → Prop} {a : α} {l : List α} (hq : Queue R c.buffer (a :: l)) (hst : c.state = .running)
    (hw : c.time.minStepPulseWidth = num w) (hi : c.time.sampleIndex = k) (ho : c.time.sampleZeroOffset = num o) (hk : k + 1 < 2 ^ 32)
    (hD : Profile32.duration c.buffer.getHead.prof = num D) (hs : Profile32.tStop c.buffer.getHead.prof = ⟨posInf⟩)
    (ht : c.tick = some (c', t)) :
    (instant fpu w o (k + 1) ≤ D → c'.buffer = c.buffer ∧ c'.state = .running ∧ c'.overrides = c.overrides ∧
      c'.time = ⟨num (instant fpu w o (k + 1)), num o, k + 1, num w⟩ ∧ t.active ≠ none) ∧
    (D < instant fpu w o (k + 1) → l = [] →
      Idle32 w c' ∧ c'.overrides = c.overrides ∧ c'.machinePosition = c.machinePosition) ∧
    (∀ D', D < instant fpu w o (k + 1) → l ≠ [] → Profile32.duration c.buffer.pop.getHead.prof = num D' →
      rnd (instant fpu w o (k + 1) - D) ≤ D' → c'.buffer = c.buffer.pop ∧ c'.state = .running ∧ c'.overrides = c.overrides ∧
      c'.time = ⟨num (rnd (instant fpu w o (k + 1) - D)), num (rnd (instant fpu w o (k + 1) - D)), 0, num w⟩ ∧
      t.active ≠ none) := by
  have hlv := hq.level
  rw [List.length_cons] at hlv
  have hidx : u32add c.time.sampleIndex 1 = k + 1 := by rw [hi]; simp only [u32add]; omega
  have htime : c.time.next = ⟨num (instant fpu w o (k + 1)), num o, k + 1, num w⟩ := by
    unfold SampleTime.next
    simp only [hidx, hw, ho]
    congr 1
    exact mulAdd_num _ _ _ _
  have hrun : c.isRunning = true := by simp [isRunning, hst]
  unfold MotionCtrl.tick at ht
  simp only [hrun, if_true] at ht
  have hstop : ({ c with signals := c.signals.next } : MotionCtrl (M.kit32 fpu)).sampleAndCheckStop =
      { c with signals := c.signals.next, time := ⟨num (instant fpu w o (k + 1)), num o, k + 1, num w⟩ } := by
    unfold sampleAndCheckStop
    simp only [htime]
    have : (SampleTime.isBeyond (K := M.kit32 fpu) ⟨num (instant fpu w o (k + 1)), num o, k + 1, num w⟩
        ((M.kit32 fpu).tStop c.buffer.getHead.prof)) = false := by
      show Single.lt (Profile32.tStop c.buffer.getHead.prof) (num (instant fpu w o (k + 1))) = false
      rw [hs]; rfl
    simp only [this, Bool.false_eq_true, if_false]
  rw [hstop] at ht
  have hbey : SampleTime.isBeyond (K := M.kit32 fpu) ⟨num (instant fpu w o (k + 1)), num o, k + 1, num w⟩
      ((M.kit32 fpu).duration c.buffer.getHead.prof) = decide (D < instant fpu w o (k + 1)) := by
    show Single.lt (Profile32.duration c.buffer.getHead.prof) (num (instant fpu w o (k + 1))) = _
    rw [hD, lt_num]
  rw [settle] at ht
  simp only [hbey, decide_eq_true_eq, Option.map_eq_some_iff, Prod.exists, Prod.mk.injEq] at ht
  refine ⟨?_, ?_, ?_⟩
  · intro hle
    rw [if_neg (not_lt.2 hle)] at ht
    simp only [Option.some.injEq, Prod.mk.injEq] at ht
    obtain ⟨c₀, cmd, act, ⟨rfl, rfl, rfl⟩, rfl, rfl⟩ := ht
    exact ⟨rfl, hst, rfl, rfl, by simp⟩
  · intro hlt hl
    subst hl
    rw [if_pos hlt, if_neg (by rw [hlv]; simp)] at ht
    simp only [Option.some.injEq, Prod.mk.injEq] at ht
    obtain ⟨c₀, cmd, act, ⟨rfl, rfl, rfl⟩, rfl, rfl⟩ := ht
    refine ⟨⟨rfl, ?_, ?_, rfl, rfl, rfl, rfl⟩, rfl, rfl⟩
    · show u32sub c.buffer.level 1 = 0
      rw [hlv]; simp [u32sub]
    · exact Nat.mod_lt _ (by decide)
  · intro D' hlt hl hD' hle
    have hl0 : 0 < l.length := List.length_pos_iff.2 hl
    rw [if_pos hlt, if_pos (by rw [hlv]; omega)] at ht
    have hnext : nextMotion ({ c with signals := c.signals.next, time := ⟨num (instant fpu w o (k + 1)), num o, k + 1, num w⟩ } :
          MotionCtrl (M.kit32 fpu)) =
        { c with
          signals := c.signals.next
          buffer := c.buffer.pop
          time := ⟨num (rnd (instant fpu w o (k + 1) - D)), num (rnd (instant fpu w o (k + 1) - D)), 0, num w⟩
          events := c.events ++ [.motionCompleted] } := by
      have e : (M.kit32 fpu).diff (num (instant fpu w o (k + 1))) ((M.kit32 fpu).duration c.buffer.getHead.prof) =
          num (rnd (instant fpu w o (k + 1) - D)) := by
        show num (instant fpu w o (k + 1)) - Profile32.duration c.buffer.getHead.prof = _
        rw [hD, num_sub]
      unfold nextMotion
      simp only [e, SampleTime.initializeNextMotion]
      rfl
    rw [hnext, hlv, settle] at ht
    have hbey2 : SampleTime.isBeyond (K := M.kit32 fpu)
        ⟨num (rnd (instant fpu w o (k + 1) - D)), num (rnd (instant fpu w o (k + 1) - D)), 0, num w⟩
        ((M.kit32 fpu).duration c.buffer.pop.getHead.prof) = false := by
      show Single.lt (Profile32.duration c.buffer.pop.getHead.prof) (num _) = _
      rw [hD', lt_num]
      simpa using hle
    simp only [hbey2, Bool.false_eq_true, if_false, Option.some.injEq, Prod.mk.injEq] at ht
    obtain ⟨c₀, cmd, act, ⟨rfl, rfl, rfl⟩, rfl, rfl⟩ := ht
    exact ⟨rfl, hst, rfl, rfl, by simp⟩

/-! ## Planning -/

/-- Planning at high speed does not change the limits. -/
theorem Profile32.plan_keeps {p : Profile32} {f minL : Single} {L v a d j : ℝ} (hm : Moderate L v a d j)
    (hp : Props.Between p f minL L v a d j) : (p.plan (num L) f minL .maximizeSpeed).Resting a d j ∧
      (p.plan (num L) f minL .maximizeSpeed).vMax = p.vMax ∧ (p.plan (num L) f minL .maximizeSpeed).vFeed = p.vFeed := by
  obtain ⟨l, rfl, hl⟩ := hp.long
  have hQ := hm.Q_near.pos (by have := hm.product; linarith) (by norm_num)
  have had := hm.sum_near.pos (by linarith [hm.a_pos, hm.d_pos]) (by norm_num)
  unfold Profile32.plan
  rw [chooseSpeed32 hp.rest hm.L_float hm.L_pos hm.a_pos hm.d_pos hm.v_pos hl hp.speed hQ had]
  simp only
  obtain ⟨-, -, c3⟩ := setPhases32 hp.rest hm.sizes_a hm.sizes_d (firstChoice32 L v a d)
  split
  · obtain ⟨-, -, b3⟩ := setPhases32 c3 hm.sizes_a hm.sizes_d .firstOrder
    exact ⟨⟨b3.doneLength, b3.doneDuration, b3.start, b3.end_, b3.aMax, b3.dMax, b3.jMax⟩, rfl, rfl⟩
  · exact ⟨⟨c3.doneLength, c3.doneDuration, c3.start, c3.end_, c3.aMax, c3.dMax, c3.jMax⟩, rfl, rfl⟩

end Moovr
