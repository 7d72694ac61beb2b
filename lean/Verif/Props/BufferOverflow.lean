import Verif.Props.BufferRoom
import Verif.Lemmas.Diagonal
/-!
# The step buffer overflows when two axes move at full speed (C101, negation)
-/
namespace Moovr.Props
open Num ExecSpec MotionCtrl MotionSpec PulseSpec StepQueueSpec

/-- The condition of `fill_loop_partial` (C17) cannot be weakened: whatever the outputs `W` of the controller, if some 254
consecutive ones last less than 750 ticks (and are followed by three more), then there is a way to interleave the main loop and the
interrupt such that an output is lost, although the interrupt never finds fewer than three outputs. -/
theorem fill_loop_sharp {b₀ b : StepBuffer} (h : StepBuffer.InitReturns b₀ b) (h1 : b₀.minimumTotalTime = 1500)
    (h2 : b₀.minimumLevel = 4) {W : List Step} (i : Nat) (hi : i + 257 ≤ W.length)
    (hd : sumTime ((W.drop i).take 254) < 750) :
    ∃ ops, puts ⟨b, false, []⟩ ops <+: W ∧
      FedRev (List.replicate 4 ⟨375, 0⟩) (FillLoop.calls ⟨b, false, []⟩ ops).reverse ∧
      (FillLoop.run ⟨b, false, []⟩ ops).lost ≠ [] := by
  obtain ⟨ops, o1, o2, o3⟩ := FillLoop.overflow h h1 h2 i hi hd
  exact ⟨ops, by rw [← puts_written]; exact o2, o1, o3⟩

private theorem entries_count {K : MotionKit} (ks : List (Call K.Req K.Time K.Ovr)) :
    ∀ {c c' : MotionCtrl K} {log}, c.run ks = some (c', log) → ks.countP Call.isCalculate ≤ (entriesOf log).length := by
  induction ks with
  | nil => intros; simp
  | cons k ks ih =>
    intro c c' log h
    rw [run] at h
    split at h
    · simp at h
    · rename_i c₁ x hx
      simp only [Option.map_eq_some_iff, Prod.exists, Prod.mk.injEq] at h
      obtain ⟨c₂, l, h1, rfl, rfl⟩ := h
      have := ih h1
      have hlen : (entriesOf ((k, x) :: l)).length = x.entry.toList.length + (entriesOf l).length := by simp [entriesOf]
      rw [hlen, List.countP_cons]
      split
      · rename_i hk
        cases k <;> simp [Call.isCalculate] at hk
        simp only [call, Option.map_eq_some_iff, Prod.exists, Prod.mk.injEq] at hx
        obtain ⟨c₀, e, ts, h2, rfl, rfl⟩ := hx
        simp; omega
      · omega

private theorem entries_last_long {A B C D : Type} (log : Log A B C D) : ∀ m, EntriesTimely m log → ∀ e ∈ entriesOf log, 1 ≤ e.timeBefore := by
  induction log with
  | nil => intro m _ e he; simp [entriesOf] at he
  | cons x log ih =>
    obtain ⟨k, r⟩ := x
    intro m h e he
    have hmem : e ∈ r.entry.toList ∨ e ∈ entriesOf log := by simpa [entriesOf] using he
    cases k with
    | configure m' w =>
      rcases hmem with h' | h'
      · rw [h.1] at h'; simp at h'
      · exact ih _ h.2 e h'
    | _ =>
      rcases hmem with h' | h'
      · exact (h.1 e (by simpa [Option.mem_toList] using h')).1
      · exact ih _ h.2 e h'

/-- The two axes of the diagonal while it runs at full speed. -/
private theorem steady_diagonal {j : Job} (hr : j.r = diagonal 100) {a b : ℝ} (h0 : 0 < a) (hab : a + 4 / 5 ≤ b) (hT : b ≤ j.T)
    (hV : ∀ t, a ≤ t → t ≤ b → j.V t = 30 * √2) (hS : ∀ t, a ≤ t → t ≤ b → j.S t = j.S a + 30 * √2 * (t - a))
    {axis : Nat} (ha : axis < 2) {l : List Cmd} (htr : Trace cnc3axis (1 / 60000) corner [j] axis 0 0 l)
    (hlen : ⌈a * 60000⌉₊ + 748 ≤ l.length) :
    Steady l (fun k => ((l.take k).map stepsOf).sum) ((if axis = 1 then 1 / 2 else 0) + (200 * (j.S a / √2) - 6000 * a)) ⌈a * 60000⌉₊ := by
  have r2 : (0 : ℝ) < √2 := by positivity
  have hA : a * 60000 ≤ ⌈a * 60000⌉₊ := Nat.le_ceil _
  have hA' : (⌈a * 60000⌉₊ : ℝ) < a * 60000 + 1 := Nat.ceil_lt_add_one (by positivity)
  set A := ⌈a * 60000⌉₊ with hAdef
  have hin : ∀ k : Nat, A ≤ k → k ≤ A + 747 → a ≤ (k : ℝ) * (1 / 60000) ∧ (k : ℝ) * (1 / 60000) ≤ b := by
    intro k h1 h2
    have h1 : (A : ℝ) ≤ k := by exact_mod_cast h1
    have h2 : (k : ℝ) ≤ A + 747 := by exact_mod_cast h2
    constructor <;> linarith
  have h3 : axis < 3 := by omega
  have h2 : ¬ axis = 2 := by omega
  have hplace : ∀ t, a ≤ t → t ≤ b → placeAt corner [j] t axis * 200 =
      (if axis = 1 then 1 / 2 else 0) + (200 * (j.S a / √2) - 6000 * a) + 6000 * t := by
    intro t h1 h2'
    rw [placeAt, if_pos (by linarith)]
    show place j.r axis (j.S t) * 200 = _
    rw [hr, place_diagonal h3, if_neg h2, hS t h1 h2']
    have : (j.S a + 30 * √2 * (t - a)) / √2 = j.S a / √2 + 30 * (t - a) := by field_simp
    rw [this]
    unfold corner
    split <;> ring
  have hvel : ∀ t, a ≤ t → t ≤ b → velAt [j] t axis ≠ 0 := by
    intro t h1 h2'
    rw [velAt, if_pos (by linarith)]
    show j.vel axis t ≠ 0
    unfold Job.vel
    rw [hr, slope_diagonal ha, hV t h1 h2']
    positivity
  have hsp : cnc3axis.stepsPerMm axis = 200 := rfl
  have hh : cnc3axis.hysteresis = 1 / 20 := rfl
  refine ⟨hlen, ?_, ?_, ?_, ?_⟩
  · intro k hk
    simp only [List.take_add_one, List.getElem?_eq_getElem hk, Option.toList_some, List.map_append, List.map_cons, List.map_nil,
      List.sum_append, List.sum_cons, List.sum_nil, add_zero]
  · intro k h1 h4
    obtain ⟨i1, i2⟩ := hin k h1 h4
    have hs := (htr.get k (by omega)).band
    rw [zero_add, zero_add, hsp, hh, hplace _ i1 i2] at hs
    rcases hs with hs | hs
    · refine le_of_eq_of_le ?_ (hs.trans_eq (by norm_num))
      congr 1; ring
    · exact absurd hs (hvel _ i1 i2)
  · intro k hk h1 h4 hc
    obtain ⟨i1, i2⟩ := hin (k + 1) (by omega) (by omega)
    have hs := (htr.get k hk).fwd hc
    have e : 0 + (k : ℝ) * (1 / 60000) + 1 / 60000 = ((k + 1 : Nat) : ℝ) * (1 / 60000) := by push_cast; ring
    rw [e, zero_add, hsp, hh, hplace _ i1 i2] at hs
    push_cast at hs
    push_cast
    linarith
  · intro k hk h1 h4 hc
    obtain ⟨i1, i2⟩ := hin (k + 1) (by omega) (by omega)
    have hs := (htr.get k hk).bwd hc
    have e : 0 + (k : ℝ) * (1 / 60000) + 1 / 60000 = ((k + 1 : Nat) : ℝ) * (1 / 60000) := by push_cast; ring
    rw [e, zero_add, hsp, hh, hplace _ i1 i2] at hs
    push_cast at hs
    push_cast
    linarith

set_option maxHeartbeats 800000 in
/-- The diagonal, 60 mm in X and Y at full speed: some 254 consecutive outputs last less than 750 ticks. -/
theorem diagonal_dense : ∃ c c' logp log log', ∃ i,
    (fresh cnc3axis.kit).run [.configure 375 (fin (1 / 60000))] = some (c, logp) ∧ ticksOf logp = [] ∧
    Performs cnc3axis (1 / 60000) corner c [diagonal 100] (List.replicate 40000 .calculate) c' log ∧
    (fresh cnc3axis.kit).run (.configure 375 (fin (1 / 60000)) :: [] ++
      ([diagonal 100].map (push cnc3axis) ++ [.start] ++ List.replicate 40000 .calculate)) = some (c', log') ∧
    i + 257 ≤ (entriesOf log').length ∧ sumTime (((entriesOf log').drop i).take 254) < 750 := by
  obtain ⟨c, c', logp, log, hcfg, hov, hpos, h⟩ := performs_diagonal (f := 100) (by norm_num) 40000
  have hlogp : ticksOf logp = [] := by
    simp only [run, call, Option.map_some, Option.some.injEq, Prod.mk.injEq] at hcfg
    rw [← hcfg.2]; rfl
  obtain ⟨c₀, log₀, h₀, hf, hrun⟩ := h.run
  have hall := run_concat (K := cnc3axis.kit) _ _ hcfg (run_concat (K := cnc3axis.kit) _ _ h₀ hrun)
  have hempty : ticksOf log₀ = [] := by
    have hm := h.follow
    have hs : Suited cnc3axis (1 / 60000) (travel cnc3axis (1 / 60000)) := ⟨hm.width, hm.hysteresis, hm.steps, fun axis ha =>
      mul_nonneg (mul_nonneg (h.machine.vMax axis ha).le hm.width.le) (hm.steps axis ha), fun axis ha => le_rfl,
      fun axis ha => by have := hm.rate axis ha; unfold Machine.perTick; unfold travel at this ⊢; linarith⟩
    exact (executed h.machine hs h.idle h.some h.fit h.executable h.feed h.near h₀ hf hrun).1
  obtain ⟨js, h1, h2, h3, h4, h5⟩ := performs_trace h
  have hprog : program (M := cnc3axis) c.overrides.feedOverride [diagonal 100] (List.replicate 40000 .calculate) = [(diagonal 100, fin 100)] := by
    show [(diagonal 100, (diagonal 100).vFeed * c.overrides.feedOverride)] ++ requested (M := cnc3axis) _ _ = _
    rw [requested_calculate, hov]
    show [(diagonal 100, fin 100 * fin 1)] = _
    rw [fin_mul]; norm_num
  rw [hprog] at h1
  obtain ⟨j, rfl⟩ : ∃ j, js = [j] := by
    have := congrArg List.length h1
    rw [List.length_map] at this
    exact List.length_eq_one_iff.1 this
  simp only [List.map_cons, List.map_nil, List.cons.injEq, Prod.mk.injEq, and_true] at h1
  obtain ⟨hr, hfd⟩ := h1
  obtain ⟨a, b, h0, ha, hab, hT, hV, hS⟩ := cruise_diagonal (h2 j (by simp)) hr hfd
  have hA : ⌈a * 60000⌉₊ ≤ 36000 := Nat.ceil_le.2 (by push_cast; linarith)
  have hge : 40000 ≤ (ticksOf log).length := by
    have := ticks_ge (K := cnc3axis.kit) _ hrun
    rw [List.countP_replicate] at this
    simpa [Call.isCalculate] using this
  have hee : 40000 ≤ (entriesOf (logp ++ (log₀ ++ log))).length := by
    have := entries_count (K := cnc3axis.kit) _ hrun
    rw [List.countP_replicate] at this
    have h6 : 40000 ≤ (entriesOf log).length := by simpa [Call.isCalculate] using this
    simp only [entriesOf, List.flatMap_append, List.length_append] at h6 ⊢
    omega
  have tr : ∀ axis, axis < 2 → Trace cnc3axis (1 / 60000) corner [j] axis 0 0 ((ticksOf log).map fun x => x.cmd axis) := by
    intro axis hax
    have := h5 axis (show axis < 3 by omega)
    rw [hpos] at this
    exact this
  have sx := steady_diagonal hr h0 hab hT hV hS (axis := 0) (by omega) (tr 0 (by omega)) (by rw [List.length_map]; omega)
  have sy := steady_diagonal hr h0 hab hT hV hS (axis := 1) (by omega) (tr 1 (by omega)) (by rw [List.length_map]; omega)
  rw [if_neg (by decide), zero_add] at sx
  rw [if_pos rfl] at sy
  have hwave := motion_entries_are_waveform (K := cnc3axis.kit) _ _ _ hall
  have htimely := entries_last_long _ _ (motion_entry_duration (K := cnc3axis.kit) _ _ _ hall)
  rw [ticks_append, ticks_append, hlogp, hempty, List.nil_append, List.nil_append] at hwave
  have mem : ∀ axis k, k ∈ ticksIn ((ticksOf log).map fun x => x.cmd axis) ⌈a * 60000⌉₊ → ⌈a * 60000⌉₊ ≤ k ∧ k ≤ ⌈a * 60000⌉₊ + 746 :=
    fun axis k hk => Finset.mem_Icc.1 (Finset.mem_filter.1 hk).1
  have mem' : ∀ axis (k) (h : k < ((ticksOf log).map Tick.cmd).length), ⌈a * 60000⌉₊ ≤ k → k ≤ ⌈a * 60000⌉₊ + 746 →
      (((((ticksOf log).map Tick.cmd)[k]'h) axis).isSome = true ↔ k ∈ ticksIn ((ticksOf log).map fun x => x.cmd axis) ⌈a * 60000⌉₊) := by
    intro axis k hk k1 k2
    have hk' : k < ((ticksOf log).map fun x => x.cmd axis).length := by rw [List.length_map] at hk ⊢; exact hk
    rw [mem_ticksIn hk', List.getElem_map, List.getElem_map]
    exact ⟨fun h => ⟨⟨k1, k2⟩, h⟩, fun h => h.2⟩
  obtain ⟨i, i1, i2, i3⟩ := Moovr.crowded_steps (n := cnc3axis.kit.n) (show cnc3axis.n ≤ 15 by decide) (show 2 ≤ cnc3axis.n by decide)
    htimely hwave (A := ⌈a * 60000⌉₊) (by rw [List.length_map]; omega) (mem 0) (mem 1) (mem' 0) (mem' 1)
    (fun k hk => sx.apart hk) (fun k hk => sy.apart hk)
    (fun k hk => ⟨fun hk' => (sx.between sy hk hk').1 rfl, fun hk' => (sx.between sy hk hk').2.1 rfl⟩)
    (fun k hk hk' => (sx.between sy hk' hk).2.2 rfl)
    (by have := sx.count; have := sy.count; omega)
  exact ⟨c, c', logp, log, _, i, hcfg, hlogp, h, hall, by omega, i3⟩

/-- **C101 is violated by the code.** `program_buffer_room_partial` is false without the condition that the program is calm: the
shipped controller moves 60 mm in X and Y at full speed, and the main loop loses an output although the interrupt is never starved. -/
theorem program_buffer_room_violated :
    ¬ ∀ (d : Nat → ℝ) (pre : List (MCall cnc3axis)) (c c' : MotionCtrl cnc3axis.kit) (logp) (rs) (ks) (log),
      (fresh cnc3axis.kit).run (.configure 375 (fin (1 / 60000)) :: pre) = some (c, logp) →
      (∀ k ∈ pre, ∀ m w, k ≠ .configure m w) → (∀ x ∈ ticksOf logp, ∀ axis, axis < 3 → x.cmd axis = none) →
      Performs cnc3axis (1 / 60000) d c rs ks c' log →
      ∃ log', (fresh cnc3axis.kit).run (.configure 375 (fin (1 / 60000)) :: pre ++ (rs.map (push cnc3axis) ++ [.start] ++ ks)) =
          some (c', log') ∧
        ∀ b₀ b, StepBuffer.InitReturns b₀ b → b₀.minimumTotalTime = 1500 → b₀.minimumLevel = 4 → ∀ ops : List FillLoop.Op,
          puts ⟨b, false, []⟩ ops <+: entriesOf log' →
          FedRev (List.replicate 4 ⟨375, 0⟩) (FillLoop.calls ⟨b, false, []⟩ ops).reverse →
          (FillLoop.run ⟨b, false, []⟩ ops).lost = [] := by
  intro hclaim
  obtain ⟨c, c', logp, log, log', i, h1, h2, h3, h4, h5, h6⟩ := diagonal_dense
  obtain ⟨log'', hrun, hno⟩ := hclaim corner [] c c' logp _ _ log h1 (by simp) (by rw [h2]; simp) h3
  rw [h4, Option.some.injEq, Prod.mk.injEq] at hrun
  obtain ⟨-, rfl⟩ := hrun
  obtain ⟨ops, o1, o2, o3⟩ := fill_loop_sharp shipped_init rfl rfl i h5 h6
  exact o3 (hno _ _ shipped_init rfl rfl ops o1 o2)

/-- C101: the same way at 28 mm/s (at most 20 mm/s per axis): nothing is lost. -/
example (n : Nat) : ∃ c c' logp log, (fresh cnc3axis.kit).run [.configure 375 (fin (1 / 60000))] = some (c, logp) ∧
    Performs cnc3axis (1 / 60000) corner c [diagonal 28] (List.replicate n .calculate) c' log ∧
    Calm corner c (program (M := cnc3axis) c.overrides.feedOverride [diagonal 28] (List.replicate n .calculate)) ∧
    ∃ log', (fresh cnc3axis.kit).run (.configure 375 (fin (1 / 60000)) :: [] ++
        ([diagonal 28].map (push cnc3axis) ++ [.start] ++ List.replicate n .calculate)) = some (c', log') ∧
      ∀ ops : List FillLoop.Op, puts ⟨shipped, false, []⟩ ops <+: entriesOf log' →
        FedRev (List.replicate 4 ⟨375, 0⟩) (FillLoop.calls ⟨shipped, false, []⟩ ops).reverse →
        (FillLoop.run ⟨shipped, false, []⟩ ops).lost = [] := by
  obtain ⟨c, c', logp, log, hcfg, hov, hpos, h⟩ := performs_diagonal (f := 28) (by norm_num) n
  have hlogp : ticksOf logp = [] := by
    simp only [run, call, Option.map_some, Option.some.injEq, Prod.mk.injEq] at hcfg
    rw [← hcfg.2]; rfl
  have hprog : program (M := cnc3axis) c.overrides.feedOverride [diagonal 28] (List.replicate n .calculate) = [(diagonal 28, fin 28)] := by
    show [(diagonal 28, (diagonal 28).vFeed * c.overrides.feedOverride)] ++ requested (M := cnc3axis) _ _ = _
    rw [requested_calculate, hov]
    show [(diagonal 28, fin 28 * fin 1)] = _
    rw [fin_mul]; norm_num
  have hcalm : Calm corner c (program (M := cnc3axis) c.overrides.feedOverride [diagonal 28] (List.replicate n .calculate)) := by
    rw [hprog]
    refine .inr (.inl ⟨2, by decide, ⟨?_, ?_⟩, ?_⟩)
    · intro x hx
      rw [List.mem_singleton.1 hx]
      exact abs_eq_zero.1 ((direction_diagonal (f := 28) (axis := 2) (by decide)).trans (if_pos rfl))
    · rw [hpos]; norm_num [corner, cnc3axis]
    · intro axis h1 h2
      refine ⟨by norm_num, fun x hx => .inr ⟨28, ?_⟩⟩
      rw [List.mem_singleton.1 hx]
      refine ⟨rfl, ?_⟩
      show |(diagonal 28).direction axis| * 28 ≤ 20
      rw [direction_diagonal h1, if_neg h2]
      have : 7 / 5 ≤ √(2 : ℝ) := by rw [Real.le_sqrt (by norm_num) (by norm_num)]; norm_num
      rw [one_div, inv_mul_le_iff₀ (by positivity)]
      linarith
  obtain ⟨log', l1, l2⟩ := program_buffer_room_partial (pre := []) hcfg (by simp) (by rw [hlogp]; simp) h hcalm
  exact ⟨c, c', logp, log, hcfg, h, hcalm, log', l1, l2 _ _ shipped_init rfl rfl⟩

end Moovr.Props
