import Verif.Props.StepTiming
import Verif.Props.MotionCtrl
import Verif.Props.MainHistory
import Verif.Props.HomingSingle
/-!
# The step counters do not overflow (C124)

`machinePositionInSteps` is an array of `int32_t`; the model has unbounded integers. Incrementing the largest or decrementing the
smallest `int32_t` would be undefined behaviour. The theorems here say that this does not happen, tick by tick.
-/
namespace Moovr.Props
open Num ExecSpec MotionCtrl MotionSpec

/-- Steps forward are asked for only below the largest `int32_t`. -/
def Bounded (K : MotionKit) : Prop :=
  ∀ axis p n, K.needStepForward axis p n = true → n < 2 ^ 31 - 1

/-! ## Proof -/

private theorem decision_forward {K : MotionKit} (hK : Bounded K) {c : MotionCtrl K} {a : Nat} (h : c.decision a = some .forward) :
    c.machinePosition a < 2 ^ 31 - 1 := by
  unfold decision at h
  simp only at h
  split_ifs at h with h1 h2 h3
  · exact hK _ _ _ h2
  · simp at h

private theorem settle_forward {K : MotionKit} (hK : Bounded K) {a : Nat} (fuel : Nat) : ∀ {c : MotionCtrl K} {r},
    settle fuel c = some r → r.2.1 a = some .forward → c.machinePosition a < 2 ^ 31 - 1 := by
  induction fuel with
  | zero => intro c r h; simp [settle] at h
  | succ fuel ih =>
    intro c r h hf
    unfold settle at h
    split at h
    · split at h
      · exact ih (c := c.nextMotion) h hf
      · simp only [Option.some.injEq] at h
        subst h
        simp at hf
    · simp only [Option.some.injEq] at h
      subst h
      exact decision_forward hK hf

private theorem tick_forward {K : MotionKit} (hK : Bounded K) {c c' : MotionCtrl K} {x} (h : c.tick = some (c', x)) {a : Nat}
    (hf : x.cmd a = some .forward) : c.machinePosition a < 2 ^ 31 - 1 := by
  unfold tick at h
  simp only at h
  split at h
  · simp only [Option.map_eq_some_iff, Prod.exists, Prod.mk.injEq] at h
    obtain ⟨c₁, cmd, act, h1, rfl, rfl⟩ := h
    have := settle_forward hK _ h1 hf
    have e : (sampleAndCheckStop { c with signals := c.signals.next }).machinePosition = c.machinePosition :=
      (sampled_same { c with signals := c.signals.next }).2
    rwa [e] at this
  · simp only [Option.some.injEq, Prod.mk.injEq] at h
    obtain ⟨-, rfl⟩ := h
    simp at hf

private theorem tick_upper {K : MotionKit} (hK : Bounded K) {c c' : MotionCtrl K} {x} (h : c.tick = some (c', x)) {a : Nat}
    (hp : c.machinePosition a ≤ 2 ^ 31 - 1) : c'.machinePosition a ≤ 2 ^ 31 - 1 := by
  rw [tick_pos c c' x h a]
  rcases hc : x.cmd a with _ | d
  · simp only [stepsOf]; omega
  · cases d
    · have := tick_forward hK h hc
      simp only [stepsOf]; omega
    · simp only [stepsOf]; omega

private theorem calcLoop_upper {K : MotionKit} (hK : Bounded K) {a : Nat} (fuel : Nat) : ∀ {c c' : MotionCtrl K} {e ts},
    calcLoop fuel c = some (c', e, ts) → c.machinePosition a ≤ 2 ^ 31 - 1 →
    ∀ k, c.machinePosition a + net a (ts.take k) ≤ 2 ^ 31 - 1 := by
  induction fuel with
  | zero => intro c c' e ts h; simp [calcLoop] at h
  | succ fuel ih =>
    intro c c' e ts h hp k
    cases k with
    | zero => simpa [net] using hp
    | succ k =>
    unfold calcLoop at h
    split at h
    · simp at h
    · rename_i c₁ x hx
      have h1 := tick_upper hK hx hp
      have h2 := tick_pos c c₁ x hx a
      split at h
      · simp only [Option.some.injEq, Prod.mk.injEq] at h
        obtain ⟨-, -, rfl⟩ := h
        simp only [List.take_succ_cons, List.take_nil, net, List.map_cons, List.map_nil, List.sum_cons, List.sum_nil, add_zero]
        omega
      · simp only [Option.map_eq_some_iff, Prod.exists, Prod.mk.injEq] at h
        obtain ⟨c₂, e₂, ts₂, h3, rfl, rfl, rfl⟩ := h
        have := ih h3 h1 k
        simp only [List.take_succ_cons, net, List.map_cons, List.sum_cons] at this ⊢
        omega

/-- At no tick of a log, nor between the calls, the position of an axis exceeds the largest `int32_t`. -/
private def Safe {Req Job Time Ovr : Type} (a : Nat) : Int → Log Req Job Time Ovr → Prop
  | _, [] => True
  | p, (k, r) :: l => (∀ i, p + net a (r.ticks.take i) ≤ 2 ^ 31 - 1) ∧ Safe a (positionAfter a p [(k, r)]) l

private theorem positionAfter_append {Req Job Time Ovr : Type} (a : Nat) (l₁ l₂ : Log Req Job Time Ovr) : ∀ p,
    positionAfter a p (l₁ ++ l₂) = positionAfter a (positionAfter a p l₁) l₂ := by
  induction l₁ with
  | nil => intro p; rfl
  | cons x l₁ ih => intro p; obtain ⟨k, r⟩ := x; cases k <;> exact ih _

private theorem Safe.at {Req Job Time Ovr : Type} {a : Nat} {k : Call Req Time Ovr} {r : Ret Job} {l₁ l₂ : Log Req Job Time Ovr} : ∀ {p},
    Safe a p (l₁ ++ (k, r) :: l₂) → ∀ i, positionAfter a p l₁ + net a (r.ticks.take i) ≤ 2 ^ 31 - 1 := by
  induction l₁ with
  | nil => intro p h; exact h.1
  | cons x l₁ ih =>
    intro p h
    have := ih h.2
    rwa [← positionAfter_append] at this

private theorem call_ticks {K : MotionKit} {c c' : MotionCtrl K} {k : Call K.Req K.Time K.Ovr} {x} (h : c.call k = some (c', x)) :
    x.ticks = [] ∨ ∃ fuel e, calcLoop fuel c = some (c', e, x.ticks) := by
  cases k <;> simp only [call, Option.some.injEq, Prod.mk.injEq, Option.map_eq_some_iff, Prod.exists] at h
  case calculate =>
    obtain ⟨c'', e, ts, hc, rfl, rfl⟩ := h
    exact .inr ⟨_, e, hc⟩
  all_goals
    obtain ⟨-, rfl⟩ := h
    exact .inl rfl

private theorem safe_of {K : MotionKit} (hK : Bounded K) {a : Nat} (ha : a < K.n) (ks : List (Call K.Req K.Time K.Ovr)) :
    ∀ {c c' : MotionCtrl K} {log}, c.run ks = some (c', log) → c.machinePosition a ≤ 2 ^ 31 - 1 →
      Safe a (c.machinePosition a) log ∧ c'.machinePosition a ≤ 2 ^ 31 - 1 := by
  induction ks with
  | nil => intro c c' log h hp; simp only [run, Option.some.injEq, Prod.mk.injEq] at h; rw [← h.2, ← h.1]; exact ⟨trivial, hp⟩
  | cons k ks ih =>
    intro c c' log h hp
    rw [run] at h
    cases he : c.call k with
    | none => rw [he] at h; simp at h
    | some x =>
      obtain ⟨c₁, r⟩ := x
      rw [he] at h
      simp only [Option.map_eq_some_iff, Prod.exists, Prod.mk.injEq] at h
      obtain ⟨c₂, log', hr, rfl, rfl⟩ := h
      have h1 : ∀ i, c.machinePosition a + net a (r.ticks.take i) ≤ 2 ^ 31 - 1 := by
        rcases call_ticks he with e | ⟨fuel, e, hc⟩
        · intro i; rw [e]; simpa [net] using hp
        · exact calcLoop_upper hK fuel hc hp
      have h2 : c₁.machinePosition a = positionAfter a (c.machinePosition a) [(k, r)] :=
        position_of [k] a ha c c₁ [(k, r)] (by rw [run, he]; rfl)
      have h3 : c₁.machinePosition a ≤ 2 ^ 31 - 1 := ?_
      · obtain ⟨g1, g2⟩ := ih hr h3
        rw [h2] at g1
        exact ⟨⟨h1, g1⟩, g2⟩
      rw [h2]
      cases k
      case resetPosition => simp [positionAfter]
      all_goals
        simp only [positionAfter]
        have := h1 r.ticks.length
        rwa [List.take_length] at this

private theorem stepsOf_abs (c : PulseSpec.Cmd) : |stepsOf c| ≤ 1 := by
  rcases c with _ | d
  · simp [stepsOf]
  · cases d <;> simp [stepsOf]

private theorem net_abs {Job : Type} (a : Nat) (ts : List (Tick Job)) : |net a ts| ≤ ts.length := by
  induction ts with
  | nil => simp [net]
  | cons t ts ih =>
    have h1 := abs_le.1 (stepsOf_abs (t.cmd a))
    have h2 := abs_le.1 ih
    simp only [net, List.map_cons, List.sum_cons, List.length_cons] at h2 ⊢
    rw [abs_le]
    push_cast
    constructor <;> linarith [h1.1, h1.2, h2.1, h2.2]

private theorem positionAfter_abs {Req Job Time Ovr : Type} (a : Nat) (l : Log Req Job Time Ovr) : ∀ p,
    |positionAfter a p l| ≤ |p| + (ticksOf l).length := by
  induction l with
  | nil => intro p; simp [positionAfter, ticksOf]
  | cons x l ih =>
    intro p
    obtain ⟨k, r⟩ := x
    have e : ((ticksOf ((k, r) :: l)).length : Int) = r.ticks.length + (ticksOf l).length := by simp [ticksOf]
    rw [e]
    have h1 := net_abs a r.ticks
    have h2 := abs_add_le p (net a r.ticks)
    cases k
    case resetPosition =>
      have := ih 0
      have h0 := abs_nonneg p
      simp only [positionAfter, abs_zero] at this ⊢
      linarith [Int.natCast_nonneg r.ticks.length]
    all_goals
      have := ih (p + net a r.ticks)
      simp only [positionAfter]
      linarith

/-! ## The property -/

/-- **C124** In every history on a fresh controller, at every tick `i` of every call, the position of an axis does not exceed the
largest `int32_t`; and it does not go below the smallest one within the first 2³¹ ticks (almost 10 hours at 60 000 per second). -/
theorem step_counter_fits {K : MotionKit} (hK : Bounded K) {ks : List (Call K.Req K.Time K.Ovr)} {c : MotionCtrl K} {l₁ l₂ k r}
    (h : (fresh K).run ks = some (c, l₁ ++ (k, r) :: l₂)) {a : Nat} (ha : a < K.n) (i : Nat) (hi : i ≤ r.ticks.length) :
    positionAfter a 0 l₁ + net a (r.ticks.take i) ≤ 2 ^ 31 - 1 ∧
    ((ticksOf l₁).length + i ≤ 2 ^ 31 → -2 ^ 31 ≤ positionAfter a 0 l₁ + net a (r.ticks.take i)) := by
  refine ⟨(safe_of hK ha ks h (by simp [fresh])).1.at i, fun hl => ?_⟩
  have h1 := (abs_le.1 (positionAfter_abs a l₁ 0)).1
  have h2 := (abs_le.1 (net_abs a (r.ticks.take i))).1
  rw [List.length_take, min_eq_left hi] at h2
  simp only [abs_zero, zero_add] at h1
  have : ((ticksOf l₁).length : Int) + i ≤ 2 ^ 31 := by exact_mod_cast hl
  linarith

private theorem toInt32_le {M : Machine} (hM : ∀ x, M.unspecified x ≤ 2 ^ 31 - 1) (x : Num) : M.toInt32 x ≤ 2 ^ 31 - 1 := by
  unfold Machine.toInt32
  split
  · rename_i x
    split_ifs with h1 h2
    · have : ⌊x⌋ < 2 ^ 31 := Int.floor_lt.2 (by have := h1.2; norm_num at this ⊢; exact this)
      omega
    · have : ⌈x⌉ ≤ 0 := Int.ceil_le.2 (by push_cast; linarith)
      linarith
    · exact hM _
  · exact hM _

/-- The real controller: whatever an undefined conversion to `int32_t` yields, it is an `int32_t`. -/
theorem bounded_kit {M : Machine} (hM : ∀ x, M.unspecified x ≤ 2 ^ 31 - 1) : Bounded M.kit := by
  intro axis p n h
  have h : n < M.toInt32 _ := of_decide_eq_true h
  exact lt_of_lt_of_le h (toInt32_le hM _)

/-- The same in single precision. -/
theorem bounded_kit32 {M : Machine} {fpu : Fpu} (hM : ∀ x, M.unspecified x ≤ 2 ^ 31 - 1) : Bounded (M.kit32 fpu) := by
  intro axis p n h
  have h : n < M.toInt32 _ := of_decide_eq_true h
  exact lt_of_lt_of_le h (toInt32_le hM _)

/-- There is no such limit in the other direction: with a commanded position far enough below zero (more than 10 km on the shipped
machine), a step back is asked for at the smallest `int32_t`. So the second part of `step_counter_fits` needs its bound, and
`program_counter_fits` needs paths that fit the counter. -/
theorem backward_unguarded : cnc3axis.kit.needStepBackward 0 (fin (-10737419)) (-2 ^ 31) = true := by
  show cnc3axis.needStepBackward 0 (fin (-10737419)) (-2 ^ 31) = true
  unfold Machine.needStepBackward
  rw [fin_mul, fin_add, Num.round, lt_fin, decide_eq_true_eq]
  have h := roundf_le (-10737419 * cnc3axis.stepsPerMm 0 + cnc3axis.hysteresis)
  norm_num [cnc3axis] at h ⊢
  linarith

/-- **C124, main program.** Whatever happens at the ports, the position counters of the main program stay below the limit. -/
theorem main_counter_fits {K : MotionKit} (hK : Bounded K) (t : Target K) (p : Ports) (rounds : List Round) :
    ∃ b, Board.run t p rounds = some b ∧ ∀ a, a < K.n → b.ctrl.machinePosition a ≤ 2 ^ 31 - 1 := by
  obtain ⟨b, h1, ks, log, h2, -⟩ := loop_motion_history t p rounds
  exact ⟨b, h1, fun a ha => (safe_of hK ha ks h2 (by simp [fresh])).2⟩

/-- The main program as shipped, in single precision. -/
example (fpu : Fpu) (p : Ports) (rounds : List Round) :
    ∃ b, Board.run (shippedTarget32 fpu) p rounds = some b ∧ ∀ a, a < 3 → b.ctrl.machinePosition a ≤ 2 ^ 31 - 1 :=
  main_counter_fits (bounded_kit32 fun _ => by norm_num [cnc3axis32]) _ p rounds

/-! ## Programs -/

private theorem placeAt_range {M : Machine} {axis : Nat} (ha : axis < M.n) {js : List Job} (hok : ∀ j ∈ js, j.Ok M)
    (hr : ∀ j ∈ js, Reachable M j.r) : ∀ {d : Nat → ℝ} {t : ℝ}, M.InRange (d axis * M.stepsPerMm axis) → 0 ≤ t →
      M.InRange (placeAt d js t axis * M.stepsPerMm axis) := by
  induction js with
  | nil => intro d t hd _; exact hd
  | cons j js ih =>
    intro d t hd ht
    have hj := hok j (by simp)
    have hL : 0 ≤ j.L := by
      have := hj.forward 0 j.T le_rfl hj.pos.le le_rfl
      rwa [hj.start, hj.finish] at this
    rw [placeAt]
    split_ifs with h
    · refine hr j (by simp) axis ha _ ?_ ?_
      · have := hj.forward 0 t le_rfl ht h; rwa [hj.start] at this
      · have := hj.forward t j.T ht h le_rfl; rwa [hj.finish] at this
    · exact ih (fun x hx => hok x (by simp [hx])) (fun x hx => hr x (by simp [hx]))
        (hr j (by simp) axis ha _ hL le_rfl) (by linarith [not_le.1 h])

/-- **C124, programs.** While a program is executed whose path fits the counter, the counter does not overflow in either direction,
however long it takes. -/
theorem program_counter_fits {M : Machine} {δ : ℝ} {d : Nat → ℝ} {c c' : MotionCtrl M.kit} {rs ks log}
    (h : Performs M δ d c rs ks c' log) {axis : Nat} (ha : axis < M.n)
    (h0 : -2 ^ 31 ≤ c.machinePosition axis ∧ c.machinePosition axis ≤ 2 ^ 31 - 1) (i : Nat) :
    -2 ^ 31 ≤ c.machinePosition axis + net axis ((ticksOf log).take i) ∧
    c.machinePosition axis + net axis ((ticksOf log).take i) ≤ 2 ^ 31 - 1 := by
  obtain ⟨js, h1, hok, hex, hcon, htr⟩ := performs_trace h
  have htr := htr axis ha
  have hδ := h.follow.width
  have hh := h.follow.hysteresis
  have hr : ∀ j ∈ js, Reachable M j.r := fun j hj => (h.motions _ (by
    rw [← h1]; exact List.mem_map_of_mem (f := fun j : Job => (j.r, j.f)) hj)).2.2
  have hd : M.InRange (d axis * M.stepsPerMm axis) := by
    cases js with
    | nil =>
      exfalso
      have : program c.overrides.feedOverride rs ks = [] := by rw [← h1]; rfl
      have hne := h.some
      cases rs with
      | nil => exact hne rfl
      | cons r rs => simp [program] at this
    | cons j js =>
      have := hcon.1 axis ha
      rw [← this]
      have hj := hok j (by simp)
      have hL : 0 ≤ j.L := by
        have := hj.forward 0 j.T le_rfl hj.pos.le le_rfl
        rwa [hj.start, hj.finish] at this
      exact hr j (by simp) axis ha 0 le_rfl hL
  have key : ∀ i, i ≤ (ticksOf log).length →
      -2 ^ 31 ≤ c.machinePosition axis + net axis ((ticksOf log).take i) ∧
      c.machinePosition axis + net axis ((ticksOf log).take i) ≤ 2 ^ 31 - 1 := by
    intro i
    induction i with
    | zero => intro _; simpa [net] using h0
    | succ i ih =>
      intro hi
      have ih := ih (by omega)
      have hs := htr.get i (by simpa using hi)
      have e : net axis ((ticksOf log).take (i + 1)) =
          net axis ((ticksOf log).take i) + stepsOf ((ticksOf log)[i].cmd axis) := by
        simp only [net]
        rw [List.take_succ_eq_append_getElem (by omega), List.map_append, List.sum_append]
        simp
      have e2 : ((((ticksOf log).map fun x => x.cmd axis).take i).map stepsOf).sum = net axis ((ticksOf log).take i) := by
        simp only [net]; rw [← List.map_take, List.map_map]; rfl
      rw [e2, List.getElem_map] at hs
      rw [e, ← add_assoc]
      set p := c.machinePosition axis + net axis ((ticksOf log).take i) with hp
      have hrg := abs_le.1 (placeAt_range ha hok hr hd (t := 0 + i * δ + δ) (by positivity))
      have hf := hs.fwd
      have hb := hs.bwd
      rcases hc : (ticksOf log)[i].cmd axis with _ | dir
      · simpa [stepsOf] using ih
      · cases dir
        · have hf := hf hc
          have : (p : ℝ) + 1 < 2 ^ 31 := by linarith [hrg.2]
          have : p + 1 < 2 ^ 31 := by exact_mod_cast this
          simp only [stepsOf]; omega
        · have hb := hb hc
          have : (-2 ^ 31 : ℝ) < (p : ℝ) - 1 := by linarith [hrg.1]
          have : -2 ^ 31 < p - 1 := by exact_mod_cast this
          simp only [stepsOf]; omega
  rcases le_total i (ticksOf log).length with hi | hi
  · exact key i hi
  · rw [List.take_of_length_le hi]
    have := key _ le_rfl
    rwa [List.take_length] at this

namespace ExecuteExample
open Example

/-- C124: the motion of 1 mm, watched for any time. -/
example (n : Nat) : ∃ c c' logp log, (fresh machine.kit).run [.configure 100 (fin (1 / 8000))] = some (c, logp) ∧
    Performs machine (1 / 8000) (fun _ => 0) c [request] (List.replicate n .calculate) c' log ∧
    ∀ i, -2 ^ 31 ≤ c.machinePosition 0 + net 0 ((ticksOf log).take i) := by
  obtain ⟨c, c', logp, log, h1, h2, h3⟩ := performs n
  have hp : c.machinePosition 0 = 0 := by
    simp only [run, call, Option.map_some, Option.some.injEq, Prod.mk.injEq] at h1
    rw [← h1.1]; rfl
  exact ⟨c, c', logp, log, h1, h3, fun i => (program_counter_fits h3 (axis := 0) one_pos (by rw [hp]; norm_num) i).1⟩

end ExecuteExample

end Moovr.Props
