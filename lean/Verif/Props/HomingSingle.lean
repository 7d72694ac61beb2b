import Verif.Lemmas.Homing32
import Verif.Props.HomingReal
import Verif.Props.SingleRun
/-!
# Property C115: homing moves in single precision

The whole main program on the 3-axis machine, with `float` arithmetic in the motion controller: what the axes do when homing orders a
move.
-/
namespace Moovr.Props
open Num Float32 MotionSpec HomingSpec
open MotionCtrl (Unchanged)
open Single (num)

/-- The main program as shipped, in single precision — main.cpp:152. -/
noncomputable def shippedTarget32 (fpu : Fpu) : Target (cnc3axis32.kit32 fpu) :=
  cnc3axis32.target32 fpu .cnc3axis 375 (num width32)

/-- After `n` calculations the controller makes, or has made, the homing move `m`: the axis of the move is within one step (and a
hundredth) of a point between the position at which the move was ordered and its end; it has not gone back; the other axes are
where they were; it does not stop but within one step of its end; and after the time that the move takes at its speed and 2.5 s (and
2.5 percent) it has stopped. -/
structure MakesMove32 {fpu : Fpu} (m : HomingMove) (n : Nat) (c : MotionCtrl (cnc3axis32.kit32 fpu)) : Prop where
  near : ∃ s : ℝ, 0 ≤ s ∧ s ≤ 1 ∧ |m.position m.axis + 200 * (m.offset * s) - c.machinePosition m.axis| ≤ 101 / 100
  onward : 0 ≤ (m.offset : ℝ) * (c.machinePosition m.axis - m.position m.axis)
  others : ∀ i, i < 3 → i ≠ m.axis → c.machinePosition i = m.position i
  over : c.state = .stopped → |m.position m.axis + 200 * (m.offset : ℝ) - c.machinePosition m.axis| ≤ 1
  ends : 61500 * (|(m.offset : ℝ)| / m.speed) + 150000 ≤ n →
    c.state = .stopped ∧ |m.position m.axis + 200 * (m.offset : ℝ) - c.machinePosition m.axis| ≤ 1

/-- A move of the shipped configuration: by 300, 160, 60 or 3 mm, at 10 or 1 mm/s. -/
structure ShippedMove (m : HomingMove) : Prop where
  axis : m.axis < 3
  offset : |m.offset| = 300 ∨ |m.offset| = 160 ∨ |m.offset| = 60 ∨ |m.offset| = 3
  speed : m.speed = 10 ∨ m.speed = 1

/-- It begins and ends within 300 mm of the origin. -/
structure Inside (m : HomingMove) : Prop where
  start : ∀ i, i < 3 → |m.position i| ≤ 60000
  stop : |m.position m.axis + 200 * m.offset| ≤ 60000

/-! ## Proof -/

/-- The position only changes by the steps. -/
theorem calculates_position {K : MotionKit} (n : Nat) (a : Nat) : ∀ {c c' : MotionCtrl K} {log},
    c.run (List.replicate n .calculate) = some (c', log) → c'.machinePosition a = c.machinePosition a + net a (ticksOf log) := by
  induction n with
  | zero =>
    intro c c' log h
    rw [List.replicate_zero, MotionCtrl.run] at h
    simp only [Option.some.injEq, Prod.mk.injEq] at h
    obtain ⟨rfl, rfl⟩ := h
    simp [ticksOf, net]
  | succ n ih =>
    intro c c' log h
    rw [List.replicate_succ, MotionCtrl.run] at h
    split at h
    · simp at h
    · rename_i c₁ x hx
      simp only [Option.map_eq_some_iff, Prod.exists, Prod.mk.injEq] at h
      obtain ⟨c₂, l, h1, rfl, rfl⟩ := h
      simp only [MotionCtrl.call, MotionCtrl.calcNext, Option.map_eq_some_iff, Prod.exists, Prod.mk.injEq] at hx
      obtain ⟨c₀, e, ts, h2, rfl, rfl⟩ := hx
      rw [ih h1, MotionCtrl.calcLoop_pos _ _ _ _ _ h2 a]
      simp [ticksOf, net, add_assoc]

private theorem net_nonneg {J : Type} {a : Nat} {ts : List (Tick J)} (h : ∀ t ∈ ts, t.cmd a ≠ some .backward) : 0 ≤ net a ts := by
  refine List.sum_nonneg fun x hx => ?_
  obtain ⟨t, ht, rfl⟩ := List.mem_map.1 hx
  have := h t ht
  rcases hc : t.cmd a with _ | (_ | _) <;> simp_all [stepsOf]

private theorem net_nonpos {J : Type} {a : Nat} {ts : List (Tick J)} (h : ∀ t ∈ ts, t.cmd a ≠ some .forward) : net a ts ≤ 0 := by
  induction ts with
  | nil => exact le_rfl
  | cons t ts ih =>
    have h1 := ih fun u hu => h u (List.mem_cons_of_mem _ hu)
    have h2 := h t List.mem_cons_self
    have e : net a (t :: ts) = stepsOf (t.cmd a) + net a ts := rfl
    have h3 : stepsOf (t.cmd a) ≤ 0 := by rcases hc : t.cmd a with _ | (_ | _) <;> simp_all [stepsOf]
    omega

theorem net_zero {J : Type} {a : Nat} {ts : List (Tick J)} (h : ∀ t ∈ ts, t.cmd a = none) : net a ts = 0 :=
  le_antisymm (net_nonpos fun t ht => by rw [h t ht]; simp) (net_nonneg fun t ht => by rw [h t ht]; simp)

/-- The start position, in mm. -/
private noncomputable def startOf (m : HomingMove) (i : Nat) : ℝ := rnd (rnd (m.position i) / 200)

private theorem rnd_300 : rnd 300 = 300 := by
  have := rnd_int (m := 300) (by norm_num)
  simpa using this

private theorem startOf_eq {m : HomingMove} {i : Nat} (h : |m.position i| ≤ 60000) : startOf m i = rnd ((m.position i : ℝ) / 200) := by
  unfold startOf
  rw [rnd_int (m := m.position i) (h.trans (by norm_num))]

private theorem startOf_near {m : HomingMove} {i : Nat} (h : |m.position i| ≤ 60000) :
    |200 * startOf m i - m.position i| ≤ 1 / 100 := by
  rw [startOf_eq h]
  have h' : |(m.position i : ℝ)| ≤ 60000 := by exact_mod_cast h
  have := rnd_scale (x := (m.position i : ℝ) / 200) (X := 300)
    (by rw [abs_div, abs_of_pos (by norm_num : (0 : ℝ) < 200)]; linarith) (by rw [zpow_neg]; norm_num)
  rw [show ((2 : ℝ) ^ (-24 : ℤ)) = 1 / 16777216 by norm_num [zpow_neg]] at this
  have := abs_le.1 this
  rw [abs_le]
  constructor <;> linarith

private theorem within_of {p : ℝ} {k : ℤ} (hk : |k| ≤ 300) (h1 : -60000 ≤ p + 200 * k) (h2 : p + 200 * k ≤ 60000) :
    |rnd (p / 200) + k| ≤ 300 := by
  have e1 : rnd ((300 - k : ℤ) : ℝ) = (300 - k : ℤ) := rnd_int (by rw [abs_le] at *; constructor <;> linarith)
  have e2 : rnd ((-300 - k : ℤ) : ℝ) = (-300 - k : ℤ) := rnd_int (by rw [abs_le] at *; constructor <;> linarith)
  have u := rnd_mono (show p / 200 ≤ ((300 - k : ℤ) : ℝ) by push_cast; linarith)
  have l := rnd_mono (show ((-300 - k : ℤ) : ℝ) ≤ p / 200 by push_cast; linarith)
  rw [e1] at u
  rw [e2] at l
  push_cast at u l
  rw [abs_le]
  constructor <;> linarith

private theorem ShippedMove.whole {m : HomingMove} (h : ShippedMove m) : ∃ k : ℤ, m.offset = k ∧ |k| ≤ 300 := by
  have key : ∀ n : ℤ, 0 ≤ n → n ≤ 300 → |m.offset| = n → ∃ k : ℤ, m.offset = k ∧ |k| ≤ 300 := by
    intro n n0 n1 hn
    rcases abs_choice m.offset with e | e <;> rw [e] at hn
    · exact ⟨n, hn, by rw [abs_of_nonneg n0]; exact n1⟩
    · exact ⟨-n, by push_cast; linarith, by rw [abs_neg, abs_of_nonneg n0]; exact n1⟩
  rcases h.offset with e | e | e | e
  · exact key 300 (by norm_num) (by norm_num) (by rw [e]; norm_num)
  · exact key 160 (by norm_num) (by norm_num) (by rw [e]; norm_num)
  · exact key 60 (by norm_num) (by norm_num) (by rw [e]; norm_num)
  · exact key 3 (by norm_num) (by norm_num) (by rw [e]; norm_num)

theorem ShippedMove.size {m : HomingMove} (h : ShippedMove m) : (3 : ℝ) ≤ |(m.offset : ℝ)| ∧ |(m.offset : ℝ)| ≤ 300 := by
  have : (3 : ℚ) ≤ |m.offset| ∧ |m.offset| ≤ 300 := by rcases h.offset with e | e | e | e <;> rw [e] <;> norm_num
  exact_mod_cast this

/-- The motion that is appended. -/
private theorem ShippedMove.line {m : HomingMove} (h : ShippedMove m) (hin : Inside m) :
    LineRequest (cnc3axis32.homingRequest32 m) (startOf m) (fun i => if i = m.axis then (m.offset : ℝ) else 0) |(m.offset : ℝ)| := by
  obtain ⟨s1, s2⟩ := h.size
  have ha := h.axis
  obtain ⟨k, hk, hk300⟩ := h.whole
  refine ⟨⟨?_, by linarith, fun i hi => ?_, fun i hi => ?_, fun i hi => ?_⟩, .inr rfl, ⟨le_rfl, le_rfl⟩, fun i hi => ?_, fun i hi => ?_, rfl,
    fun i hi => ?_⟩
  · rw [sq_abs]
    rcases (show m.axis = 0 ∨ m.axis = 1 ∨ m.axis = 2 by omega) with e | e | e <;> simp [e]
  · have hp : |(m.position i : ℝ)| ≤ 60000 := by exact_mod_cast hin.start i hi
    rw [abs_le] at hp
    have := within_of (p := m.position i) (k := 0) (by norm_num) (by push_cast; linarith) (by push_cast; linarith)
    rw [startOf_eq (hin.start i hi)]
    simpa using this
  · rw [startOf_eq (hin.start i hi)]
    split
    · rename_i e
      have hs := hin.stop
      rw [hk] at hs ⊢
      have hp : |(m.position m.axis : ℝ) + 200 * k| ≤ 60000 := by exact_mod_cast hs
      rw [abs_le] at hp
      rw [e]
      have := within_of (p := m.position m.axis) hk300 hp.1 hp.2
      simpa using this
    · have hp : |(m.position i : ℝ)| ≤ 60000 := by exact_mod_cast hin.start i hi
      rw [abs_le] at hp
      have := within_of (p := m.position i) (k := 0) (by norm_num) (by push_cast; linarith) (by push_cast; linarith)
      simpa using this
  · split
    · exact s2
    · norm_num
  · show (Single.num (rnd (m.position i)) / Single.num 200 : Single).val = fin (startOf m i)
    show round32 (fin (rnd (m.position i)) / fin 200) = _
    rw [fin_div (by norm_num)]
    rfl
  · show (if i = m.axis then fin (m.offset : ℝ) else fin 0) = _
    split <;> simp_all
  · split
    · right; refine le_trans ?_ s1; norm_num
    · left; rfl

/-- The controller `c` is about to be given the move `m`, from the point `x` on. -/
structure Order32 {fpu : Fpu} (m : HomingMove) (x : Nat → ℝ) (c : MotionCtrl (cnc3axis32.kit32 fpu)) : Prop where
  idle : Idle32 width32 c
  override : c.overrides.feedOverride = fin 1
  position : c.machinePosition = m.position
  near : ∀ i, i < 3 → |200 * x i - m.position i| ≤ 1 / 100
  line : LineRequest (cnc3axis32.homingRequest32 m) x (fun i => if i = m.axis then (m.offset : ℝ) else 0) |(m.offset : ℝ)|
  asked : Asked (cnc3axis32.homingRequest32 m) |(m.offset : ℝ)| 1 m.speed

theorem order_setting {fpu : Fpu} {c : MotionCtrl (cnc3axis32.kit32 fpu)} (hs : c.state = .stopped)
    (hc : Unchanged (num width32) (MotionCtrl.fresh (cnc3axis32.kit32 fpu)).overrides c) {m : HomingMove} (hm : ShippedMove m)
    (hin : Inside m) (hpos : m.position = c.machinePosition) : ∃ x, Order32 m x c.flushMotionBuffer := by
  have hfl : c.flushMotionBuffer = { c with time := c.time.reinit, buffer := c.buffer.flush } := by
    unfold MotionCtrl.flushMotionBuffer
    rw [if_pos (by simp [MotionCtrl.isRunning, hs])]
  have hspeed : (1 : ℝ) ≤ m.speed ∧ (m.speed : ℝ) ≤ 10 := by rcases hm.speed with e | e <;> rw [e] <;> norm_num
  obtain ⟨s1, s2⟩ := hm.size
  refine ⟨startOf m, ?_, ?_, by rw [hfl, hpos], fun i hi => startOf_near (hin.start i hi), hm.line hin, ?_⟩
  · rw [hfl]
    exact ⟨hs, rfl, by simp [MotionBuffer.flush], hc.width, rfl, rfl, rfl⟩
  · rw [hfl]; exact congrArg Overrides.feedOverride hc.ovr
  · refine .inr ⟨m.speed, rfl, one_pos, by norm_num, by linarith, ?_, ?_⟩
    · rw [mul_one, min_eq_left (by linarith)]
    · have h1 := pow_le_pow_left₀ (by norm_num) hspeed.1 3
      have h2 := pow_le_pow_left₀ (abs_nonneg _) s2 2
      norm_num at h1 h2 ⊢
      linarith

/-- The calls with which a move is ordered. -/
theorem order_run {K : MotionKit} {c c' : MotionCtrl K} {r : K.Req} {ks log} (h : ((c.append r).start).run ks = some (c', log)) :
    ∃ log', c.run (.append r :: .start :: ks) = some (c', log') ∧ ticksOf log' = ticksOf log := by
  refine ⟨(.append r, ⟨(c.append r).events.drop c.events.length, none, []⟩) ::
    (.start, ⟨(c.append r).start.events.drop (c.append r).events.length, none, []⟩) :: log, ?_, rfl⟩
  rw [MotionCtrl.run]
  simp only [MotionCtrl.call]
  rw [MotionCtrl.run]
  simp only [MotionCtrl.call, h, Option.map_some]

/-- Ordering a move does not move the machine. -/
theorem order_position {K : MotionKit} (c : MotionCtrl K) (r : K.Req) : (c.append r).start.machinePosition = c.machinePosition := by
  have e1 : (c.append r).machinePosition = c.machinePosition := by unfold MotionCtrl.append; split <;> rfl
  rw [← e1]; unfold MotionCtrl.start; split
  · rw [(MotionCtrl.sameButProf_optimize _).pos]; rfl
  · rfl

/-- A move ordered at standstill. -/
theorem order_executed_single {fpu : Fpu} {c : MotionCtrl (cnc3axis32.kit32 fpu)} (hs : c.state = .stopped)
    (hc : Unchanged (num width32) (MotionCtrl.fresh (cnc3axis32.kit32 fpu)).overrides c) {m : HomingMove} (hm : ShippedMove m)
    (hin : Inside m) (hpos : m.position = c.machinePosition) {n : Nat} {c' : MotionCtrl (cnc3axis32.kit32 fpu)} {log}
    (h : ((c.flushMotionBuffer.append (cnc3axis32.homingRequest32 m)).start).run (List.replicate n .calculate) = some (c', log)) :
    MakesMove32 m n c' := by
  obtain ⟨x, ho⟩ := order_setting hs hc hm hin hpos
  have hmp := ho.position
  obtain ⟨log', hrun, hticks⟩ := order_run h
  obtain ⟨s1, s2⟩ := hm.size
  obtain ⟨N, n1, n2, -, n4, n5, n6⟩ := straight_motion_single ho.idle ho.override ho.line ho.asked (fun i hi => by
    rw [hmp]; exact (ho.near i hi).trans (by norm_num)) hrun
  rw [hticks] at n2 n4 n5 n6
  have hmove : ∀ a, c'.machinePosition a = m.position a + net a (ticksOf log) := by
    intro a
    exact (calculates_position n a h).trans (congrArg (· + net a (ticksOf log)) (congrFun ((order_position _ _).trans hmp) a))
  have hstart := ho.near _ hm.axis
  have hst := abs_le.1 hstart
  have hfinal : N ≤ (ticksOf log).length →
      c'.state = .stopped ∧ |m.position m.axis + 200 * (m.offset : ℝ) - c'.machinePosition m.axis| ≤ 1 := by
    intro hN
    obtain ⟨a1, a2⟩ := n4 hN
    refine ⟨a1.state, ?_⟩
    have a3 := a2 _ hm.axis
    rw [if_pos rfl] at a3
    have a3 := abs_le.1 a3
    obtain ⟨k, hk, -⟩ := hm.whole
    rw [hk] at a3 ⊢
    have b1 : |m.position m.axis + 200 * k - c'.machinePosition m.axis| < 2 := by
      have : |((m.position m.axis + 200 * k - c'.machinePosition m.axis : ℤ) : ℝ)| < 2 := by
        push_cast at a3 ⊢
        rw [abs_lt]
        constructor <;> linarith
      exact_mod_cast this
    have b2 : |m.position m.axis + 200 * k - c'.machinePosition m.axis| ≤ 1 := by omega
    have b3 : |((m.position m.axis + 200 * k - c'.machinePosition m.axis : ℤ) : ℝ)| ≤ 1 := by exact_mod_cast b2
    push_cast at b3 ⊢
    exact b3
  refine ⟨?_, ?_, fun i hi hne => ?_, fun hst => ?_, fun hn => hfinal ?_⟩
  · rcases le_or_gt N (ticksOf log).length with hN | hN
    · exact ⟨1, by norm_num, le_rfl, by rw [mul_one]; exact (hfinal hN).2.trans (by norm_num)⟩
    · obtain ⟨-, s, t0, t1, t2⟩ := n5 hN
      have t3 := t2 _ hm.axis
      rw [if_pos rfl] at t3
      have t3 := abs_le.1 t3
      have hL : 0 < |(m.offset : ℝ)| := by linarith
      refine ⟨s / |(m.offset : ℝ)|, by positivity, (div_le_one hL).2 t1, ?_⟩
      rw [abs_le]
      constructor <;> linarith
  · obtain ⟨-, p1, p2⟩ := n6 _ hm.axis
    rw [if_pos rfl] at p1 p2
    rw [hmp] at p1 p2
    rw [hmove]
    push_cast
    rw [add_sub_cancel_left]
    have h45 : |200 * x m.axis - (m.position m.axis : ℝ)| ≤ 9 / 20 := hstart.trans (by norm_num)
    have hne : (m.offset : ℝ) ≠ 0 := by rw [← abs_pos]; linarith
    rcases lt_or_gt_of_ne hne with hlt | hgt
    · have : ((net m.axis (ticksOf log) : ℤ) : ℝ) ≤ 0 := by exact_mod_cast net_nonpos ((p2 hlt).2 h45)
      exact mul_nonneg_of_nonpos_of_nonpos hlt.le this
    · have : (0 : ℝ) ≤ ((net m.axis (ticksOf log) : ℤ) : ℝ) := by exact_mod_cast net_nonneg ((p1 hgt).2 h45)
      exact mul_nonneg hgt.le this
  · rw [hmove, net_zero ((n6 i hi).1 (if_neg hne)), add_zero]
  · rcases le_or_gt N (ticksOf log).length with hN | hN
    · exact (hfinal hN).2
    · rw [(n5 hN).1] at hst
      cases hst
  · have h1 : (N : ℝ) ≤ n := n1.trans hn
    have h2 : N ≤ n := by exact_mod_cast h1
    exact h2.trans n2

/-- The moves that homing orders with the shipped configuration. -/
theorem shipped_moves {K : MotionKit} (t : Target K) (ht : t.cfg = .cnc3axis) (p : Ports) (rounds : List Round) {b : Board K}
    (h : Board.run t p rounds = some b) {m : HomingMove} (hm : m ∈ orders b.acts) : ShippedMove m := by
  obtain ⟨h1, h2, h3⟩ := orders_kinds t (by rw [ht]; exact le_rfl) p rounds h hm
  rw [ht] at h1 h2 h3
  have h1 : m.axis < 3 := h1
  refine ⟨h1, ?_, h3⟩
  rcases h2 with h2 | h2
  · rw [h2]
    rcases (show m.axis = 0 ∨ m.axis = 1 ∨ m.axis = 2 by omega) with e | e | e <;> rw [e] <;> norm_num [HomingConfig.cnc3axis]
  · rw [h2]
    norm_num [HomingConfig.cnc3axis]

/-! ## C115 -/

/-- **C115 for the first move**, which is ordered by `setup`; any schedule. -/
theorem homing_first_single (fpu : Fpu) (p : Ports) {rs : List Round} {b : Board (cnc3axis32.kit32 fpu)}
    (h : Board.run (shippedTarget32 fpu) p rs = some b) {m : HomingMove} (hm : m ∈ orders (Board.setup (shippedTarget32 fpu) p).acts)
    (hquiet : ∀ x ∈ b.acts.drop (Board.setup (shippedTarget32 fpu) p).acts.length, ¬ IsCommand x) :
    MakesMove32 m (rs.map Round.calcs).sum b.ctrl := by
  have hmem : .append m ∈ (Board.setup (shippedTarget32 fpu) p).acts := by
    unfold orders at hm
    rw [List.mem_filterMap] at hm
    obtain ⟨a, ha, he⟩ := hm
    cases a <;> simp at he
    subst he
    exact ha
  obtain ⟨-, -, a3, a4⟩ := (Board.setup_phase (shippedTarget32 fpu) p).2 m hmem
  have hsm := shipped_moves (shippedTarget32 fpu) rfl p [] rfl hm
  obtain ⟨c1, -⟩ := Board.beforeHoming_spec (shippedTarget32 fpu) p
  obtain ⟨n₂, q1, q2⟩ := loops_quiet _ rs h
  obtain ⟨log, hlog⟩ := q2 (by rw [q1, List.drop_left] at hquiet; exact hquiet)
  rw [a4] at hlog
  refine order_executed_single (by rw [c1]; rfl) (by rw [c1]; exact ⟨rfl, rfl⟩) hsm ⟨fun i _ => by rw [a3]; norm_num, ?_⟩ ?_ hlog
  · rw [a3]
    have := hsm.offset
    have h300 : |m.offset| ≤ 300 := by rcases this with e | e | e | e <;> rw [e] <;> norm_num
    rw [abs_le] at *
    constructor <;> push_cast <;> linarith
  · rw [a3, c1]
    funext i
    simp only [MotionCtrl.resetMachinePosition]
    split <;> rfl

/-- **C115, where the schedule is orderly**: if homing orders the move `m` in iteration `r`, inside of the machine, and gives no further
command in the iterations `rs`, then after these the motion controller is making, or has made, exactly this move. Missing: schedules
that are not orderly (as C77). How the axis brakes after a stop is C119. -/
theorem homing_move_single_partial (fpu : Fpu) (p : Ports) (rounds : List Round) {r : Round} {rs : List Round}
    {b b' b'' : Board (cnc3axis32.kit32 fpu)} (h : Board.run (shippedTarget32 fpu) p rounds = some b)
    (ho : Board.Orderly (shippedTarget32 fpu) (Board.setup (shippedTarget32 fpu) p) rounds)
    (ho' : Board.OrderlyRound (shippedTarget32 fpu) b r) (hl : b.loop (shippedTarget32 fpu) r = some b')
    (hrs : b'.loops (shippedTarget32 fpu) rs = some b'') {m : HomingMove} (hm : m ∈ (orders b'.acts).drop (orders b.acts).length)
    (hin : Inside m) (hquiet : ∀ x ∈ b''.acts.drop b'.acts.length, ¬ IsCommand x) :
    MakesMove32 m (rs.map Round.calcs).sum b''.ctrl := by
  have hi := Board.loops_phase _ rounds (Board.setup_phase _ p).1 ho h
  obtain ⟨-, ⟨new, hnew⟩, b₁, hb₁, hmv, -⟩ := Board.loop_phase _ hi ho' hl
  have hmem : .append m ∈ b'.acts.drop b.acts.length := by
    rw [← hnew] at hm ⊢
    rw [List.drop_left]
    unfold orders at hm
    rw [List.filterMap_append, List.drop_left, List.mem_filterMap] at hm
    obtain ⟨a, ha, he⟩ := hm
    cases a <;> simp at he
    subst he
    exact ha
  obtain ⟨a1, -, -, a4, a5⟩ := hmv m hmem
  have hsm := shipped_moves (shippedTarget32 fpu) rfl p (rounds ++ [r]) (run_snoc _ p rounds h hl) (List.mem_of_mem_drop hm)
  have hst : Unchanged (num width32) (MotionCtrl.fresh (cnc3axis32.kit32 fpu)).overrides b₁.ctrl :=
    Board.fill_unchanged _ (Board.loops_unchanged _ rounds (Board.setup_unchanged (shippedTarget32 fpu) p) h) hb₁
  obtain ⟨n₂, q1, q2⟩ := loops_quiet _ rs hrs
  obtain ⟨log, hlog⟩ := q2 (by rw [q1, List.drop_left] at hquiet; exact hquiet)
  rw [a5] at hlog
  exact order_executed_single a1 hst hsm hin a4 hlog

/-- With all switches open the first move is 60 mm along Z at 10 mm/s (HomingReal has that example). If the switch never closes, it is
over after 519000 calculations (8.7 s), and then Z is 12000 steps up, give or take one, and the other axes have not moved. -/
example (fpu : Fpu) {p : Ports} {rs : List Round} {b : Board (cnc3axis32.kit32 fpu)} (h : Board.run (shippedTarget32 fpu) p rs = some b)
    {m : HomingMove} (hmem : m ∈ orders (Board.setup (shippedTarget32 fpu) p).acts) (e1 : m.axis = 2) (e2 : m.offset = 60)
    (e3 : m.speed = 10) (hn : 519000 ≤ (rs.map Round.calcs).sum)
    (hquiet : ∀ x ∈ b.acts.drop (Board.setup (shippedTarget32 fpu) p).acts.length, ¬ IsCommand x) :
    b.ctrl.state = .stopped ∧ |12000 - b.ctrl.machinePosition 2| ≤ 1 ∧ b.ctrl.machinePosition 0 = 0 ∧ b.ctrl.machinePosition 1 = 0 := by
  have hp := (homing_orders_first (shippedTarget32 fpu) p m hmem).1
  have hm := homing_first_single fpu p h hmem hquiet
  have hn' : (519000 : ℝ) ≤ ((rs.map Round.calcs).sum : ℕ) := by exact_mod_cast hn
  obtain ⟨h1, h2⟩ := hm.ends (by rw [e2, e3]; refine le_trans ?_ hn'; norm_num)
  have h3 := hm.others 0 (by norm_num) (by rw [e1]; norm_num)
  have h4 := hm.others 1 (by norm_num) (by rw [e1]; norm_num)
  rw [e1, e2, hp] at h2
  rw [hp] at h3 h4
  refine ⟨h1, ?_, h3, h4⟩
  have : |((12000 - b.ctrl.machinePosition 2 : ℤ) : ℝ)| ≤ 1 := by push_cast; norm_num at h2; exact h2
  exact_mod_cast this

/-- The slowest and longest move of the shipped configuration: 300 mm along X at 1 mm/s, back from its switch at the far end. -/
example : ShippedMove ⟨fun _ => 0, 0, -300, 1⟩ ∧ Inside ⟨fun _ => 0, 0, -300, 1⟩ :=
  ⟨⟨by norm_num, .inl (by norm_num [abs_of_neg]), .inr rfl⟩, ⟨fun _ _ => by norm_num, by norm_num [abs_of_neg]⟩⟩

end Moovr.Props
