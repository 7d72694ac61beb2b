import Verif.Lemmas.EmptyPath
import Verif.Props.GCodeExecute
/-!
# Motions come to their end (C84), dwells last as long as programmed (C85)

From an idle controller: append one motion, start, and calculate as often as wanted.
-/
namespace Moovr.Props
open Num ExecSpec MotionCtrl MotionSpec

/-- What `append()` and `start()` do to an idle controller. -/
theorem started {M : Machine} {δ : ℝ} {c : MotionCtrl M.kit} (hi : Idle M δ c) (r : SimplifiedMotion) {n : Nat}
    {c' : MotionCtrl M.kit} {log} (h : c.run (push M r :: .start :: List.replicate n .calculate) = some (c', log)) :
    ∃ (c₁ : MotionCtrl M.kit) (l : _), c₁.run (List.replicate n .calculate) = some (c', l) ∧ ticksOf log = ticksOf l ∧
      c₁.state = .running ∧ c₁.buffer.level = 1 ∧ c₁.buffer.head = c.buffer.head ∧ c₁.time = c.time ∧
      c₁.machinePosition = c.machinePosition ∧ c₁.overrides = c.overrides ∧
      c₁.buffer.getHead.traj = MotionItem.setPath c.buffer.getHead.traj r ∧
      c₁.buffer.getHead.prof = MotionItem.optimizeAt M c.overrides .maximizeSpeed (fin 0)
        (MotionItem.setPath c.buffer.getHead.traj r)
        (MotionItem.setProfile M c.buffer.getHead.traj c.buffer.getHead.prof r c.overrides .minimizeSpeed) := by
  have hl := hi.level
  have hh : c.buffer.head % 32 = c.buffer.head := Nat.mod_eq_of_lt hi.head
  rw [run] at h
  simp only [push, call] at h
  rw [run] at h
  simp only [call, Option.map_map, Option.map_eq_some_iff, Prod.exists, Function.comp, Prod.mk.injEq] at h
  obtain ⟨c₂, l, h1, rfl, rfl⟩ := h
  refine ⟨_, l, h1, by simp [ticksOf], ?_⟩
  have hs : c.strategy = .minimizeSpeed := by unfold strategy; rw [hi.state]; rfl
  have hfull : c.buffer.isFull = false := by unfold MotionBuffer.isFull; rw [hl]; decide
  have happ : c.append r = { c with buffer := { c.buffer with
      level := 1
      cells := fun j => if j = c.buffer.head then
        ⟨some r, MotionItem.setPath c.buffer.getHead.traj r,
          MotionItem.setProfile M c.buffer.getHead.traj c.buffer.getHead.prof r c.overrides .minimizeSpeed⟩
        else c.buffer.cells j } } := by
    unfold append
    rw [hfull]
    simp only [MotionBuffer.push, hl, hs, MotionBuffer.length, hh, Nat.add_zero]
    rfl
  rw [happ]
  unfold start MotionBuffer.isEmpty
  simp only [Nat.zero_ne_one, decide_false, Bool.not_false, if_true]
  unfold optimize
  simp only [MotionCtrl.pushEvent, Nat.one_ne_zero, if_false, if_true, MotionBuffer.updProf, MotionBuffer.getHead, strategy, true_and,
    hi.now]
  exact ⟨rfl, rfl⟩

/-! ## Motions of length zero -/

/-- The controller runs a motion that never ends, after `k` ticks. -/
structure Hung (M : Machine) (x : Nat → Int) (k : Nat) (c : MotionCtrl M.kit) : Prop where
  state : c.state = .running
  level : c.buffer.level = 1
  duration : c.buffer.getHead.prof.duration = nan
  tStop : c.buffer.getHead.prof.tStop = posInf
  path : EmptyPath M.n c.buffer.getHead.traj.trajectory
  position : ∀ a, c.machinePosition a = if a < M.n then max (x a) (min (x a + k) (M.unspecified nan)) else x a

/-- The position one tick later. -/
theorem climb (x U : Int) (k : Nat) :
    (if max x (min (x + k) U) < U then max x (min (x + k) U) + 1 else max x (min (x + k) U)) =
      max x (min (x + (k + 1 : Nat)) U) := by
  split <;> push_cast at * <;> omega

theorem Hung.tick {M : Machine} {x : Nat → Int} {k : Nat} {c c' : MotionCtrl M.kit} {t} (h : Hung M x k c)
    (ht : c.tick = some (c', t)) : Hung M x (k + 1) c' := by
  unfold MotionCtrl.tick at ht
  have hrun : c.isRunning = true := by simp [isRunning, h.state]
  simp only [if_pos hrun] at ht
  have hs : sampleAndCheckStop { c with signals := c.signals.next } =
      { c with signals := c.signals.next, time := c.time.next } := by
    unfold sampleAndCheckStop
    simp only
    have e : M.kit.tStop c.buffer.getHead.prof = posInf := h.tStop
    rw [e, if_neg]
    exact fun hx => Bool.noConfusion ((posInf_lt c.time.next.timeInMotion).symm.trans hx)
  rw [hs] at ht
  have e : M.kit.duration c.buffer.getHead.prof = nan := h.duration
  have hb : ¬ (SampleTime.isBeyond c.time.next (K := M.kit) (M.kit.duration c.buffer.getHead.prof) = true) := by
    rw [e]
    exact fun hx => Bool.noConfusion ((nan_lt c.time.next.timeInMotion).symm.trans hx)
  unfold settle at ht
  rw [if_neg hb] at ht
  simp only [Option.map_some, Option.some.injEq, Prod.mk.injEq] at ht
  obtain ⟨rfl, -⟩ := ht
  refine ⟨h.state, h.level, h.duration, h.tStop, h.path, fun a => ?_⟩
  rw [move_empty (c := { c with signals := c.signals.next, time := c.time.next }) h.path a]
  show (if a < M.n ∧ c.machinePosition a < M.unspecified nan then c.machinePosition a + 1 else c.machinePosition a) = _
  rw [h.position a]
  by_cases ha : a < M.n
  · simp only [ha, true_and, if_true]
    exact climb _ _ _
  · simp [ha]

/-- C84 fails: a traverse (of unlimited speed) to where the machine already is never ends. However often the controller is asked
for the next signals, it stays running with this motion in its queue. All the time each axis steps towards the value that the
conversion of "not a number" to an integer yields, if it is below. -/
theorem motion_ends_violated {M : Machine} (hj : 0 < M.jMax) {δ : ℝ} {c : MotionCtrl M.kit} (hi : Idle M δ c)
    {r : SimplifiedMotion} (ht : r.type = .traverse) (hz : ZeroReq M.n r) (hv : r.vFeed = posInf) {o : ℝ} (ho : 0 < o)
    (hov : c.overrides.feedOverride = fin o) {n : Nat} {c' : MotionCtrl M.kit} {log}
    (h : c.run (push M r :: .start :: List.replicate n .calculate) = some (c', log)) :
    c'.state = .running ∧ c'.buffer.level = 1 ∧ n ≤ (ticksOf log).length ∧
      ∀ axis, axis < M.n → c'.machinePosition axis = max (c.machinePosition axis)
        (min (c.machinePosition axis + (ticksOf log).length) (M.unspecified nan)) := by
  obtain ⟨c₁, l, h1, htk, a1, a2, a3, a4, a5, a6, a7, a8⟩ := started hi r h
  have hpath : EmptyPath M.n (MotionItem.setPath c.buffer.getHead.traj r).trajectory := by
    unfold MotionItem.setPath; simp only [ht]; exact hz.path
  have hmoves : (MotionItem.setPath c.buffer.getHead.traj r).type.moves = true := by
    unfold MotionItem.setPath; simp only [ht]; rfl
  have hplan : (c₁.buffer.getHead.prof).duration = nan ∧ (c₁.buffer.getHead.prof).tStop = posInf := by
    rw [a8]
    have hp : MotionItem.setProfile M c.buffer.getHead.traj c.buffer.getHead.prof r c.overrides .minimizeSpeed =
        (((Profile.limit M (MotionItem.setPath c.buffer.getHead.traj r).trajectory c.buffer.getHead.prof).setSpeed r.vFeed).plan
          (fin 0) c.overrides.feedOverride M.minLengthSProfile .minimizeSpeed) := by
      unfold MotionItem.setProfile
      simp only [ht]
      unfold MotionItem.optimize
      rw [if_pos hmoves, hpath.length]
    rw [hp]
    have hq := plan_rest hj (zeroProf_set hpath c.buffer.getHead.prof r.vFeed) c.overrides.feedOverride M.minLengthSProfile
    generalize ((Profile.limit M (MotionItem.setPath c.buffer.getHead.traj r).trajectory c.buffer.getHead.prof).setSpeed
      r.vFeed).plan (fin 0) c.overrides.feedOverride M.minLengthSProfile .minimizeSpeed = q at hq
    obtain ⟨hq, hf⟩ := hq
    exact optimizeAt_zero hj hpath hmoves hq (hf.trans hv) ho hov
  have h0 : Hung M c.machinePosition 0 c₁ :=
    ⟨a1, a2, hplan.1, hplan.2, by rw [a7]; exact hpath, fun a => by rw [a5]; split <;> simp⟩
  obtain ⟨hH, hn⟩ := run_inv (P := fun k c => Hung M (x := c₁.machinePosition) k c)
    (fun k c s h => ⟨h.state, h.level, h.duration, h.tStop, h.path, h.position⟩) (fun k c c' t h ht => h.tick ht) n
    (by rw [a5]; exact h0) h1
  rw [htk]
  refine ⟨hH.state, hH.level, hn, fun axis ha => ?_⟩
  have := hH.position axis
  rw [if_pos ha, a5, Nat.zero_add] at this
  exact this

/-! ## Proper motions end -/

private theorem bound_of {M : Machine} {δ : ℝ} {j : Job} (hj : j.Ok M) (hb : Brief M δ j.r j.f) :
    j.T ≤ 2 ^ 32 * δ := by
  obtain ⟨v, a, hv, hf, hva, hlt⟩ := hb
  have h := hj.brisk v a hv hf hva
  have : j.T ≤ 2 * j.L / v := by rw [le_div_iff₀ hv.v0]; linarith
  have hL : val j.r.trajectory.length = j.L := rfl
  rw [hL] at hlt
  by_cases hd : 0 ≤ δ
  · linarith
  · have := hj.pos
    nlinarith

private theorem total_le {b : ℝ} : ∀ {js : List Job}, (∀ j ∈ js, j.T ≤ b) → total js ≤ js.length * b := by
  intro js
  induction js with
  | nil => intro _; simp [total]
  | cons j js ih =>
    intro h
    have h1 := h j List.mem_cons_self
    have h2 := ih fun j' hj' => h j' (List.mem_cons_of_mem _ hj')
    unfold total at h2 ⊢
    rw [List.map_cons, List.sum_cons, List.length_cons]
    push_cast
    linarith

/-- C84, for programs of up to 32 proper motions (each of positive length, connected to the one before, long and brief enough,
within reach): started on an idle controller, they all come to an end. From some number of calculations on the controller is
idle again, the axes at the end of the last motion. `c` is any state the controller can be in. -/
theorem motion_ends_partial {M : Machine} (hM : M.Ok) {δ : ℝ} (hm : CanFollow M δ (1 / 2)) {ks₀ : List (MCall M)}
    {c : MotionCtrl M.kit} {l₀} (hc : (fresh M.kit).run ks₀ = some (c, l₀)) (hi : Idle M δ c)
    {rs : List SimplifiedMotion} (hne : rs ≠ []) (hlen : rs.length ≤ 32) (hr : ∀ r ∈ rs, Executable M.n r)
    (ho : ∀ r ∈ rs, (r.vFeed * c.overrides.feedOverride).Pos) {d : Nat → ℝ}
    (hnear : ∀ axis, axis < M.n →
      |d axis * M.stepsPerMm axis - c.machinePosition axis| ≤ 1 / 2 + M.hysteresis + travel M δ axis)
    (hcon : Connected M.n d rs)
    (hall : ∀ r ∈ rs, Long M δ r ∧ Brief M δ r (r.vFeed * c.overrides.feedOverride) ∧ Reachable M r) :
    ∃ n₀ : Nat, ∀ n, n₀ ≤ n → ∃ (c' : MotionCtrl M.kit) (log : _),
      c.run (rs.map (push M) ++ .start :: List.replicate n .calculate) = some (c', log) ∧ Idle M δ c' ∧
      ∀ axis, axis < M.n →
        |endOf d rs axis * M.stepsPerMm axis - c'.machinePosition axis| ≤ 1 / 2 + M.hysteresis + travel M δ axis := by
  refine ⟨rs.length * 2 ^ 32 + 1, fun n hn => ?_⟩
  obtain ⟨c', log', hrun', -⟩ := motion_history_returns (K := M.kit)
    (ks₀ ++ (rs.map (push M) ++ .start :: List.replicate n .calculate))
  obtain ⟨c₁, l₁, log, hc₁, hrun, -⟩ := run_split _ _ hrun'
  rw [hc] at hc₁
  simp only [Option.some.injEq, Prod.mk.injEq] at hc₁
  obtain ⟨rfl, rfl⟩ := hc₁
  refine ⟨c', log, hrun, ?_⟩
  have hsplit : rs.map (push M) ++ .start :: List.replicate n .calculate =
      (rs.map (push M) ++ [.start]) ++ List.replicate n .calculate := by simp
  rw [hsplit] at hrun
  obtain ⟨c₀, lA, lB, h1, h2, rfl⟩ := run_split _ _ hrun
  have hprog : program (M := M) c.overrides.feedOverride rs (List.replicate n .calculate) =
      rs.map fun r => (r, r.vFeed * c.overrides.feedOverride) := by
    unfold program; rw [requested_calculate, List.append_nil]
  have hfst : (program (M := M) c.overrides.feedOverride rs (List.replicate n .calculate)).map Prod.fst = rs := by
    rw [hprog, List.map_map]
    exact List.map_id' rs
  obtain ⟨js, hjs, hok, -, hdone⟩ := program_executed hM hm hi hne hlen hr ho hnear h1 (feeds_calculate n c₀) h2
    (by rw [hfst]; exact hcon)
    (by
      rw [hprog]
      intro x hx
      obtain ⟨r, hr', rfl⟩ := List.mem_map.1 hx
      exact hall r hr')
  rw [hfst] at hdone
  refine hdone ?_
  have hcount : (List.replicate n (Call.calculate : MCall M)).countP Call.isCalculate = n := by
    rw [List.countP_replicate]; simp [Call.isCalculate]
  have hcount' : ((List.replicate n (Call.calculate : MCall M)).countP Call.isCalculate : ℝ) = n := by exact_mod_cast hcount
  have hl : js.length = rs.length := by
    have := congrArg List.length hjs
    rw [hprog] at this
    simpa using this
  have hb : total js ≤ js.length * (2 ^ 32 * δ) := total_le fun j hj => by
    refine bound_of (hok j hj) ?_
    have hmem : (j.r, j.f) ∈ program (M := M) c.overrides.feedOverride rs (List.replicate n .calculate) := by
      rw [← hjs]; exact List.mem_map_of_mem (f := fun j : Job => (j.r, j.f)) hj
    rw [hprog] at hmem
    obtain ⟨r, hr', he⟩ := List.mem_map.1 hmem
    simp only [Prod.mk.injEq] at he
    rw [← he.1, ← he.2]
    exact (hall r hr').2.1
  refine hb.trans_lt ?_
  rw [hl]
  have hn' : (rs.length * 2 ^ 32 + 1 : ℝ) ≤ n := by exact_mod_cast hn
  have hw := hm.width
  have : (rs.length * 2 ^ 32 + 1) * δ ≤ n * δ := mul_le_mul_of_nonneg_right hn' hw.le
  refine lt_of_lt_of_eq (b := n * δ) (by linarith) ?_
  rw [← hcount']

/-! ## Dwells -/

/-- The controller `k` ticks after the start of a dwell of `d` seconds. -/
structure Dwells (M : Machine) (δ d : ℝ) (x : Nat → Int) (k : Nat) (c : MotionCtrl M.kit) : Prop where
  during : k * δ ≤ d → c.state = .running ∧ c.buffer.level = 1 ∧ c.buffer.head < 32 ∧
    c.buffer.getHead.prof.duration = fin d ∧ c.buffer.getHead.prof.tStop = posInf ∧
    EmptyPath M.n c.buffer.getHead.traj.trajectory ∧ c.time.sampleIndex = k ∧ c.time.minStepPulseWidth = fin δ ∧
    c.time.sampleZeroOffset = fin 0 ∧
    ∀ a, c.machinePosition a = if a < M.n then max (x a) (min (x a + k) (M.unspecified nan)) else x a
  after : d < k * δ → Idle M δ c
  bound : ∀ a, a < M.n → x a ≤ c.machinePosition a ∧ c.machinePosition a ≤ max (x a) (M.unspecified nan)

theorem Dwells.tick {M : Machine} {δ d : ℝ} (hδ : 0 < δ) (hd : d + δ < 2 ^ 32 * δ) {x : Nat → Int} {k : Nat}
    {c c' : MotionCtrl M.kit} {t} (h : Dwells M δ d x k c) (ht : c.tick = some (c', t)) : Dwells M δ d x (k + 1) c' := by
  unfold MotionCtrl.tick at ht
  by_cases hk : k * δ ≤ d
  · obtain ⟨h1, h2, h3, h4, h5, h6, h7, h8, h9, h10⟩ := h.during hk
    have hrun : c.isRunning = true := by simp [isRunning, h1]
    simp only [if_pos hrun] at ht
    have hs : sampleAndCheckStop { c with signals := c.signals.next } =
        { c with signals := c.signals.next, time := c.time.next } := by
      unfold sampleAndCheckStop
      simp only
      have e : M.kit.tStop c.buffer.getHead.prof = posInf := h5
      rw [e, if_neg]
      exact fun hx => Bool.noConfusion ((posInf_lt c.time.next.timeInMotion).symm.trans hx)
    rw [hs] at ht
    have e : M.kit.duration c.buffer.getHead.prof = fin d := h4
    have hk32 : k + 1 < 2 ^ 32 := by
      have : (k + 1 : ℝ) * δ < 2 ^ 32 * δ := by linarith
      have := lt_of_mul_lt_mul_right this hδ.le
      exact_mod_cast this
    have hidx : c.time.next.sampleIndex = k + 1 := by
      show u32add c.time.sampleIndex 1 = _
      rw [h7, u32add_of_lt hk32]
    have hnow : c.time.next.timeInMotion = fin ((k + 1 : Nat) * δ) := by
      show M.kit.sample (u32add c.time.sampleIndex 1) c.time.minStepPulseWidth c.time.sampleZeroOffset = _
      rw [h7, u32add_of_lt hk32, h8, h9]
      show fin _ * fin _ + fin 0 = _
      rw [fin_mul, fin_add, add_zero]
    have hbe : SampleTime.isBeyond c.time.next (K := M.kit) (M.kit.duration c.buffer.getHead.prof) =
        decide (d < (k + 1 : Nat) * δ) := by
      rw [e]
      show (fin d).lt (c.time.next.timeInMotion : Num) = _
      rw [hnow]; rfl
    unfold settle at ht
    simp only [hbe] at ht
    have hb := h.bound
    by_cases hk' : d < (k + 1 : Nat) * δ
    · rw [if_pos (by simpa using hk')] at ht
      have hl : ¬ c.buffer.level > 1 := by omega
      rw [if_neg hl] at ht
      simp only [Option.map_some, Option.some.injEq, Prod.mk.injEq] at ht
      obtain ⟨rfl, -⟩ := ht
      refine ⟨fun hle => absurd hk' (not_lt.2 hle), fun _ => ?_, hb⟩
      refine ⟨rfl, ?_, ?_, h8, rfl, rfl, rfl⟩
      · show u32sub c.buffer.level 1 = 0
        rw [h2]; rfl
      · show (c.buffer.head + 1) % 32 < 32
        exact Nat.mod_lt _ (by decide)
    · rw [if_neg (by simpa using hk')] at ht
      simp only [Option.map_some, Option.some.injEq, Prod.mk.injEq] at ht
      obtain ⟨rfl, -⟩ := ht
      have hpos : ∀ a, (MotionCtrl.move { c with signals := c.signals.next, time := c.time.next }).1.machinePosition a =
          if a < M.n then max (x a) (min (x a + (k + 1 : Nat)) (M.unspecified nan)) else x a := fun a => by
        rw [move_empty (c := { c with signals := c.signals.next, time := c.time.next }) h6 a]
        show (if a < M.n ∧ c.machinePosition a < M.unspecified nan then c.machinePosition a + 1 else c.machinePosition a) = _
        rw [h10 a]
        by_cases ha : a < M.n
        · simp only [ha, true_and, if_true]
          exact climb _ _ _
        · simp [ha]
      refine ⟨fun _ => ⟨h1, h2, h3, h4, h5, h6, hidx, h8, h9, hpos⟩, fun hlt => absurd hlt hk', fun a ha => ?_⟩
      rw [hpos a, if_pos ha]
      omega
  · have hI := h.after (not_le.1 hk)
    have hrun : ¬ c.isRunning = true := by simp [isRunning, hI.state]
    simp only [if_neg hrun, Option.some.injEq, Prod.mk.injEq] at ht
    obtain ⟨rfl, -⟩ := ht
    have hlt : d < (k + 1 : Nat) * δ := by
      have := not_le.1 hk
      push_cast; linarith
    exact ⟨fun hle => absurd hlt (not_lt.2 hle), fun _ => ⟨hI.state, hI.level, hI.head, hI.width, hI.now, hI.index, hI.offset⟩,
      h.bound⟩

/-- A dwell, as the interpreter makes it: a pause with a duration, without length and displacement. -/
structure Dwell (n : Nat) (r : SimplifiedMotion) (d : ℝ) : Prop where
  type : r.type = .pauseAndResume
  duration : r.duration = fin d
  zero : ZeroReq n r

private theorem dwell_start {M : Machine} {c₁ : MotionCtrl M.kit} {x₀ : Path} {p₀ : Profile} {o : Overrides} {r : SimplifiedMotion}
    {d : ℝ} (hr : Dwell M.n r d) (h : c₁.buffer.getHead.prof = MotionItem.optimizeAt M o .maximizeSpeed (fin 0)
        (MotionItem.setPath x₀ r) (MotionItem.setProfile M x₀ p₀ r o .minimizeSpeed)) :
    c₁.buffer.getHead.prof.duration = fin d ∧ c₁.buffer.getHead.prof.tStop = p₀.tStop := by
  rw [h]
  unfold MotionItem.optimizeAt MotionItem.optimize MotionItem.setProfile MotionItem.setPath
  simp only [hr.type, MotionType.moves, Bool.false_eq_true, if_false, Profile.setDuration, hr.duration, and_self]

private theorem dwell_path {n : Nat} {x₀ : Path} {r : SimplifiedMotion} {d : ℝ} (hr : Dwell n r d) :
    EmptyPath n (MotionItem.setPath x₀ r).trajectory := by
  unfold MotionItem.setPath; simp only [hr.type]; exact hr.zero.path

private theorem dwell_run {M : Machine} {δ d : ℝ} (hδ : 0 < δ) (hd0 : 0 ≤ d) (hd : d + δ < 2 ^ 32 * δ) {c : MotionCtrl M.kit}
    (hi : Idle M δ c) {r : SimplifiedMotion} (hr : Dwell M.n r d) (hslot : c.buffer.getHead.prof.tStop = posInf)
    {n : Nat} {c' : MotionCtrl M.kit} {log} (h : c.run (push M r :: .start :: List.replicate n .calculate) = some (c', log)) :
    Dwells M δ d c.machinePosition (ticksOf log).length c' ∧ n ≤ (ticksOf log).length := by
  obtain ⟨c₁, l, h1, htk, a1, a2, a3, a4, a5, a6, a7, a8⟩ := started hi r h
  obtain ⟨b1, b2⟩ := dwell_start hr a8
  have h0 : Dwells M δ d c.machinePosition 0 c₁ := by
    refine ⟨fun _ => ⟨a1, a2, by rw [a3]; exact hi.head, b1, b2.trans hslot, by rw [a7]; exact dwell_path hr,
      by rw [a4]; exact hi.index, by rw [a4]; exact hi.width, by rw [a4]; exact hi.offset, fun a => ?_⟩, fun hlt => ?_, fun a _ => ?_⟩
    · rw [a5]; split <;> simp
    · simp at hlt; linarith
    · rw [a5]; exact ⟨le_rfl, le_max_left _ _⟩
  obtain ⟨hH, hn⟩ := run_inv (P := fun k c => Dwells M δ d (x := c₁.machinePosition) k c)
    (fun k c s h => ⟨h.during, fun hlt => ⟨(h.after hlt).state, (h.after hlt).level, (h.after hlt).head, (h.after hlt).width,
      (h.after hlt).now, (h.after hlt).index, (h.after hlt).offset⟩, h.bound⟩)
    (fun k c c' t h ht => h.tick hδ hd ht) n (by rw [a5]; exact h0) h1
  rw [htk]
  rw [Nat.zero_add, a5] at hH
  exact ⟨hH, hn⟩

/-- C85, if the place in the queue was used before by a motion that had been started (its old stop time is infinite then), and
if no axis is below the value that the conversion of "not a number" to an integer yields: the dwell lasts exactly as long as
programmed, then the controller is idle again, and no axis makes a step. -/
theorem pause_lasts_partial {M : Machine} {δ d : ℝ} (hδ : 0 < δ) (hd0 : 0 ≤ d) (hd : d + δ < 2 ^ 32 * δ) {c : MotionCtrl M.kit}
    (hi : Idle M δ c) {r : SimplifiedMotion} (hr : Dwell M.n r d) (hslot : c.buffer.getHead.prof.tStop = posInf)
    (hU : ∀ axis, axis < M.n → M.unspecified nan ≤ c.machinePosition axis) {n : Nat} {c' : MotionCtrl M.kit} {log}
    (h : c.run (push M r :: .start :: List.replicate n .calculate) = some (c', log)) :
    n ≤ (ticksOf log).length ∧
      ((ticksOf log).length * δ ≤ d → c'.state = .running ∧ c'.buffer.level = 1) ∧
      (d < (ticksOf log).length * δ → Idle M δ c') ∧
      ∀ axis, axis < M.n → c'.machinePosition axis = c.machinePosition axis := by
  obtain ⟨hD, hn⟩ := dwell_run hδ hd0 hd hi hr hslot h
  refine ⟨hn, fun ht => ⟨(hD.during ht).1, (hD.during ht).2.1⟩, hD.after, fun axis ha => ?_⟩
  have := hD.bound axis ha
  have := hU axis ha
  omega

/-- C85 fails: in a place of the queue that was never used before (or used by a dwell only), a dwell of at least a tick stops the
controller at the first tick. However often the next signals are calculated, the dwell stays in the queue. -/
theorem pause_lasts_violated {M : Machine} {δ d : ℝ} (hδ : 0 < δ) (hd : δ ≤ d) {c : MotionCtrl M.kit} (hi : Idle M δ c)
    {r : SimplifiedMotion} (hr : Dwell M.n r d) (hslot : c.buffer.getHead.prof.tStop = fin 0) {n : Nat} {c' : MotionCtrl M.kit} {log}
    (h : c.run (push M r :: .start :: List.replicate (n + 1) .calculate) = some (c', log)) :
    c'.state = .stopped ∧ c'.buffer.level = 1 ∧ Event.motionStopped ∈ c'.events := by
  obtain ⟨c₁, l, h1, htk, a1, a2, a3, a4, a5, a6, a7, a8⟩ := started hi r h
  obtain ⟨b1, b2⟩ := dwell_start hr a8
  have key : ∀ k (x x' : MotionCtrl M.kit) t,
      ((k = 0 → x.state = .running ∧ x.time = c.time ∧ x.buffer = c₁.buffer) ∧
      (0 < k → x.state = .stopped ∧ x.buffer.level = 1 ∧ Event.motionStopped ∈ x.events)) → x.tick = some (x', t) →
      ((k + 1 = 0 → x'.state = .running ∧ x'.time = c.time ∧ x'.buffer = c₁.buffer) ∧
      (0 < k + 1 → x'.state = .stopped ∧ x'.buffer.level = 1 ∧ Event.motionStopped ∈ x'.events)) := by
    intro k x x' t hx ht
    refine ⟨fun h0 => absurd h0 (Nat.succ_ne_zero k), fun _ => ?_⟩
    unfold MotionCtrl.tick at ht
    by_cases hk : k = 0
    · obtain ⟨e1, e2, e3⟩ := hx.1 hk
      have hrun : x.isRunning = true := by simp [isRunning, e1]
      simp only [if_pos hrun] at ht
      have hnow : x.time.next.timeInMotion = fin δ := by
        rw [e2]
        show M.kit.sample (u32add c.time.sampleIndex 1) c.time.minStepPulseWidth c.time.sampleZeroOffset = _
        rw [hi.index, hi.width, hi.offset]
        show fin ((u32add 0 1 : Nat) : ℝ) * fin δ + fin 0 = _
        rw [fin_mul, fin_add, u32add_of_lt (by norm_num)]; simp
      have hs : sampleAndCheckStop { x with signals := x.signals.next } =
          MotionCtrl.pushEvent { x with signals := x.signals.next, time := x.time.next, state := .stopped } .motionStopped := by
        unfold sampleAndCheckStop
        simp only
        rw [if_pos]
        have e : M.kit.tStop x.buffer.getHead.prof = fin 0 := by rw [e3]; exact b2.trans hslot
        rw [e]
        show (fin 0).lt (x.time.next.timeInMotion : Num) = true
        rw [hnow]
        simpa [Num.lt] using hδ
      rw [hs] at ht
      unfold settle at ht
      have hb : ¬ (SampleTime.isBeyond (MotionCtrl.pushEvent
          { x with signals := x.signals.next, time := x.time.next, state := .stopped } Event.motionStopped).time (K := M.kit)
          (M.kit.duration (MotionCtrl.pushEvent
          { x with signals := x.signals.next, time := x.time.next, state := .stopped } Event.motionStopped).buffer.getHead.prof)
          = true) := by
        have e : M.kit.duration x.buffer.getHead.prof = fin d := by rw [e3]; exact b1
        show ¬ ((M.kit.duration x.buffer.getHead.prof).lt (x.time.next.timeInMotion : Num) = true)
        rw [e, hnow]
        simpa [Num.lt] using hd
      rw [if_neg hb] at ht
      simp only [Option.map_some, Option.some.injEq, Prod.mk.injEq] at ht
      obtain ⟨rfl, -⟩ := ht
      refine ⟨rfl, ?_, ?_⟩
      · show x.buffer.level = 1
        rw [e3]; exact a2
      · show Event.motionStopped ∈ x.events ++ [Event.motionStopped]
        simp
    · obtain ⟨e1, e2, e3⟩ := hx.2 (Nat.pos_of_ne_zero hk)
      have hrun : ¬ x.isRunning = true := by simp [isRunning, e1]
      simp only [if_neg hrun, Option.some.injEq, Prod.mk.injEq] at ht
      obtain ⟨rfl, -⟩ := ht
      exact ⟨e1, e2, e3⟩
  obtain ⟨hH, hn⟩ := run_inv (P := fun k (x : MotionCtrl M.kit) =>
      (k = 0 → x.state = .running ∧ x.time = c.time ∧ x.buffer = c₁.buffer) ∧
      (0 < k → x.state = .stopped ∧ x.buffer.level = 1 ∧ Event.motionStopped ∈ x.events))
    (fun k x s hx => hx) key (n + 1) ⟨fun _ => ⟨a1, a4, rfl⟩, fun h0 => absurd h0 (lt_irrefl 0)⟩ h1
  exact hH.2 (by omega)

/-- C85 fails: during a dwell every axis below the value that the conversion of "not a number" to an integer yields is moved
there, one step per tick. -/
theorem pause_still_violated {M : Machine} {δ d : ℝ} (hδ : 0 < δ) (hd0 : 0 ≤ d) (hd : d + δ < 2 ^ 32 * δ) {c : MotionCtrl M.kit}
    (hi : Idle M δ c) {r : SimplifiedMotion} (hr : Dwell M.n r d) (hslot : c.buffer.getHead.prof.tStop = posInf)
    {n : Nat} {c' : MotionCtrl M.kit} {log} (h : c.run (push M r :: .start :: List.replicate n .calculate) = some (c', log))
    (ht : (ticksOf log).length * δ ≤ d) {axis : Nat} (ha : axis < M.n)
    (hU : c.machinePosition axis + (ticksOf log).length ≤ M.unspecified nan) :
    c'.machinePosition axis = c.machinePosition axis + (ticksOf log).length := by
  obtain ⟨hD, -⟩ := dwell_run hδ hd0 hd hi hr hslot h
  have := (hD.during ht).2.2.2.2.2.2.2.2.2 axis
  rw [this, if_pos ha]
  omega

/-! ## The places of the queue -/

private theorem settle_cells {K : MotionKit} (fuel : Nat) : ∀ {c : MotionCtrl K} {x}, settle fuel c = some x →
    x.1.buffer.cells = c.buffer.cells := by
  induction fuel with
  | zero => intro c x h; simp [settle] at h
  | succ fuel ih =>
    intro c x h
    unfold settle at h
    split at h
    · split at h
      · exact ih (c := c.nextMotion) h
      · simp only [Option.some.injEq] at h; subst h; rfl
    · simp only [Option.some.injEq] at h; subst h; rfl

private theorem tick_cells {K : MotionKit} {c c' : MotionCtrl K} {t} (h : c.tick = some (c', t)) :
    c'.buffer.cells = c.buffer.cells := by
  unfold MotionCtrl.tick at h
  simp only at h
  split at h
  · simp only [Option.map_eq_some_iff, Prod.mk.injEq] at h
    obtain ⟨x, hx, rfl, -⟩ := h
    rw [settle_cells _ hx]
    unfold sampleAndCheckStop
    simp only
    split <;> rfl
  · simp only [Option.some.injEq, Prod.mk.injEq] at h
    rw [← h.1]

/-- Where a motion was started, an infinite stop time is left behind. -/
theorem used_slot {M : Machine} (hM : M.Ok) {δ : ℝ} {c : MotionCtrl M.kit} (hi : Idle M δ c) {r : SimplifiedMotion}
    (hr : Executable M.n r) (ho : (r.vFeed * c.overrides.feedOverride).Pos) {n : Nat} {c' : MotionCtrl M.kit} {log}
    (h : c.run (push M r :: .start :: List.replicate n .calculate) = some (c', log)) :
    (c'.buffer.cells c.buffer.head).prof.tStop = posInf := by
  obtain ⟨c₀, l₀, l, h₀, hrun, rfl⟩ := run_split (K := M.kit) [push M r, .start] (List.replicate n .calculate) h
  have e : c₀ = (c.append r).start := by
    simp only [push, run, call, Option.map_some, Option.some.injEq, Prod.mk.injEq] at h₀
    exact h₀.1.symm
  have hq0 : Queue (Waits M) c.buffer [] := ⟨hi.head, hi.level, by simp, fun k hk => by simp at hk⟩
  obtain ⟨q1, -, -, -, q5, -, q7, -, -⟩ := append_queue hM hq0 hr.moves ho (by decide)
  obtain ⟨s1, -⟩ := start_queue (by simp) q1 (by rw [q7]; simpa using ho) (by rw [q5]; exact hi.now)
  rw [← e] at s1
  have hcell := s1.cell 0 (by simp)
  obtain ⟨j, -, -, hj, -⟩ := runs_of_restPlan hr hcell.1 hcell.2
  have hhead : c₀.buffer.head = c.buffer.head := by
    obtain ⟨c₁, l', h1, -, -, -, b3, -⟩ := started hi r (n := 0) h₀
    simp only [List.replicate_zero, run, Option.some.injEq, Prod.mk.injEq] at h1
    rw [← h1.1, b3]
  obtain ⟨hc, -⟩ := run_inv (P := fun _ (x : MotionCtrl M.kit) => x.buffer.cells = c₀.buffer.cells) (fun _ _ _ hx => hx)
    (fun _ _ _ _ hx ht => (tick_cells ht).trans hx) n (k := 0) rfl hrun
  have hns := hj.noStop
  rw [Nat.add_zero, Nat.mod_eq_of_lt s1.head, hhead] at hns
  rw [hc]
  exact hns

/-! ## G-code -/

open GCode Parser

/-- What the interpreter makes of a line that is no arc and leads nowhere. -/
theorem nowhere {q : Parser} {mi m' : SimplifiedMotion} (mo : GCode.Motion q mi m') (ha : isArc mi = false) {rho : ℝ}
    (hrho : mi.trajectory.radius = fin rho) (hd : ∀ i, i < 3 → m'.trajectory.delta i = fin 0) : ZeroReq 3 m' := by
  obtain ⟨a0, a1⟩ := mo.axes_straight ha
  obtain ⟨-, hφ⟩ := mo.angles_straight ha
  obtain ⟨rho', hrho'⟩ := mo.finite ⟨rho, hrho⟩
  have hl := mo.length hrho' hφ hd
  refine ⟨?_, hd, a0.ge, a1.ge⟩
  rw [hl, a0, a1]
  simp [List.range_succ]

/-- A traverse to the present position, in any state of the interpreter, never ends. -/
theorem traverse_nowhere {p p' : Parser} {m m' : SimplifiedMotion} (hp : GCode.Rest p) (h : p.parseBlock m = .ok (p', m'))
    (hm : Moved p' m') (ht : m'.type = .traverse) {rho : ℝ} (hrho : m.trajectory.radius = fin rho)
    (hs : ∀ i, i < 3 → p'.state.currentPosition i = p.state.currentPosition i) {M : Machine} (hn : M.n = 3) (hj : 0 < M.jMax)
    {δ : ℝ} {c : MotionCtrl M.kit} (hi : Idle M δ c) {o : ℝ} (ho : 0 < o) (hov : c.overrides.feedOverride = fin o) {n : Nat}
    {c' : MotionCtrl M.kit} {log} (hrun : c.run (push M m' :: .start :: List.replicate n .calculate) = some (c', log)) :
    c'.state = .running ∧ c'.buffer.level = 1 := by
  obtain ⟨q, mi, mo, ty, tr, cur, nx, -⟩ := moved_motion hp h hm
  have hz : ZeroReq 3 m' := nowhere mo
    (by rw [← Bool.not_eq_true, isArc_iff]; unfold IsArc; rw [ty, ht]; simp) (by rw [tr]; exact hrho) fun i hi => by
      rw [mo.delta i hi, nx i hi, cur, hs i hi, sub_self]; simp [num]
  have := motion_ends_violated hj hi ht (hn ▸ hz) (traverse_speed hp h hm ht) ho hov hrun
  exact ⟨this.1, this.2.1⟩

/-- The dwells of the interpreter: G4 with P, without X, Y, Z. -/
theorem gcode_dwell {p p' : Parser} {m m' : SimplifiedMotion} (hr : GCode.Rest p) (h : p.parseBlock m = .ok (p', m'))
    (he : NoCollision p'.error) (hd : IsDwell p.block.words) (hn : ∀ l ∈ ['X', 'Y', 'Z'], ¬ HasLetter p.block.words l)
    (hset : Settled p.state) {rho : ℝ} (hrho : m.trajectory.radius = fin rho) {x : ℚ} (hx : HasVal p.block.words 'P' x) :
    Dwell 3 m' x := by
  obtain ⟨h1, -, h2, -, -, h3⟩ := (dwell_partial hr h he).1 hd
  obtain ⟨-, hδ⟩ := h3 hn hset
  obtain ⟨q, x', hk, hq, hx', hv, hs, hres, hmo⟩ := dwell_state hr h he hd
  exact ⟨h1, h2 x hx, nowhere hmo rfl hrho hδ⟩

/-! ## Examples -/

/-- "G0 X0" after a reset: accepted and reported; as the first motion of the cnc3axis machine it never ends. -/
example : ∃ (p p' : Parser) (m' : SimplifiedMotion), Parser.reset.getBlock (codes "G0 X0") = .ok p ∧
    p.parseBlock (.fresh 3) = .ok (p', m') ∧ p'.result = .okContextUpdateAndMotion ∧
    ∀ n, ∃ c' log, (fresh cnc3axis.kit).run (.configure 375 (fin (1 / 60000)) :: push cnc3axis m' :: .start ::
      List.replicate n .calculate) = some (c', log) ∧ c'.state = .running ∧ c'.buffer.level = 1 := by
  obtain ⟨p1, p', m', g1, w1, s1, r1, e1, he1⟩ := runs_line .reset (t := "G0 X0") (ws := [⟨71, 0, 0⟩, ⟨88, 0, 0⟩])
    (by decide +kernel) (by decide +kernel) (by decide +kernel) (by decide +kernel) (.fresh 3)
  obtain ⟨t1, q1⟩ := traverse_of r1.rest e1 he1 (by rw [w1]; decide +kernel) (by rw [w1]; decide +kernel) (by rw [w1]; decide +kernel)
  have mv1 : Moved p' m' := ⟨by rw [q1]; decide, by rw [t1]; rfl⟩
  have ax := fun {i} (hi : i < 3) => axis_at r1.rest e1 mv1 s1 (by rw [w1]; decide +kernel) (i := i) hi
  have hs : ∀ i, i < 3 → p'.state.currentPosition i = p1.state.currentPosition i := by
    have e0 : ∀ i, p1.state.currentPosition i = 0 := fun i => by rw [s1]; rfl
    intro i hi
    rw [e0]
    interval_cases i
    · exact (ax (i := 0) (by decide)).1 0 (by rw [w1]; decide +kernel)
    · exact (ax (i := 1) (by decide)).2.1 (by rw [w1]; decide +kernel)
    · exact (ax (i := 2) (by decide)).2.1 (by rw [w1]; decide +kernel)
  refine ⟨p1, p', m', g1, e1, q1, fun n => ?_⟩
  obtain ⟨c', log, hrun, -⟩ := motion_history_returns (K := cnc3axis.kit)
    (.configure 375 (fin (1 / 60000)) :: push cnc3axis m' :: .start :: List.replicate n .calculate)
  refine ⟨c', log, hrun, ?_⟩
  obtain ⟨c₁, l₁, l₂, h1, h2, -⟩ := run_split (K := cnc3axis.kit) [.configure 375 (fin (1 / 60000))]
    (push cnc3axis m' :: .start :: List.replicate n .calculate) hrun
  simp only [run, call, Option.map_some, Option.some.injEq, Prod.mk.injEq] at h1
  obtain ⟨rfl, -⟩ := h1
  exact traverse_nowhere r1.rest e1 mv1 t1 (rho := 0) rfl hs rfl (by norm_num [cnc3axis]) (idle_configured _ _ _)
    (o := 1) one_pos rfl h2

/-- "G4 P1" after a reset, as the first motion of the cnc3axis machine: stops at once, the dwell stays in the queue. -/
example : ∃ (p p' : Parser) (m' : SimplifiedMotion), Parser.reset.getBlock (codes "G4 P1") = .ok p ∧
    p.parseBlock (.fresh 3) = .ok (p', m') ∧ m'.duration = fin 1 ∧
    ∀ n, ∃ c' log, (fresh cnc3axis.kit).run (.configure 375 (fin (1 / 60000)) :: push cnc3axis m' :: .start ::
      List.replicate (n + 1) .calculate) = some (c', log) ∧ c'.state = .stopped ∧ c'.buffer.level = 1 := by
  obtain ⟨p1, p', m', g1, w1, s1, r1, e1, he1⟩ := runs_line .reset (t := "G4 P1") (ws := [⟨71, 4, 40⟩, ⟨80, 1, 0⟩])
    (by decide +kernel) (by decide +kernel) (by decide +kernel) (by decide +kernel) (.fresh 3)
  have hD := gcode_dwell r1.rest e1 he1 (by rw [w1]; decide +kernel) (by rw [w1]; decide +kernel)
    (by rw [s1]; exact ⟨rfl, fun i hi => by simp [Parser.reset, State.initial]⟩) (rho := 0) rfl (x := 1) (by rw [w1]; decide +kernel)
  have hD' : Dwell 3 m' 1 := by simpa using hD
  refine ⟨p1, p', m', g1, e1, hD'.duration, fun n => ?_⟩
  obtain ⟨c', log, hrun, -⟩ := motion_history_returns (K := cnc3axis.kit)
    (.configure 375 (fin (1 / 60000)) :: push cnc3axis m' :: .start :: List.replicate (n + 1) .calculate)
  refine ⟨c', log, hrun, ?_⟩
  obtain ⟨c₁, l₁, l₂, h1, h2, -⟩ := run_split (K := cnc3axis.kit) [.configure 375 (fin (1 / 60000))]
    (push cnc3axis m' :: .start :: List.replicate (n + 1) .calculate) hrun
  simp only [run, call, Option.map_some, Option.some.injEq, Prod.mk.injEq] at h1
  obtain ⟨rfl, -⟩ := h1
  have := pause_lasts_violated (δ := 1 / 60000) (by norm_num) (by norm_num) (idle_configured _ _ _) hD' rfl h2
  exact ⟨this.1, this.2.1⟩

/-- A dwell of one second, after a motion of 1 mm that has ended (and a flush, as the homing does): 2000 ticks per second. After
2000 ticks it is not over, after more than 2000 ticks the controller is idle; the machine stands still. -/
example : ∃ n c₀ l₀, (fresh Example.machine.kit).run (.configure 100 (fin (1 / 2000)) :: push Example.machine Example.request :: .start ::
      (List.replicate n .calculate ++ [.flush])) = some (c₀, l₀) ∧ Idle Example.machine (1 / 2000) c₀ ∧
    199 ≤ c₀.machinePosition 0 ∧
    ∀ r, Dwell 1 r 1 → ∀ k c' log, c₀.run (push Example.machine r :: .start :: List.replicate k .calculate) = some (c', log) →
      ((ticksOf log).length ≤ 2000 → c'.state = .running) ∧ (2000 < (ticksOf log).length → Idle Example.machine (1 / 2000) c') ∧
      c'.machinePosition 0 = c₀.machinePosition 0 := by
  obtain ⟨c', log, hrun, -⟩ := motion_history_returns (K := Example.machine.kit)
    (.configure 100 (fin (1 / 2000)) :: push Example.machine Example.request :: .start :: List.replicate 4001 .calculate)
  obtain ⟨c₁, l₁, l₂, h1, h2, rfl⟩ := run_split (K := Example.machine.kit) [.configure 100 (fin (1 / 2000))]
    (push Example.machine Example.request :: .start :: List.replicate 4001 .calculate) hrun
  simp only [run, call, Option.map_some, Option.some.injEq, Prod.mk.injEq] at h1
  obtain ⟨rfl, rfl⟩ := h1
  have hf : CanFollow Example.machine (1 / 2000) 1 := by
    refine ⟨by norm_num, by norm_num [Example.machine], fun _ _ => by norm_num [Example.machine], fun _ _ => ?_⟩
    norm_num [travel, Example.machine]
  have h0 : ∀ axis, axis < Example.machine.n → axis = 0 := by simp [Example.machine]
  have hfeed : (fresh Example.machine.kit |>.configure 100 (fin (1 / 2000))).overrides.feedOverride = fin 1 := rfl
  have hpos : (Example.request.vFeed * (fresh Example.machine.kit |>.configure 100 (fin (1 / 2000))).overrides.feedOverride).Pos := by
    rw [hfeed]; show (fin 2 * fin 1).Pos; rw [fin_mul]; norm_num [Num.Pos]
  obtain ⟨j, hj, hjf, hok, -, hend⟩ := motion_executed Example.machine_ok hf (idle_configured Example.machine 100 (1 / 2000))
    ExecuteExample.executable_request hpos
    (by
      intro axis ha; rw [h0 axis ha, ExecuteExample.place_request]; norm_num [Example.machine]
      show |((0 : Int) : ℝ)| ≤ _; norm_num)
    (ExecuteExample.reachable (.inl rfl)) (by rw [hfeed]; exact ExecuteExample.brief (.inl rfl) (by norm_num)) h2
  have hL : j.L = 1 := by unfold Job.L; rw [hj]; rfl
  have hT : j.T ≤ 2 := by
    have := hok.brisk 1 1 (hj ▸ ExecuteExample.allowed (.inl rfl)) (by
      rw [hjf, hfeed]; show (fin 1).le (fin 2 * fin 1) = true; rw [fin_mul, le_fin]; norm_num) (by rw [hL]; norm_num)
    rw [hL] at this; linarith
  obtain ⟨hi, hn⟩ := hend (by norm_num; linarith)
  have hnear := hn 0 one_pos
  rw [ExecuteExample.place_request, hL, abs_le] at hnear
  norm_num [Example.machine, travel] at hnear
  have h3 : ((198 : Int) : ℝ) < c'.machinePosition 0 := by push_cast; linarith [hnear.2]
  have h3 := Int.cast_lt.1 h3
  have hslot := used_slot Example.machine_ok (idle_configured Example.machine 100 (1 / 2000)) ExecuteExample.executable_request hpos h2
  have hslot0 : (c'.buffer.cells 0).prof.tStop = posInf := hslot
  have hfl : c'.flushMotionBuffer = { c' with time := c'.time.reinit, buffer := c'.buffer.flush } := by
    unfold flushMotionBuffer isRunning; rw [hi.state]; rfl
  have hI : Idle Example.machine (1 / 2000) c'.flushMotionBuffer := by
    rw [hfl]; exact ⟨hi.state, rfl, show 0 < 32 by decide, hi.width, rfl, rfl, rfl⟩
  have join : ∀ (ks₁ ks₂ : List (MCall Example.machine)) {a b d : MotionCtrl Example.machine.kit} {la lb},
      a.run ks₁ = some (b, la) → b.run ks₂ = some (d, lb) → a.run (ks₁ ++ ks₂) = some (d, la ++ lb) := by
    intro ks₁ ks₂
    induction ks₁ with
    | nil =>
      intro a b d la lb ha hb
      simp only [run, Option.some.injEq, Prod.mk.injEq] at ha
      obtain ⟨rfl, rfl⟩ := ha
      exact hb
    | cons k ks ih =>
      intro a b d la lb ha hb
      rw [run] at ha
      split at ha
      · simp at ha
      · rename_i c₁ x hx
        simp only [Option.map_eq_some_iff, Prod.exists, Prod.mk.injEq] at ha
        obtain ⟨c₂, l, h1, rfl, rfl⟩ := ha
        rw [List.cons_append, run, hx]
        simp [ih h1 hb]
  have hjoin := join _ [.flush] hrun (d := c'.flushMotionBuffer) rfl
  refine ⟨4001, c'.flushMotionBuffer, _, hjoin, hI, by rw [hfl]; show 199 ≤ c'.machinePosition 0; omega, ?_⟩
  intro r hr k c'' log hrun'
  obtain ⟨-, d1, d2, d3⟩ := pause_lasts_partial (δ := 1 / 2000) (d := 1) (by norm_num) (by norm_num) (by norm_num) hI hr
    (by rw [hfl]; exact hslot0) (fun axis ha => by
      rw [h0 axis ha, hfl]; show (0 : Int) ≤ c'.machinePosition 0; omega) hrun'
  refine ⟨fun hle => (d1 ?_).1, fun hlt => d2 ?_, d3 0 one_pos⟩
  · have : ((ticksOf log).length : ℝ) ≤ 2000 := by exact_mod_cast hle
    linarith
  · have : (2000 : ℝ) < (ticksOf log).length := by exact_mod_cast hlt
    linarith

/-- A dwell at step -100 of an axis, on a machine where "not a number" is converted to 0 (as on ARM processors): the axis moves
up, one step per tick. -/
example {c : MotionCtrl Example.machine.kit} (hi : Idle Example.machine (1 / 2000) c) (hp : c.machinePosition 0 = -100)
    (hslot : c.buffer.getHead.prof.tStop = posInf) {r : SimplifiedMotion} (hr : Dwell 1 r 1) {n : Nat} {c' log}
    (h : c.run (push Example.machine r :: .start :: List.replicate n .calculate) = some (c', log))
    (ht : (ticksOf log).length = 100) : c'.machinePosition 0 = 0 := by
  have := pause_still_violated (δ := 1 / 2000) (d := 1) (by norm_num) (by norm_num) (by norm_num) hi hr hslot h
    (by rw [ht]; norm_num) (axis := 0) one_pos (by rw [hp, ht]; exact le_rfl)
  rw [this, hp, ht]; rfl

end Moovr.Props
